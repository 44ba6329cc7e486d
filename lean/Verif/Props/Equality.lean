import Verif.Model.Equality
import Verif.Props.Codec

/-! # C79: equality of arrays, operations, scripts and transactions -/

namespace BCash
open Spec

/-! ## Specification -/

/-- Spec: what an operation does, without the mark how it is to be pushed. -/
inductive Spec.OpView where
  | opcode (c : Opcode)
  | invalidByte (b : UInt8)
  | bytes (bs : Bytes)
  | boolean (b : Bool)
  | integer (i : Int)

/-- Spec: the view of an operation. -/
def Spec.opView : Op Bytes → OpView
  | .code c => .opcode c
  | .invalid b => .invalidByte b
  | .pushByteArray a _ => .bytes a
  | .pushBoolean b => .boolean b
  | .pushInteger i => .integer i

/-- Spec: a script without names, source locations, provenance and push marks. -/
def Spec.scriptView (s : List TaggedOp) : List OpView := s.map fun o => opView (o.op.map ByteArray.data)

/-- Spec: the data of an input. -/
structure Spec.InputView where
  prevHash : Bytes
  prevVout : UInt32
  script : List OpView
  sequence : UInt32
  lockScript : Option (List OpView)
  value : Option UInt64
  isP2sh : Option Bool
  sigHashFlags : Option (List SigHashFlags)

/-- Spec: the data of an input. -/
def Spec.inputView (i : RichInput) : InputView :=
  ⟨i.prevHash.1.data, i.prevVout, scriptView i.script, i.sequence, i.lockScript.map scriptView, i.value, i.isP2sh,
   i.sigHashFlags⟩

/-- Spec: the data of a transaction. -/
def Spec.txView (t : RichTx) : Int32 × List InputView × List (UInt64 × List OpView) × UInt32 :=
  (t.version, t.inputs.map inputView, t.outputs.map fun o => (o.value, scriptView o.script), t.lockTime)

/-! ## Proofs -/

theorem op_beq_iff (a b : Op Bytes) : a.beq b = true ↔ opView a = opView b := by
  cases a <;> cases b <;> simp [Op.beq, opView]

theorem beqP_eq (a b : Op ByteArray) : a.beqP b = (a.map ByteArray.data).beq (b.map ByteArray.data) := by
  cases a <;> cases b <;> first | rfl | (show decide _ = (_ == _); rw [Bool.eq_iff_iff]; simp)

theorem beqList_iff {α β : Type} {eq : α → α → Bool} {f : α → β} (h : ∀ a b, eq a b = true ↔ f a = f b) :
    ∀ as bs, beqList eq as bs = true ↔ as.map f = bs.map f := by
  intro as
  induction as with
  | nil => intro bs; cases bs <;> simp [beqList]
  | cons a as ih =>
    intro bs
    cases bs with
    | nil => simp [beqList]
    | cons b bs => simp [beqList, h, ih]

theorem beqOption_iff {α β : Type} {eq : α → α → Bool} {f : α → β} (h : ∀ a b, eq a b = true ↔ f a = f b) :
    ∀ a b, beqOption eq a b = true ↔ a.map f = b.map f := by
  intro a b
  cases a <;> cases b <;> simp [beqOption, h]

theorem beqScript_iff (a b : List TaggedOp) : beqScript a b = true ↔ scriptView a = scriptView b := by
  refine beqList_iff (f := fun o : TaggedOp => opView (o.op.map ByteArray.data)) ?_ a b
  intro x y
  rw [TaggedOp.beq, beqP_eq, op_beq_iff]

/-- **C79** (arrays): arrays are equal exactly if their bytes are, whatever their names and provenance. -/
theorem C79_arrays (a b : ByteArray) : a.beq b = true ↔ a.data = b.data := by simp [ByteArray.beq]

/-- **C79** (operations): operations are equal exactly if they are the same opcode, invalid byte, boolean or
integer, or push the same bytes; the minimality mark, names and provenance do not matter. Pushes of different
kinds are different. -/
theorem C79_operations (a b : Op ByteArray) :
    (a.beqP b = true ↔ opView (a.map ByteArray.data) = opView (b.map ByteArray.data)) ∧
    ((a.map ByteArray.data).beq (b.map ByteArray.data) = a.beqP b) := by
  refine ⟨?_, (beqP_eq a b).symm⟩
  rw [beqP_eq, op_beq_iff]

/-- **C79** (scripts and transactions): they are equal exactly if their data are, including what is known about
the spent outputs, whatever names, source locations, provenance and minimality marks. -/
theorem C79_transactions (s s' : List TaggedOp) (t t' : RichTx) :
    (beqScript s s' = true ↔ scriptView s = scriptView s') ∧ (t.beq t' = true ↔ txView t = txView t') := by
  refine ⟨beqScript_iff s s', ?_⟩
  have hi : ∀ a b : RichInput, a.beq b = true ↔ inputView a = inputView b := by
    intro a b
    simp only [RichInput.beq, ByteArray.beq, Bool.and_eq_true, beq_iff_eq, decide_eq_true_eq, beqScript_iff,
      beqOption_iff beqScript_iff, inputView, InputView.mk.injEq]
    tauto
  have ho : ∀ a b : RichOutput, a.beq b = true ↔ (a.value, scriptView a.script) = (b.value, scriptView b.script) := by
    intro a b
    simp only [RichOutput.beq, Bool.and_eq_true, beq_iff_eq, beqScript_iff, Prod.mk.injEq]
  simp only [RichTx.beq, Bool.and_eq_true, beq_iff_eq, beqList_iff hi, beqList_iff ho, txView, Prod.mk.injEq]
  tauto

/-- **C79** (serialisation): equal scripts without minimality marks that differ serialise to the same bytes. -/
theorem C79_serialise (s s' : List (Op Bytes)) (h : s.map opView = s'.map opView)
    (hm : ∀ (i : Nat) (a a' : Bytes) (m m' : Bool), s[i]? = some (.pushByteArray a m) →
      s'[i]? = some (.pushByteArray a' m') → m = m') :
    Script.serOps s = Script.serOps s' := by
  have : s = s' := by
    apply List.ext_getElem?
    intro i
    have hi := congrArg (fun l => l[i]?) h
    simp only [List.getElem?_map] at hi
    cases h1 : s[i]? with
    | none =>
      rw [h1] at hi
      cases h2 : s'[i]? with
      | none => rfl
      | some b => rw [h2] at hi; cases hi
    | some a =>
      rw [h1] at hi
      cases h2 : s'[i]? with
      | none => rw [h2] at hi; cases hi
      | some b =>
        rw [h2] at hi
        simp only [Option.map_some, Option.some.injEq] at hi
        congr 1
        cases a <;> cases b <;> simp only [opView] at hi <;> try cases hi
        all_goals try rfl
        next x m y => rw [hm i _ _ _ _ h1 h2]
  rw [this]

/-- **C79** fails for serialisation in general: equal scripts can serialise differently. -/
theorem C79_serialise_fails :
    ∃ s s' : Script, s.map opView = s'.map opView ∧ Script.serOps s = some [0x51] ∧
      Script.serOps s' = some [0x01, 0x01] :=
  ⟨[.pushByteArray [1] true], [.pushByteArray [1] false], rfl, rfl, rfl⟩

/-- Non-vacuity: a named hash equals the plain bytes; a push of an integer is not a push of its bytes. -/
example : ((ByteArray.new "a" [1]).applyFunction [9] .sha256).beq (.newUnnamed [9]) = true ∧
    (Op.pushByteArray (ByteArray.new "a" [1]) true).beqP (.pushByteArray (.newUnnamed [1]) false) = true ∧
    (Op.pushInteger 1 : Op ByteArray).beqP (.pushByteArray (.newUnnamed [1]) false) = false := by decide

end BCash
