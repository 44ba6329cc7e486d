import Verif.Proofs.Relay
import Verif.Props.DebugInfo

/-! # C102 — handing over a partly signed transaction -/

namespace BCash
open Spec
variable {Dyn : Type}

/-! ## Specification -/

/-- Spec: the builders a client can make. -/
inductive Spec.RichReach (opName : Opcode → String) : RichBuilder Dyn → Prop
  | newWithFee (version : Int32) (lockTime : UInt32) (fee : UInt64) :
      RichReach opName (RichBuilder.newWithFee version lockTime fee)
  | fromTx (tx : RichTx) : RichReach opName (RichBuilder.fromTx tx)
  | addInput {b : RichBuilder Dyn} (input : RichUnsignedInput) (lock : TaggedScript) (s : RichSignatory Dyn)
      (h : RichReach opName b) : RichReach opName (b.addInput opName input lock s).1
  | addOutput {b : RichBuilder Dyn} (o : RichOutput) (h : RichReach opName b) : RichReach opName (b.addOutput o)
  | addLeftover {b : RichBuilder Dyn} (lo hi : UInt64) (p : Int32) (s : TaggedScript) (h : RichReach opName b) :
      RichReach opName (b.addLeftoverOutputBounded lo hi p s)

/-- Spec: the prepared transactions a client can have, some of their inputs signed. -/
inductive Spec.Prepared (opName : Opcode → String) (sz : Layout) (P : HashPrims) : RichUnsigned Dyn → Prop
  | build {b : RichBuilder Dyn} {u : RichUnsigned Dyn} (hb : RichReach opName b) (h : b.build opName sz P = .ok u) :
      Prepared opName sz P u
  | buildWithout {b : RichBuilder Dyn} {u : RichUnsigned Dyn} (hb : RichReach opName b)
      (h : b.buildWithoutEstimation opName sz P = .ok u) : Prepared opName sz P u
  | signDyn {u v : RichUnsigned Dyn} (idx : Nat) (sigs : Dyn) (hu : Prepared opName sz P u)
      (h : u.signInputDyn idx sigs = some (v, .ok ())) : Prepared opName sz P v
  | signSignatory {u v : RichUnsigned Dyn} (idx : Nat) (s : RichSignatory Dyn) (sigs : s.Sigs)
      (hu : Prepared opName sz P u) (h : u.signInputSignatory opName idx s sigs = some (v, .ok ())) :
      Prepared opName sz P v

/-- Spec: someone who signs an input: which one, with which signatory, and how the signatures are made from the
preimages of the input. -/
structure Spec.Signer (Dyn : Type) where
  idx : Nat
  signatory : RichSignatory Dyn
  sign : List RichPreimage → Res Error signatory.Sigs

/-- Spec: the signer takes the preimages of the input, makes the signatures and hands them in with the signatory. -/
def Spec.Signer.signs (s : Signer Dyn) (opName : Opcode → String) (u : RichUnsigned Dyn) : Res Error (RichUnsigned Dyn) :=
  (Res.ofOption u.txPreimages[s.idx]?).bind fun ps =>
  (s.sign ps).bind fun sigs =>
  match u.signInputSignatory opName s.idx s.signatory sigs with
  | none => .panic
  | some (_, .error e) => .err e
  | some (v, .ok ()) => .ok v

/-- Spec: several signers, one after the other. -/
def Spec.allSign (opName : Opcode → String) : RichUnsigned Dyn → List (Signer Dyn) → Res Error (RichUnsigned Dyn)
  | u, [] => .ok u
  | u, s :: rest => (s.signs opName u).bind fun v => allSign opName v rest

/-- Spec: the scripts made do not depend on the estimated size of the transaction. -/
def Spec.IgnoresSize (s : RichSignatory Dyn) : Prop :=
  ∀ ps n m sigs lock outs, builtRich s ps n sigs lock outs = builtRich s ps m sigs lock outs

/-- Spec: a transaction whose scripts can be serialised and which can be exported. -/
structure Spec.Portable (tx : RichTx) : Prop where
  inputs : tx.inputs.length < 2 ^ 64 ∧ ∀ i ∈ tx.inputs, (TaggedScript.contents i.script).Serialisable
  outputs : tx.outputs.length < 2 ^ 64 ∧ ∀ o ∈ tx.outputs, (TaggedScript.contents o.script).Serialisable
  ints : ∀ t ∈ tx.allOps, ∀ i, t.op = .pushInteger i → InScriptRange i
  arrays : (txArrays tx).length ≤ 2 ^ 64
  strings : (txStrings tx).length ≤ 2 ^ 64

/-- Spec: a transaction is handed over as JSON text: imported, taken into a builder and prepared for signing. -/
def Spec.TakenOver (opName : Opcode → String) (sz : Layout) (P : HashPrims) (text : List Char) (v : RichUnsigned Dyn) :
    Prop :=
  ∃ tx, TextImportsTo Base64.decode text (.ok tx) ∧
    (RichBuilder.fromTx tx : RichBuilder Dyn).buildWithoutEstimation opName sz P = .ok v

/-- Spec: a text goes from party to party: each takes it over, signs its inputs and exports what it has. -/
inductive Spec.Relay (opName : Opcode → String) (sz : Layout) (P : HashPrims) :
    List Char → List (List (Signer Dyn)) → List Char → Prop
  | done (text : List Char) : Relay opName sz P text [] text
  | party {text text' text'' : List Char} {signers : List (Signer Dyn)} {rest : List (List (Signer Dyn))}
      {v w : RichUnsigned Dyn} (ht : TakenOver opName sz P text v) (hs : allSign opName v signers = .ok w)
      (he : txToText Base64.encode w.partialTx = some text') (hr : Relay opName sz P text' rest text'') :
      Relay opName sz P text (signers :: rest) text''

/-! ## Proofs -/

namespace OfflineProofs
open RelayProofs RichProofs DebugProofs

/-- What an input of a builder is about, whoever will sign it. -/
def core (i : RichBuilderInput Dyn) : RichUnsignedInput × Option TaggedScript × Option Bool × List SigHashFlags :=
  (i.input, i.lockScript, i.isP2sh, i.sigHashFlags)

/-- The same for an input of a transaction. -/
def coreOf (t : RichInput) : RichUnsignedInput × Option TaggedScript × Option Bool × List SigHashFlags :=
  (⟨t.prevHash, t.prevVout, t.sequence, t.value.getD 0⟩, t.lockScript, t.isP2sh, t.sigHashFlags.getD [])

def keyFrom (c : RichUnsignedInput × Option TaggedScript × Option Bool × List SigHashFlags) :
    PreimageInputP × TaggedScript :=
  (⟨⟨c.1.prevHash, c.1.prevVout⟩, c.1.sequence, c.2.2.2, some (TaggedScript.ops (c.2.1.getD [])), some c.1.value⟩,
    c.2.1.getD [])

theorem key_core (l : List (RichBuilderInput Dyn)) : l.map key = (l.map core).map keyFrom := by
  rw [List.map_map]; rfl

theorem core_signed (i : RichBuilderInput Dyn) (s : TaggedScript) : coreOf (RichUnsigned.signedInputOf i s) = core i := rfl

theorem cores_fromTx (tx : RichTx) :
    ((RichBuilder.fromTx tx : RichBuilder Dyn).inputs).map core = tx.inputs.map coreOf := by
  simp [RichBuilder.fromTx, core, coreOf]

theorem reach_inv {opName : Opcode → String} {b : RichBuilder Dyn} (h : RichReach opName b) :
    ∀ i ∈ b.inputs, ∀ t, i.signedInput = some t → coreOf t = core i := by
  induction h with
  | newWithFee => intro i hi; cases hi
  | fromTx tx =>
    intro i hi t ht
    simp only [RichBuilder.fromTx, List.mem_map] at hi
    obtain ⟨x, _, rfl⟩ := hi
    cases ht
    rfl
  | addInput input lock s _ ih =>
    intro i hi t ht
    simp only [RichBuilder.addInput, List.mem_append, List.mem_singleton] at hi
    rcases hi with hi | rfl
    · exact ih i hi t ht
    · cases ht
  | addOutput _ _ ih => exact ih
  | addLeftover _ _ _ _ _ ih => exact ih

/-- What holds of prepared transactions. -/
structure Inv (opName : Opcode → String) (P : HashPrims) (u : RichUnsigned Dyn) : Prop where
  inputs : List.Forall₂ (fun (o : Option RichInput) i => ∀ t, o = some t → coreOf t = core i) u.inputs u.builder.inputs
  preimages : u.builder.preimages P opName u.outputs = some u.txPreimages

theorem prefilled_inv {b : RichBuilder Dyn} (h : ∀ i ∈ b.inputs, ∀ t, i.signedInput = some t → coreOf t = core i) :
    List.Forall₂ (fun (o : Option RichInput) i => ∀ t, o = some t → coreOf t = core i) b.prefilled b.inputs := by
  unfold RichBuilder.prefilled
  generalize b.inputs = l at h
  induction l with
  | nil => exact .nil
  | cons i l ih =>
    refine .cons ?_ (ih fun j hj => h j (by simp [hj]))
    intro t ht
    obtain ⟨t', h1, h2⟩ := Option.bind_eq_some_iff.mp ht
    have : t' = t := by
      revert h2
      cases t'.script <;> simp
    subst this
    exact h i (by simp) t' h1

theorem forall2_set {α β : Type} {R : α → β → Prop} {xs : List α} {ys : List β} (h : List.Forall₂ R xs ys) {k : Nat}
    {x : α} (hx : ∀ y, ys[k]? = some y → R x y) : List.Forall₂ R (xs.set k x) ys := by
  induction h generalizing k with
  | nil => exact .nil
  | cons h1 h2 ih =>
    cases k with
    | zero => exact .cons (hx _ rfl) h2
    | succ k => exact .cons h1 (ih fun y hy => hx y (by simpa using hy))

theorem signWith_inv {opName : Opcode → String} {P : HashPrims} {u v : RichUnsigned Dyn} (hu : Inv opName P u) {idx : Nat}
    {f : List RichPreimage → TaggedScript → Option TaggedScript} (h : u.signWith idx f = some (v, .ok ())) :
    Inv opName P v := by
  revert h
  unfold RichUnsigned.signWith
  cases hin : u.inputs[idx]? with
  | none => intro h; cases h
  | some o =>
    cases o with
    | some t => intro h; cases h
    | none =>
      simp only
      cases hb : u.builder.inputs[idx]? with
      | none => intro h; cases h
      | some i =>
        cases hp : u.txPreimages[idx]? with
        | none => intro h; cases h
        | some ps =>
          simp only
          cases f ps (i.lockScript.getD []) with
          | none => intro h; cases h
          | some script =>
            intro h
            cases h
            refine ⟨forall2_set hu.inputs ?_, hu.preimages⟩
            intro y hy t ht
            rw [hb] at hy
            cases hy
            cases ht
            exact core_signed i script

theorem prepared_inv {opName : Opcode → String} {sz : Layout} {P : HashPrims} {u : RichUnsigned Dyn}
    (h : Prepared opName sz P u) : Inv opName P u := by
  induction h with
  | build hb h =>
    obtain ⟨h1, h2, h3, _⟩ := build_ok h
    refine ⟨?_, by rw [h1]; exact h3⟩
    rw [h1, h2]
    exact prefilled_inv (reach_inv hb)
  | @buildWithout b u hb h =>
    unfold RichBuilder.buildWithoutEstimation at h
    revert h
    cases b.outputs.mapM RichBuilderOutput.known? with
    | none => intro h; cases h
    | some outs =>
      intro h
      obtain ⟨n, _, h⟩ := Res.bind_eq_ok.mp h
      obtain ⟨ps, hp, h⟩ := Res.bind_eq_ok.mp h
      cases h
      refine ⟨prefilled_inv (reach_inv hb), ?_⟩
      revert hp
      simp only
      cases RichBuilder.preimages P opName b outs with
      | none => intro hp; cases hp
      | some x => intro hp; cases hp; rfl
  | signDyn idx sigs _ h ih => exact signWith_inv ih h
  | signSignatory idx s sigs _ h ih => exact signWith_inv ih h

/-- Two prepared transactions for the same signers. -/
structure Same (u v : RichUnsigned Dyn) : Prop where
  version : u.builder.version = v.builder.version
  lockTime : u.builder.lockTime = v.builder.lockTime
  cores : u.builder.inputs.map core = v.builder.inputs.map core
  outputs : u.outputs = v.outputs
  preimages : u.txPreimages = v.txPreimages
  inputs : u.inputs = v.inputs

theorem Same.refl (u : RichUnsigned Dyn) : Same u u := ⟨rfl, rfl, rfl, rfl, rfl, rfl⟩

theorem Same.trans {u v w : RichUnsigned Dyn} (h : Same u v) (h' : Same v w) : Same u w :=
  ⟨h.version.trans h'.version, h.lockTime.trans h'.lockTime, h.cores.trans h'.cores, h.outputs.trans h'.outputs,
   h.preimages.trans h'.preimages, h.inputs.trans h'.inputs⟩

theorem Same.inv {opName : Opcode → String} {P : HashPrims} {u v : RichUnsigned Dyn} (h : Same u v)
    (hu : Inv opName P u) : Inv opName P v := by
  refine ⟨?_, ?_⟩
  · have h1 := hu.inputs
    rw [h.inputs] at h1
    have hc := h.cores
    generalize u.builder.inputs = bs at h1 hc
    generalize v.builder.inputs = cs at hc
    generalize v.inputs = xs at h1
    induction h1 generalizing cs with
    | nil =>
      cases cs with
      | nil => exact .nil
      | cons => cases hc
    | cons h1 _ ih =>
      cases cs with
      | nil => cases hc
      | cons c cs =>
        simp only [List.map_cons, List.cons.injEq] at hc
        exact .cons (fun t ht => (h1 t ht).trans hc.1) (ih _ hc.2)
  · rw [← h.outputs, ← h.preimages, ← hu.preimages]
    refine (preimages_congr P opName _ h.version h.lockTime ?_).symm
    rw [key_core, key_core, h.cores]

theorem Same.completeTx {u v : RichUnsigned Dyn} (h : Same u v) : u.completeTx = v.completeTx := by
  unfold RichUnsigned.completeTx
  rw [h.version, h.lockTime, h.outputs, h.inputs]

theorem zip_partial (xs : List (Option RichInput)) {bs cs : List (RichBuilderInput Dyn)}
    (hc : bs.map core = cs.map core) :
    ((xs.zip bs).map fun (input, i) => match input with
      | some input => input
      | none => RichUnsigned.signedInputOf i []) =
    ((xs.zip cs).map fun (input, i) => match input with
      | some input => input
      | none => RichUnsigned.signedInputOf i []) := by
  induction xs generalizing bs cs with
  | nil => rfl
  | cons x xs ih =>
    cases bs with
    | nil =>
      cases cs with
      | nil => rfl
      | cons => cases hc
    | cons b bs =>
      cases cs with
      | nil => cases hc
      | cons c cs =>
        simp only [List.map_cons, List.cons.injEq] at hc
        simp only [List.zip_cons_cons, List.map_cons, ih hc.2, List.cons.injEq, and_true]
        have := hc.1
        simp only [core, Prod.mk.injEq] at this
        obtain ⟨e1, e2, e3, e4⟩ := this
        cases x with
        | some t => rfl
        | none => simp only [RichUnsigned.signedInputOf, e1, e2, e3, e4]

theorem Same.partialTx {u v : RichUnsigned Dyn} (h : Same u v) : u.partialTx = v.partialTx := by
  unfold RichUnsigned.partialTx
  rw [h.version, h.lockTime, h.outputs, h.inputs]
  exact congrArg (fun l => RichTx.mk v.builder.version l v.outputs v.builder.lockTime) (zip_partial v.inputs h.cores)

/-- Signing on either gives the same. -/
theorem signs_same {opName : Opcode → String} {u v : RichUnsigned Dyn} (h : Same u v) (s : Signer Dyn)
    (hs : IgnoresSize s.signatory) : Agree Same (s.signs opName u) (s.signs opName v) := by
  unfold Signer.signs
  rw [h.preimages]
  cases hps : v.txPreimages[s.idx]? with
  | none => exact .panic
  | some ps =>
    simp only [Res.ofOption, Res.bind]
    cases s.sign ps with
    | panic => exact .panic
    | err e => exact .err e
    | ok sigs =>
      simp only
      unfold RichUnsigned.signInputSignatory RichUnsigned.signWith
      rw [h.inputs, h.preimages, hps]
      have hg : Option.map core u.builder.inputs[s.idx]? = Option.map core v.builder.inputs[s.idx]? := by
        rw [← List.getElem?_map, ← List.getElem?_map, h.cores]
      cases hin : v.inputs[s.idx]? with
      | none => exact .panic
      | some o =>
        cases o with
        | some t => exact .err _
        | none =>
          simp only
          cases hi : u.builder.inputs[s.idx]? with
          | none =>
            rw [hi] at hg
            cases hj : v.builder.inputs[s.idx]? with
            | none => exact .panic
            | some j => rw [hj] at hg; cases hg
          | some i =>
            rw [hi] at hg
            cases hj : v.builder.inputs[s.idx]? with
            | none => rw [hj] at hg; cases hg
            | some j =>
              rw [hj] at hg
              simp only [Option.map_some, Option.some.injEq] at hg
              have hg' := hg
              simp only [core, Prod.mk.injEq] at hg
              obtain ⟨e1, e2, e3, e4⟩ := hg
              have hu : ∀ n m : Option Nat,
                  s.signatory.unlockScript opName ps n sigs (i.lockScript.getD []) u.outputs =
                  s.signatory.unlockScript opName ps m sigs (j.lockScript.getD []) v.outputs := by
                intro n m
                unfold RichSignatory.unlockScript
                rw [e2, h.outputs]
                have : s.signatory.builtOps ps n sigs (j.lockScript.getD []) v.outputs =
                    s.signatory.builtOps ps m sigs (j.lockScript.getD []) v.outputs :=
                  hs ps n m sigs (j.lockScript.getD []) v.outputs
                rw [this]
              simp only
              rw [hu (some u.estimatedSize) (some v.estimatedSize)]
              cases s.signatory.unlockScript opName ps (some v.estimatedSize) sigs (j.lockScript.getD []) v.outputs with
              | none => exact .panic
              | some script =>
                refine .ok ⟨h.version, h.lockTime, h.cores, h.outputs, rfl, ?_⟩
                simp only [RichUnsigned.signedInputOf, e1, e2, e3, e4]

theorem allSign_same {opName : Opcode → String} {u v : RichUnsigned Dyn} (h : Same u v) (ss : List (Signer Dyn))
    (hs : ∀ s ∈ ss, IgnoresSize s.signatory) : Agree Same (allSign opName u ss) (allSign opName v ss) := by
  induction ss generalizing u v with
  | nil => exact .ok h
  | cons s ss ih =>
    exact (signs_same h s (hs s (by simp))).bind fun _ _ hw => ih hw fun t ht => hs t (by simp [ht])

theorem signs_inv {opName : Opcode → String} {P : HashPrims} {u w : RichUnsigned Dyn} (hu : Inv opName P u)
    {s : Signer Dyn} (h : s.signs opName u = .ok w) : Inv opName P w := by
  unfold Signer.signs at h
  obtain ⟨ps, _, h⟩ := Res.bind_eq_ok.mp h
  obtain ⟨sigs, _, h⟩ := Res.bind_eq_ok.mp h
  revert h
  cases hx : u.signInputSignatory opName s.idx s.signatory sigs with
  | none => intro h; cases h
  | some r =>
    obtain ⟨v, r⟩ := r
    cases r with
    | error e => intro h; cases h
    | ok _ => intro h; cases h; exact signWith_inv hu hx

theorem imports_unique {unb64 : String → Option Bytes} {text : List Char} {r r' : Res JsonError RichTx}
    (h : TextImportsTo unb64 text r) (h' : TextImportsTo unb64 text r') : r = r' := by
  obtain ⟨n, hn⟩ := h
  obtain ⟨m, hm⟩ := h'
  have e := hn (max n m) (Nat.le_max_left _ _)
  rw [hm (max n m) (Nat.le_max_right _ _)] at e
  cases e
  rfl

theorem known_map (l : List RichOutput) :
    (l.map RichBuilderOutput.knownValue).mapM RichBuilderOutput.known? = some l := by
  rw [List.mapM_map]
  induction l with
  | nil => rfl
  | cons i l ih => rw [List.mapM_cons, ih]; rfl

/-- The inputs signed have scripts. -/
def Filled (u : RichUnsigned Dyn) : Prop := ∀ t, some t ∈ u.inputs → t.script ≠ []

theorem partial_cores {opName : Opcode → String} {P : HashPrims} {u : RichUnsigned Dyn} (hu : Inv opName P u) :
    u.partialTx.inputs.map coreOf = u.builder.inputs.map core := by
  unfold RichUnsigned.partialTx
  have h := hu.inputs
  simp only
  generalize u.builder.inputs = bs at h
  generalize u.inputs = xs at h
  induction h with
  | nil => rfl
  | @cons x b xs bs h1 _ ih =>
    simp only [List.zip_cons_cons, List.map_cons, ih, List.cons.injEq, and_true]
    cases x with
    | none => rfl
    | some t => exact h1 t rfl

theorem partial_prefilled {opName : Opcode → String} {P : HashPrims} {u : RichUnsigned Dyn} (hu : Inv opName P u)
    (hf : Filled u) : (RichBuilder.fromTx u.partialTx : RichBuilder Dyn).prefilled = u.inputs := by
  unfold RichBuilder.prefilled RichBuilder.fromTx RichUnsigned.partialTx
  have h := hu.inputs
  unfold Filled at hf
  simp only [List.map_map]
  generalize u.builder.inputs = bs at h
  generalize u.inputs = xs at h hf
  induction h with
  | nil => rfl
  | @cons x b xs bs h1 _ ih =>
    simp only [List.zip_cons_cons, List.map_cons]
    rw [ih fun t ht => hf t (by simp [ht])]
    cases x with
    | none => rfl
    | some t =>
      have := hf t (by simp)
      simp only [Function.comp, Option.bind_some, List.cons.injEq, and_true]
      cases hs : t.script with
      | nil => exact absurd hs this
      | cons => rfl

theorem built_fromTx (opName : Opcode → String) (sz : Layout) (P : HashPrims) {tx : RichTx} (hp : Portable tx) :
    ∃ v, (RichBuilder.fromTx tx : RichBuilder Dyn).buildWithoutEstimation opName sz P = .ok v ∧
      v.builder = RichBuilder.fromTx tx ∧ v.outputs = tx.outputs ∧ v.inputs = (RichBuilder.fromTx tx : RichBuilder Dyn).prefilled ∧
      (RichBuilder.fromTx tx : RichBuilder Dyn).preimages P opName tx.outputs = some v.txPreimages := by
  have hser : (Codec.unhashedTx sz).ser tx.contents = some tx.contents.wire.encode := by
    refine C14_wire_format sz tx.contents ⟨?_, ?_⟩ ⟨?_, ?_⟩
    · simpa [RichTx.contents] using hp.inputs.1
    · intro i hi
      simp only [RichTx.contents, List.mem_map] at hi
      obtain ⟨x, hx, rfl⟩ := hi
      exact hp.inputs.2 x hx
    · simpa [RichTx.contents] using hp.outputs.1
    · intro i hi
      simp only [RichTx.contents, List.mem_map] at hi
      obtain ⟨x, hx, rfl⟩ := hi
      exact hp.outputs.2 x hx
  obtain ⟨u, hu, _⟩ := C41_rebuild (Dyn := Dyn) sz (sha256d P) tx.contents _ hser
  have ha := buildWithout_contents opName sz P (fromTx_contents (Dyn := Dyn) tx)
  rw [hu] at ha
  cases hv : (RichBuilder.fromTx tx : RichBuilder Dyn).buildWithoutEstimation opName sz P with
  | panic => rw [hv] at ha; cases ha
  | err e => rw [hv] at ha; cases ha
  | ok v =>
    refine ⟨v, rfl, ?_⟩
    unfold RichBuilder.buildWithoutEstimation at hv
    rw [show (RichBuilder.fromTx tx : RichBuilder Dyn).outputs = tx.outputs.map .knownValue from rfl, known_map] at hv
    simp only at hv
    obtain ⟨n, _, hv⟩ := Res.bind_eq_ok.mp hv
    obtain ⟨ps, hps, hv⟩ := Res.bind_eq_ok.mp hv
    cases hv
    refine ⟨rfl, rfl, rfl, ?_⟩
    revert hps
    cases RichBuilder.preimages P opName (RichBuilder.fromTx tx : RichBuilder Dyn) tx.outputs with
    | none => intro h; cases h
    | some x => intro h; cases h; rfl

/-- Handing over. -/
theorem handover (opName : Opcode → String) (sz : Layout) (P : HashPrims) {u : RichUnsigned Dyn} (hu : Inv opName P u)
    (hf : Filled u) (hp : Portable u.partialTx) :
    ∃ text v, txToText Base64.encode u.partialTx = some text ∧ TextImportsTo Base64.decode text (.ok u.partialTx) ∧
      TakenOver opName sz P text v ∧ (∀ v', TakenOver opName sz P text v' → v' = v) ∧ Same u v := by
  obtain ⟨text, h1, h2⟩ := C94_roundtrip_base64 u.partialTx hp.ints hp.arrays hp.strings
  obtain ⟨v, h3, h4, h5, h6, h7⟩ := built_fromTx (Dyn := Dyn) opName sz P hp
  refine ⟨text, v, h1, h2, ⟨_, h2, h3⟩, ?_, ?_⟩
  · rintro v' ⟨tx, ht, hv⟩
    cases imports_unique h2 ht
    rw [h3] at hv
    cases hv
    rfl
  · have hc : u.builder.inputs.map core = v.builder.inputs.map core := by
      rw [h4, cores_fromTx, partial_cores hu]
    refine ⟨by rw [h4]; rfl, by rw [h4]; rfl, hc, by rw [h5]; rfl, ?_, ?_⟩
    · have e := preimages_congr P opName (b := u.builder) (c := (RichBuilder.fromTx u.partialTx : RichBuilder Dyn))
        u.outputs rfl rfl (by rw [key_core, key_core, hc, h4])
      have h7' : (RichBuilder.fromTx u.partialTx : RichBuilder Dyn).preimages P opName u.outputs = some v.txPreimages := h7
      rw [← e, hu.preimages] at h7'
      exact Option.some.inj h7'
    · rw [h6, partial_prefilled hu hf]

/-- What signing does to the recorded inputs. -/
inductive Grow : List (RichBuilderInput Dyn) → List (Option RichInput) → List (Option RichInput) → Prop
  | nil : Grow [] [] []
  | cons {i : RichBuilderInput Dyn} {bs : List (RichBuilderInput Dyn)} {x y : Option RichInput}
      {xs ys : List (Option RichInput)}
      (h : x = y ∨ (x = none ∧ ∃ s, y = some (RichUnsigned.signedInputOf i s))) (hr : Grow bs xs ys) :
      Grow (i :: bs) (x :: xs) (y :: ys)

theorem Grow.refl {bs : List (RichBuilderInput Dyn)} {xs : List (Option RichInput)} (h : xs.length = bs.length) :
    Grow bs xs xs := by
  induction bs generalizing xs with
  | nil => cases xs with
    | nil => exact .nil
    | cons => cases h
  | cons i bs ih => cases xs with
    | nil => cases h
    | cons x xs => exact .cons (.inl rfl) (ih (by simpa using h))

theorem Grow.set {bs : List (RichBuilderInput Dyn)} {xs : List (Option RichInput)} (h : xs.length = bs.length) {k : Nat}
    {i : RichBuilderInput Dyn} (hi : bs[k]? = some i) (hx : xs[k]? = some none) (s : TaggedScript) :
    Grow bs xs (xs.set k (some (RichUnsigned.signedInputOf i s))) := by
  induction bs generalizing xs k with
  | nil => cases hi
  | cons b bs ih => cases xs with
    | nil => cases h
    | cons x xs =>
      cases k with
      | zero =>
        simp only [List.getElem?_cons_zero, Option.some.injEq] at hi hx
        subst hi hx
        exact .cons (.inr ⟨rfl, s, rfl⟩) (Grow.refl (by simpa using h))
      | succ k => exact .cons (.inl rfl) (ih (by simpa using h) (by simpa using hi) (by simpa using hx))

theorem Grow.trans {bs : List (RichBuilderInput Dyn)} {xs ys zs : List (Option RichInput)} (h : Grow bs xs ys)
    (h' : Grow bs ys zs) : Grow bs xs zs := by
  induction h generalizing zs with
  | nil => exact h'
  | cons h _ ih =>
    cases h' with
    | cons h' hr =>
      refine .cons ?_ (ih hr)
      rcases h with rfl | ⟨rfl, s, rfl⟩
      · exact h'
      · rcases h' with rfl | ⟨h', _⟩
        · exact .inr ⟨rfl, s, rfl⟩
        · cases h'

theorem inv_length {opName : Opcode → String} {P : HashPrims} {u : RichUnsigned Dyn} (hu : Inv opName P u) :
    u.inputs.length = u.builder.inputs.length := hu.inputs.length_eq

theorem signs_grow {opName : Opcode → String} {P : HashPrims} {u w : RichUnsigned Dyn} (hu : Inv opName P u)
    {s : Signer Dyn} (h : s.signs opName u = .ok w) :
    w.builder = u.builder ∧ w.outputs = u.outputs ∧ Grow u.builder.inputs u.inputs w.inputs := by
  have h' : signRichJob opName u s.idx ⟨⟨zero32P, 0, 0, 0⟩, [], s.signatory, s.sign⟩ = .ok w := h
  obtain ⟨i, ps, sigs, script, h1, h2, h3, h4, h5, rfl⟩ := DebugProofs.sign_ok h'
  exact ⟨rfl, rfl, Grow.set (inv_length hu) h1 h4 script⟩

theorem allSign_grow {opName : Opcode → String} {P : HashPrims} {ss : List (Signer Dyn)} {u w : RichUnsigned Dyn}
    (hu : Inv opName P u) (h : allSign opName u ss = .ok w) :
    Inv opName P w ∧ w.builder = u.builder ∧ w.outputs = u.outputs ∧ Grow u.builder.inputs u.inputs w.inputs := by
  induction ss generalizing u with
  | nil => cases h; exact ⟨hu, rfl, rfl, Grow.refl (inv_length hu)⟩
  | cons s ss ih =>
    obtain ⟨v, hv, h⟩ := Res.bind_eq_ok.mp h
    obtain ⟨a1, a2, a3⟩ := signs_grow hu hv
    obtain ⟨b0, b1, b2, b3⟩ := ih (signs_inv hu hv) h
    rw [a1] at b3
    exact ⟨b0, b1.trans a1, b2.trans a2, a3.trans b3⟩

theorem grow_filled {bs : List (RichBuilderInput Dyn)} {xs ys : List (Option RichInput)} (h : Grow bs xs ys)
    (hf : ∀ t, some t ∈ ys → t.script ≠ []) : ∀ t, some t ∈ xs → t.script ≠ [] := by
  induction h with
  | nil => intro t ht; cases ht
  | @cons i bs x y xs ys h _ ih =>
    intro t ht
    rcases List.mem_cons.mp ht with ht | ht
    · rcases h with rfl | ⟨rfl, _⟩
      · exact hf t (by simp [ht])
      · cases ht
    · exact ih (fun t ht => hf t (by simp [ht])) t ht

/-- The inputs of a partly signed transaction. -/
def partialIns (xs : List (Option RichInput)) (bs : List (RichBuilderInput Dyn)) : List RichInput :=
  (xs.zip bs).map fun (input, i) => match input with
    | some input => input
    | none => RichUnsigned.signedInputOf i []

def Emptier (a b : RichInput) : Prop := a = b ∨ a = { b with script := [] }

theorem grow_emptier {bs : List (RichBuilderInput Dyn)} {xs ys : List (Option RichInput)} (h : Grow bs xs ys) :
    List.Forall₂ Emptier (partialIns xs bs) (partialIns ys bs) := by
  induction h with
  | nil => exact .nil
  | @cons i bs x y xs ys h _ ih =>
    refine .cons ?_ ih
    rcases h with rfl | ⟨rfl, s, rfl⟩
    · exact .inl rfl
    · exact .inr rfl

theorem emptier_ops {as bs : List RichInput} (h : List.Forall₂ Emptier as bs) :
    (as.flatMap fun i => i.script ++ i.lockScript.getD []).Sublist (bs.flatMap fun i => i.script ++ i.lockScript.getD []) ∧
    as.flatMap (fun i => recorded i.prevHash.1) = bs.flatMap (fun i => recorded i.prevHash.1) ∧
    ((∀ i ∈ bs, (TaggedScript.contents i.script).Serialisable) → ∀ i ∈ as, (TaggedScript.contents i.script).Serialisable) := by
  induction h with
  | nil => exact ⟨.slnil, rfl, fun _ i hi => by cases hi⟩
  | cons h _ ih =>
    obtain ⟨h1, h2, h3⟩ := ih
    refine ⟨?_, ?_, ?_⟩
    · simp only [List.flatMap_cons]
      refine List.Sublist.append ?_ h1
      rcases h with rfl | rfl
      · exact List.Sublist.refl _
      · simp
    · simp only [List.flatMap_cons, h2]
      rcases h with rfl | rfl <;> rfl
    · intro hb i hi
      rcases List.mem_cons.mp hi with rfl | hi
      · rcases h with rfl | rfl
        · exact hb _ (by simp)
        · exact ⟨[], rfl, by decide⟩
      · exact h3 (fun i hi => hb i (by simp [hi])) i hi

theorem sub_flatMap {α β : Type} {xs ys : List α} (h : xs.Sublist ys) (f : α → List β) :
    (xs.flatMap f).Sublist (ys.flatMap f) := by
  induction h with
  | slnil => exact .slnil
  | cons x _ ih => exact ih.trans (List.sublist_append_right _ _)
  | cons_cons x _ ih => exact List.Sublist.append (List.Sublist.refl _) ih

theorem portable_emptier {as bs : List RichInput} (h : List.Forall₂ Emptier as bs) (v : Int32) (os : List RichOutput)
    (l : UInt32) (hp : Portable ⟨v, bs, os, l⟩) : Portable ⟨v, as, os, l⟩ := by
  obtain ⟨h1, h2, h3⟩ := emptier_ops h
  have hops : (txOps ⟨v, as, os, l⟩).Sublist (txOps ⟨v, bs, os, l⟩) := List.Sublist.append h1 (List.Sublist.refl _)
  have harr : (txArrays ⟨v, as, os, l⟩).Sublist (txArrays ⟨v, bs, os, l⟩) := by
    unfold txArrays
    refine List.Sublist.append (by simp only [h2]; exact List.Sublist.refl _) (sub_flatMap hops _)
  refine ⟨⟨?_, h3 hp.inputs.2⟩, hp.outputs, ?_, ?_, ?_⟩
  · have := hp.inputs.1
    simp only at this ⊢
    rw [h.length_eq]; exact this
  · intro t ht i hi
    exact hp.ints t (hops.subset ht) i hi
  · exact Nat.le_trans harr.length_le hp.arrays
  · refine Nat.le_trans (List.Sublist.length_le ?_) hp.strings
    unfold txStrings
    exact List.Sublist.append (harr.filterMap _) (sub_flatMap hops _)

theorem allSign_portable {opName : Opcode → String} {P : HashPrims} {ss : List (Signer Dyn)} {u w : RichUnsigned Dyn}
    (hu : Inv opName P u) (h : allSign opName u ss = .ok w) (hp : Portable w.partialTx) (hf : Filled w) :
    Portable u.partialTx ∧ Filled u := by
  obtain ⟨_, h1, h2, h3⟩ := allSign_grow hu h
  refine ⟨?_, grow_filled h3 hf⟩
  have : w.partialTx = ⟨u.builder.version, partialIns w.inputs u.builder.inputs, u.outputs, u.builder.lockTime⟩ := by
    unfold RichUnsigned.partialTx
    rw [h1, h2]
    rfl
  rw [this] at hp
  exact portable_emptier (grow_emptier h3) _ _ _ hp

theorem allSign_append (opName : Opcode → String) (u : RichUnsigned Dyn) (ss ts : List (Signer Dyn)) :
    allSign opName u (ss ++ ts) = (allSign opName u ss).bind fun v => allSign opName v ts := by
  induction ss generalizing u with
  | nil => rfl
  | cons s ss ih =>
    simp only [List.cons_append, allSign]
    cases s.signs opName u with
    | ok v => exact ih v
    | err e => rfl
    | panic => rfl

theorem relay (opName : Opcode → String) (sz : Layout) (P : HashPrims) {parties : List (List (Signer Dyn))}
    {u w : RichUnsigned Dyn} (hu : Inv opName P u) (hs : ∀ ss ∈ parties, ∀ s ∈ ss, IgnoresSize s.signatory)
    (h : allSign opName u parties.flatten = .ok w) (hf : Filled w) (hp : Portable w.partialTx) :
    ∃ text text', txToText Base64.encode u.partialTx = some text ∧ Relay opName sz P text parties text' ∧
      TextImportsTo Base64.decode text' (.ok w.partialTx) ∧
      ∀ text'', Relay opName sz P text parties text'' → text'' = text' := by
  induction parties generalizing u with
  | nil =>
    cases h
    obtain ⟨text, h1, h2⟩ := C94_roundtrip_base64 w.partialTx hp.ints hp.arrays hp.strings
    exact ⟨text, text, h1, .done text, h2, fun _ h => by cases h; rfl⟩
  | cons ss rest ih =>
    rw [List.flatten_cons, allSign_append] at h
    obtain ⟨x, hx, h⟩ := Res.bind_eq_ok.mp h
    obtain ⟨hix, _⟩ := allSign_grow hu hx
    obtain ⟨hpx, hfx⟩ := allSign_portable hix h hp hf
    obtain ⟨hpu, hfu⟩ := allSign_portable hu hx hpx hfx
    obtain ⟨text, v, e1, e2, e3, e4, e5⟩ := handover opName sz P hu hfu hpu
    have ha := allSign_same (opName := opName) e5 ss (hs ss (by simp))
    rw [hx] at ha
    cases hy : allSign opName v ss with
    | err e => rw [hy] at ha; cases ha
    | panic => rw [hy] at ha; cases ha
    | ok y =>
      rw [hy] at ha
      cases ha with
      | ok hsame =>
        obtain ⟨text1, text2, f1, f2, f3, f4⟩ := ih hix (fun ss' h' => hs ss' (by simp [h'])) h
        refine ⟨text, text2, e1, .party e3 hy ?_ f2, f3, ?_⟩
        · rw [← hsame.partialTx]; exact f1
        · intro text'' hr
          cases hr with
          | party ht hs' he hr =>
            cases e4 _ ht
            rw [hy] at hs'
            cases hs'
            rw [← hsame.partialTx, f1] at he
            cases he
            exact f4 _ hr

end OfflineProofs

/-! ## The theorems -/

/-- **C102** (handing over): a transaction is prepared, and some of its inputs may be signed, each with a script. Then it
can be exported as JSON text, and whoever takes the text over can prepare it for signing: with the same preimages for
all inputs, tags and provenance included, the same outputs and the same signed inputs; exporting it again gives the
same transaction. -/
theorem C102_handover (opName : Opcode → String) (sz : Layout) (P : HashPrims) (u : RichUnsigned Dyn)
    (hu : Prepared opName sz P u) (hf : ∀ t, some t ∈ u.inputs → t.script ≠ []) (hp : Portable u.partialTx) :
    ∃ text, txToText Base64.encode u.partialTx = some text ∧
      (∃ v : RichUnsigned Dyn, TakenOver opName sz P text v) ∧
      ∀ v : RichUnsigned Dyn, TakenOver opName sz P text v → v.txPreimages = u.txPreimages ∧ v.outputs = u.outputs ∧
        v.inputs = u.inputs ∧ v.partialTx = u.partialTx ∧ v.completeTx = u.completeTx := by
  obtain ⟨text, v, h1, _, h3, h4, h5⟩ := OfflineProofs.handover opName sz P (OfflineProofs.prepared_inv hu) hf hp
  refine ⟨text, h1, ⟨v, h3⟩, fun v' hv' => ?_⟩
  cases h4 v' hv'
  exact ⟨h5.preimages.symm, h5.outputs.symm, h5.inputs.symm, h5.partialTx.symm, h5.completeTx.symm⟩

/-- **C102** (signing elsewhere): signing an input of the transaction taken over gives what signing it at home gives: a
transaction with the same inputs, the same error, or a panic; provided the signatory does not look at the estimated
size. -/
theorem C102_signing (opName : Opcode → String) (sz : Layout) (P : HashPrims) (u : RichUnsigned Dyn)
    (hu : Prepared opName sz P u) (hf : ∀ t, some t ∈ u.inputs → t.script ≠ []) (hp : Portable u.partialTx)
    (text : List Char) (ht : txToText Base64.encode u.partialTx = some text) (v : RichUnsigned Dyn)
    (hv : TakenOver opName sz P text v) (s : Signer Dyn) (hs : IgnoresSize s.signatory) :
    Agree (fun v' u' => v'.inputs = u'.inputs ∧ v'.partialTx = u'.partialTx ∧ v'.completeTx = u'.completeTx)
      (s.signs opName v) (s.signs opName u) := by
  obtain ⟨text', w, h1, _, _, h4, h5⟩ := OfflineProofs.handover opName sz P (OfflineProofs.prepared_inv hu) hf hp
  rw [ht] at h1
  cases h1
  cases h4 v hv
  have := OfflineProofs.signs_same (opName := opName) h5 s hs
  revert this
  generalize s.signs opName u = x
  generalize s.signs opName v = y
  intro h
  cases h with
  | ok h => exact .ok ⟨h.inputs.symm, h.partialTx.symm, h.completeTx.symm⟩
  | err e => exact .err e
  | panic => exact .panic

/-- **C102** (from party to party): if signing a prepared transaction with all signers at home gives a transaction, then
the text can go from party to party, each signing its inputs, and whoever imports the last text gets that transaction. -/
theorem C102_relay_partial (opName : Opcode → String) (sz : Layout) (P : HashPrims) (u w : RichUnsigned Dyn)
    (hu : Prepared opName sz P u) (parties : List (List (Signer Dyn)))
    (hs : ∀ ss ∈ parties, ∀ s ∈ ss, IgnoresSize s.signatory)
    (h : allSign opName u parties.flatten = .ok w) (hf : ∀ t, some t ∈ w.inputs → t.script ≠ [])
    (hp : Portable w.partialTx) :
    ∃ text, txToText Base64.encode u.partialTx = some text ∧
      (∃ text', Relay opName sz P text parties text') ∧
      ∀ text', Relay opName sz P text parties text' →
        TextImportsTo Base64.decode text' (.ok w.partialTx) ∧
        ∀ tx, w.completeTx = some tx → TextImportsTo Base64.decode text' (.ok tx) := by
  obtain ⟨text, text', h1, h2, h3, h4⟩ := OfflineProofs.relay opName sz P (OfflineProofs.prepared_inv hu) hs h hf hp
  refine ⟨text, h1, ⟨text', h2⟩, fun text'' hr => ?_⟩
  cases h4 _ hr
  refine ⟨h3, fun tx htx => ?_⟩
  have hi : OfflineProofs.Inv opName P w := (OfflineProofs.allSign_grow (OfflineProofs.prepared_inv hu) h).1
  have : tx = w.partialTx := by
    unfold RichUnsigned.completeTx at htx
    obtain ⟨ins, hm, rfl⟩ := Option.map_eq_some_iff.mp htx
    unfold RichUnsigned.partialTx
    congr 1
    have hlen := OfflineProofs.inv_length hi
    clear htx
    generalize w.builder.inputs = bs at hlen
    generalize w.inputs = xs at hlen hm
    induction xs generalizing ins bs with
    | nil => simp at hm; subst hm; rfl
    | cons x xs ih =>
      rw [List.mapM_cons] at hm
      simp only [bind, Option.bind_eq_some_iff, pure, Option.some.injEq] at hm
      obtain ⟨y, hy, ys, hys, rfl⟩ := hm
      cases bs with
      | nil => cases hlen
      | cons b bs =>
        simp only [id] at hy
        subst hy
        simp only [List.zip_cons_cons, List.map_cons, List.cons.injEq, true_and]
        exact ih ys bs (by simpa using hlen) hys
  rw [this]
  exact h3

/-- **C102 fails** (`sign_input`, `sign_input_dyn`): on a transaction taken over, signing an input that is not signed
with these functions reports success, whatever the signatures, and records an empty script. -/
theorem C102_dyn_fails (opName : Opcode → String) (sz : Layout) (P : HashPrims) (tx : RichTx) (v : RichUnsigned Dyn)
    (hv : (RichBuilder.fromTx tx : RichBuilder Dyn).buildWithoutEstimation opName sz P = .ok v) (idx : Nat) (t : RichInput)
    (ht : tx.inputs[idx]? = some t) (hs : t.script = []) (sigs : Dyn) :
    ∃ w t', v.signInputDyn idx sigs = some (w, .ok ()) ∧ w.inputs[idx]? = some (some t') ∧ t'.script = [] := by
  unfold RichBuilder.buildWithoutEstimation at hv
  rw [show (RichBuilder.fromTx tx : RichBuilder Dyn).outputs = tx.outputs.map .knownValue from rfl,
    OfflineProofs.known_map] at hv
  simp only at hv
  obtain ⟨n, _, hv⟩ := Res.bind_eq_ok.mp hv
  obtain ⟨ps, hps, hv⟩ := Res.bind_eq_ok.mp hv
  cases hv
  have hlt : idx < tx.inputs.length := (List.getElem?_eq_some_iff.mp ht).1
  have hpre : ∃ p, ps[idx]? = some p := by
    revert hps
    unfold RichBuilder.preimages
    cases hx : RichBuilder.preimages P opName (RichBuilder.fromTx tx : RichBuilder Dyn) tx.outputs with
    | none => unfold RichBuilder.preimages at hx; rw [hx]; intro h; cases h
    | some qs =>
      unfold RichBuilder.preimages at hx
      rw [hx]
      intro h
      cases h
      dsimp only at hx
      obtain ⟨hp, _, hx⟩ := Option.bind_eq_some_iff.mp hx
      obtain ⟨hq, _, hx⟩ := Option.bind_eq_some_iff.mp hx
      obtain ⟨ho, _, hx⟩ := Option.bind_eq_some_iff.mp hx
      have hl := DebugProofs.mapM_length hx
      simp only [List.length_zipIdx, RichBuilder.fromTx, List.length_map] at hl
      exact ⟨_, List.getElem?_eq_getElem (hl ▸ hlt)⟩
  obtain ⟨p, hp⟩ := hpre
  have hin : (RichBuilder.fromTx tx : RichBuilder Dyn).prefilled[idx]? = some none := by
    simp only [RichBuilder.prefilled, RichBuilder.fromTx, List.map_map, List.getElem?_map, ht, Option.map_some,
      Function.comp, Option.bind_some, hs]
  have hb : ∃ i, (RichBuilder.fromTx tx : RichBuilder Dyn).inputs[idx]? = some i ∧
      i.funcScript = fun _ _ _ _ _ => some t.script := by
    simp only [RichBuilder.fromTx, List.getElem?_map, ht, Option.map_some]
    exact ⟨_, rfl, rfl⟩
  obtain ⟨i, hi, hfun⟩ := hb
  unfold RichUnsigned.signInputDyn RichUnsigned.signWith
  simp only [hin, hi, hp, Option.bind_some, hfun, hs, Option.map_some]
  refine ⟨_, RichUnsigned.signedInputOf i [], rfl, ?_, rfl⟩
  have : idx < (RichBuilder.fromTx tx : RichBuilder Dyn).prefilled.length := by
    simpa [RichBuilder.prefilled, RichBuilder.fromTx] using hlt
  simp [this]

/-- **C102 fails** (empty scripts): an input that is signed with an empty script counts as not signed after handing
over, and completing panics. -/
theorem C102_empty_fails (opName : Opcode → String) (sz : Layout) (P : HashPrims) (tx : RichTx) (v : RichUnsigned Dyn)
    (hv : (RichBuilder.fromTx tx : RichBuilder Dyn).buildWithoutEstimation opName sz P = .ok v) (t : RichInput)
    (ht : t ∈ tx.inputs) (hs : t.script = []) : v.completeTx = none := by
  unfold RichBuilder.buildWithoutEstimation at hv
  rw [show (RichBuilder.fromTx tx : RichBuilder Dyn).outputs = tx.outputs.map .knownValue from rfl,
    OfflineProofs.known_map] at hv
  simp only at hv
  obtain ⟨n, _, hv⟩ := Res.bind_eq_ok.mp hv
  obtain ⟨ps, hps, hv⟩ := Res.bind_eq_ok.mp hv
  cases hv
  unfold RichUnsigned.completeTx
  rw [Option.map_eq_none_iff]
  cases hm : (RichBuilder.fromTx tx : RichBuilder Dyn).prefilled.mapM id with
  | none => rfl
  | some ins =>
    obtain ⟨idx, hidx⟩ := List.getElem?_of_mem ht
    have hin : (RichBuilder.fromTx tx : RichBuilder Dyn).prefilled[idx]? = some none := by
      simp only [RichBuilder.prefilled, RichBuilder.fromTx, List.map_map, List.getElem?_map, hidx, Option.map_some,
        Function.comp, Option.bind_some, hs]
    have hl := DebugProofs.mapM_length hm
    have hlt : idx < ins.length := hl ▸ (List.getElem?_eq_some_iff.mp hin).1
    obtain ⟨x, hx, hx'⟩ := DebugProofs.mapM_get hm (List.getElem?_eq_getElem hlt)
    rw [hin] at hx
    cases hx
    cases hx'

/-! ## Examples -/

namespace OfflineExample
open DebugExample

/-- A coin locked to a key of another party, not a script hash. -/
def other : RichSignatory Bytes where
  Sigs := Bytes
  downcast d := some d
  kind := .one 0x41 fun _ _ sig _ _ =>
    some [(TaggedOp.fromOp (.pushByteArray ⟨sig, some "signature", .schnorrSign, none⟩ true)).named "sig"]
  placeholderSignatures := [0, 0, 0]
  isP2sh := false

/-- A signatory that looks at the estimated size. -/
def sizing : RichSignatory Bytes where
  Sigs := Bytes
  downcast d := some d
  kind := .one 0x41 fun _ n _ _ _ => some [TaggedOp.fromOp (.pushInteger (Int.ofNat (n.getD 0)))]
  placeholderSignatures := []
  isP2sh := false

def otherInput : RichUnsignedInput := ⟨⟨⟨List.replicate 32 8, some "txid", .hash256, none⟩, rfl⟩, 0, 0xfffffffe, 20000⟩

/-- Two coins, the contract of `DebugExample` and the other one, a payment and change. -/
def builder : RichBuilder Bytes :=
  addRichOuts ((((RichBuilder.newWithFee 2 500 1000).addInput DebugExample.opName job.input job.lock job.signatory).1).addInput
    DebugExample.opName otherInput [TaggedOp.fromOp (.code .OP_CHECKSIG)] other).1 outs

theorem builder_reach : RichReach DebugExample.opName builder :=
  .addLeftover _ _ _ _ (.addOutput _ (.addInput _ _ _ (.addInput _ _ _ (.newWithFee _ _ _))))

/-- The two signers. -/
def contractSigner : Signer Bytes := ⟨0, signatory, fun _ => .ok [1, 2]⟩
def otherSigner : Signer Bytes := ⟨1, other, fun _ => .ok [3, 4, 5]⟩
def sizingSigner : Signer Bytes := ⟨1, sizing, fun _ => .ok []⟩

/-- A check of `Portable`. -/
def portable (tx : RichTx) : Bool :=
  decide (tx.inputs.length < 2 ^ 64) && tx.inputs.all (fun i => ((TaggedScript.contents i.script).serOps.map List.length).any (· < 2 ^ 64)) &&
  decide (tx.outputs.length < 2 ^ 64) && tx.outputs.all (fun i => ((TaggedScript.contents i.script).serOps.map List.length).any (· < 2 ^ 64)) &&
  tx.allOps.all (fun t => match t.op with
      | .pushInteger i => decide (InScriptRange i)
      | _ => true) && decide ((txArrays tx).length ≤ 2 ^ 64) && decide ((txStrings tx).length ≤ 2 ^ 64)

theorem portable_ok {tx : RichTx} (h : portable tx = true) : Portable tx := by
  simp only [portable, Bool.and_eq_true, decide_eq_true_eq, List.all_eq_true] at h
  obtain ⟨⟨⟨⟨⟨⟨h1, h2⟩, h3⟩, h4⟩, h5⟩, h6⟩, h7⟩ := h
  have hser : ∀ s : Script, (s.serOps.map List.length).any (· < 2 ^ 64) = true → s.Serialisable := by
    intro s hs
    unfold Script.Serialisable
    cases hb : s.serOps with
    | none => rw [hb] at hs; cases hs
    | some bs => rw [hb] at hs; exact ⟨bs, rfl, by simpa using hs⟩
  refine ⟨⟨h1, fun i hi => hser _ (h2 i hi)⟩, ⟨h3, fun i hi => hser _ (h4 i hi)⟩, fun t ht i hi => ?_, h6, h7⟩
  have := h5 t ht
  rw [hi] at this
  simpa using this

def filled (u : RichUnsigned Bytes) : Bool := u.inputs.all fun
  | some t => !t.script.isEmpty
  | none => true

theorem filled_ok {u : RichUnsigned Bytes} (h : filled u = true) : ∀ t, some t ∈ u.inputs → t.script ≠ [] := by
  intro t ht hs
  have := List.all_eq_true.mp h (some t) ht
  simp [hs] at this

set_option maxRecDepth 100000 in
/-- Building and signing at home. -/
theorem home : ∃ u w, builder.build DebugExample.opName ⟨1, 1⟩ prims = .ok u ∧
    allSign DebugExample.opName u [contractSigner, otherSigner] = .ok w ∧ filled w = true ∧ portable w.partialTx = true := by
  have h : (match builder.build DebugExample.opName ⟨1, 1⟩ prims with
      | .ok u => match allSign DebugExample.opName u [contractSigner, otherSigner] with
        | .ok w => filled w && portable w.partialTx
        | _ => false
      | _ => false) = true := by decide +kernel
  revert h
  cases builder.build DebugExample.opName ⟨1, 1⟩ prims with
  | panic => intro h; cases h
  | err e => intro h; cases h
  | ok u =>
    simp only
    cases hw : allSign DebugExample.opName u [contractSigner, otherSigner] with
    | panic => intro h; cases h
    | err e => intro h; cases h
    | ok w =>
      intro h
      simp only [Bool.and_eq_true] at h
      exact ⟨u, w, rfl, hw, h.1, h.2⟩

theorem signers_ignore : ∀ ss ∈ [[contractSigner], [otherSigner]], ∀ s ∈ ss, IgnoresSize s.signatory := by
  intro ss hss s hs
  simp only [List.mem_cons, List.not_mem_nil, or_false] at hss
  rcases hss with rfl | rfl <;> (rw [List.mem_singleton] at hs; subst hs; intro ps n m sigs lock outs; rfl)

/-- `C102_relay_partial`: the text goes to the one who signs the contract and then to the other one. -/
example : ∃ u w text, builder.build DebugExample.opName ⟨1, 1⟩ prims = .ok u ∧
    allSign DebugExample.opName u [contractSigner, otherSigner] = .ok w ∧
    txToText Base64.encode u.partialTx = some text ∧
    ∃ text', Relay DebugExample.opName ⟨1, 1⟩ prims text [[contractSigner], [otherSigner]] text' ∧
      TextImportsTo Base64.decode text' (.ok w.partialTx) := by
  obtain ⟨u, w, h1, h2, h3, h4⟩ := home
  obtain ⟨text, e1, ⟨text', e2⟩, e3⟩ := C102_relay_partial DebugExample.opName ⟨1, 1⟩ prims u w (.build builder_reach h1)
    [[contractSigner], [otherSigner]] signers_ignore h2 (filled_ok h3) (portable_ok h4)
  exact ⟨u, w, text, h1, h2, e1, text', e2, (e3 text' e2).1⟩

/-- `C102_handover` and `C102_signing`, for the transaction signed at home. -/
example : ∃ (w : RichUnsigned Bytes) (text : List Char), txToText Base64.encode w.partialTx = some text ∧
    ∃ v : RichUnsigned Bytes, TakenOver DebugExample.opName ⟨1, 1⟩ prims text v ∧ v.txPreimages = w.txPreimages ∧
      contractSigner.signs DebugExample.opName v = .err (.inputAlreadySigned 0) := by
  obtain ⟨u, w, h1, h2, h3, h4⟩ := home
  have hw : Prepared DebugExample.opName ⟨1, 1⟩ prims w := by
    obtain ⟨a, ha, h2⟩ := Res.bind_eq_ok.mp h2
    obtain ⟨b, hb, h2⟩ := Res.bind_eq_ok.mp h2
    cases h2
    have step : ∀ {x y : RichUnsigned Bytes} {s : Signer Bytes}, Prepared DebugExample.opName ⟨1, 1⟩ prims x →
        s.signs DebugExample.opName x = .ok y → Prepared DebugExample.opName ⟨1, 1⟩ prims y := by
      intro x y s hx h
      unfold Signer.signs at h
      obtain ⟨ps, _, h⟩ := Res.bind_eq_ok.mp h
      obtain ⟨sigs, _, h⟩ := Res.bind_eq_ok.mp h
      revert h
      cases hz : x.signInputSignatory DebugExample.opName s.idx s.signatory sigs with
      | none => intro h; cases h
      | some r =>
        obtain ⟨z, r⟩ := r
        cases r with
        | error e => intro h; cases h
        | ok _ => intro h; cases h; exact .signSignatory _ _ _ hx hz
    exact step (step (.build builder_reach h1) ha) hb
  obtain ⟨text, e1, ⟨v, e2⟩, e3⟩ := C102_handover DebugExample.opName ⟨1, 1⟩ prims w hw (filled_ok h3) (portable_ok h4)
  refine ⟨w, text, e1, v, e2, (e3 v e2).1, ?_⟩
  have := C102_signing DebugExample.opName ⟨1, 1⟩ prims w hw (filled_ok h3) (portable_ok h4) text e1 v e2 contractSigner
    (signers_ignore _ (List.mem_cons_self) _ (List.mem_cons_self))
  have hd : contractSigner.signs DebugExample.opName w = .err (.inputAlreadySigned 0) := by
    have hk : (match builder.build DebugExample.opName ⟨1, 1⟩ prims with
      | .ok u => match allSign DebugExample.opName u [contractSigner, otherSigner] with
        | .ok w => match contractSigner.signs DebugExample.opName w with
          | .err (.inputAlreadySigned 0) => true
          | _ => false
        | _ => false
      | _ => false) = true := by
      set_option maxRecDepth 100000 in decide +kernel
    rw [h1] at hk
    simp only at hk
    rw [h2] at hk
    simp only at hk
    split at hk
    · assumption
    · cases hk
  rw [hd] at this
  revert this
  generalize contractSigner.signs DebugExample.opName v = x
  intro h
  cases h
  rfl

/-- The operations of the inputs signed. -/
def signedOps : Res Error (RichUnsigned Bytes) → List (Option Script)
  | .ok u => u.inputs.map (Option.map fun t => TaggedScript.contents t.script)
  | _ => []

end OfflineExample

open OfflineExample in
set_option maxRecDepth 100000 in
/-- **C102 fails** (estimated size): the estimate is another one after handing over, so a signatory that looks at it
makes another script elsewhere than at home. -/
theorem C102_size_fails : ∃ (u v : RichUnsigned Bytes) (text : List Char) (s : Signer Bytes),
    Prepared DebugExample.opName ⟨1, 1⟩ DebugExample.prims u ∧ Portable u.partialTx ∧
    txToText Base64.encode u.partialTx = some text ∧ TakenOver DebugExample.opName ⟨1, 1⟩ DebugExample.prims text v ∧
    signedOps (s.signs DebugExample.opName v) ≠ signedOps (s.signs DebugExample.opName u) := by
  have hk : (match builder.build DebugExample.opName ⟨1, 1⟩ DebugExample.prims with
      | .ok u => portable u.partialTx &&
        (match (RichBuilder.fromTx u.partialTx : RichBuilder Bytes).buildWithoutEstimation DebugExample.opName ⟨1, 1⟩
            DebugExample.prims with
        | .ok v => decide (signedOps (sizingSigner.signs DebugExample.opName v) ≠
            signedOps (sizingSigner.signs DebugExample.opName u))
        | _ => false)
      | _ => false) = true := by decide +kernel
  revert hk
  cases hb : builder.build DebugExample.opName ⟨1, 1⟩ DebugExample.prims with
  | panic => intro h; cases h
  | err e => intro h; cases h
  | ok u =>
    simp only
    cases hv : (RichBuilder.fromTx u.partialTx : RichBuilder Bytes).buildWithoutEstimation DebugExample.opName ⟨1, 1⟩
            DebugExample.prims with
    | panic => intro h; simp at h
    | err e => intro h; simp at h
    | ok v =>
      intro h
      simp only [Bool.and_eq_true, decide_eq_true_eq] at h
      have hp := portable_ok h.1
      obtain ⟨text, h1, h2⟩ := C94_roundtrip_base64 u.partialTx hp.ints hp.arrays hp.strings
      exact ⟨u, v, text, sizingSigner, .build builder_reach hb, hp, h1, ⟨_, h2, hv⟩, h.2⟩

/-- `C102_dyn_fails` and `C102_empty_fails`: a transaction with one input without script. -/
example : ∃ (v w : RichUnsigned Bytes) (t : RichInput),
    (RichBuilder.fromTx ⟨1, [⟨DebugExample.job.input.prevHash, 1, [], 0, none, some 7, some false, some [0x41]⟩], [], 0⟩ :
      RichBuilder Bytes).buildWithoutEstimation DebugExample.opName ⟨1, 1⟩ DebugExample.prims = .ok v ∧
    v.signInputDyn 0 [1, 2, 3] = some (w, .ok ()) ∧ w.inputs[0]? = some (some t) ∧ t.script = [] ∧
    v.completeTx = none := by
  have hp : Portable (⟨1, [⟨DebugExample.job.input.prevHash, 1, [], 0, none, some 7, some false, some [0x41]⟩], [], 0⟩ :
      RichTx) := OfflineExample.portable_ok (by decide +kernel)
  obtain ⟨v, hv, _⟩ := OfflineProofs.built_fromTx (Dyn := Bytes) DebugExample.opName ⟨1, 1⟩ DebugExample.prims hp
  obtain ⟨w, t, h1, h2, h3⟩ := C102_dyn_fails DebugExample.opName ⟨1, 1⟩ DebugExample.prims _ v hv 0 _ rfl rfl [1, 2, 3]
  exact ⟨v, w, t, hv, h1, h2, h3, C102_empty_fails DebugExample.opName ⟨1, 1⟩ DebugExample.prims _ v hv _
    (List.mem_singleton.mpr rfl) rfl⟩

end BCash
