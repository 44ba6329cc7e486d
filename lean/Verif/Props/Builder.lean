import Verif.Props.Signing

/-! # C78: a builder does what its calls say -/

namespace BCash
open Spec TxBuilder
variable {Dyn : Type}

/-! ## Specification -/

/-- Spec: the calls that change a builder. -/
inductive Spec.BuilderCall (Dyn : Type) : Type 1
  | setFee (feePerKb : UInt64)
  | input (input : UnsignedTxInput) (lock : Script) (signatory : Signatory Dyn)
  | output (o : TxOutput)
  | outputs (os : List TxOutput)
  | leftover (script : Script)
  | leftoverBounded (lower upper : UInt64) (precedence : Int32) (script : Script)

/-- Making a call; an input reference is returned for an input. -/
def Spec.BuilderCall.run (b : TxBuilder Dyn) : BuilderCall Dyn → TxBuilder Dyn × Option Nat
  | .setFee f => (b.setFeePerKb f, none)
  | .input i lock s => ((b.addInput i lock s).1, some (b.addInput i lock s).2)
  | .output o => (b.addOutput o, none)
  | .outputs os => (b.addOutputs os, none)
  | .leftover s => (b.addLeftoverOutput s, none)
  | .leftoverBounded l u p s => (b.addLeftoverOutputBounded l u p s, none)

/-- Making calls in order; the references returned. -/
def Spec.runCalls (b : TxBuilder Dyn) : List (BuilderCall Dyn) → TxBuilder Dyn × List Nat
  | [] => (b, [])
  | c :: cs =>
    let r := c.run b
    let r' := runCalls r.1 cs
    (r'.1, r.2.toList ++ r'.2)

/-- Spec: the outputs a call asks for. A leftover output without bounds gets more than the dust limit of 546
satoshis, without upper limit, at precedence 0. -/
def Spec.BuilderCall.outs : BuilderCall Dyn → List TxBuilderOutput
  | .output o => [.knownValue o]
  | .outputs os => os.map .knownValue
  | .leftover s => [.leftover 546 18446744073709551615 0 s]
  | .leftoverBounded l u p s => [.leftover l u p s]
  | _ => []

/-- Spec: the fee a call sets. -/
def Spec.BuilderCall.fee : BuilderCall Dyn → Option UInt64
  | .setFee f => some f
  | _ => none

/-- Spec: the flags of a signatory, one per signature. -/
def Spec.flagsOf (s : Signatory Dyn) : List SigHashFlags :=
  match s.kind with
  | .one f _ => [f]
  | .multiple fs _ => fs

/-- Spec: an input that is still to be signed. -/
structure Spec.InputRequest where
  input : UnsignedTxInput
  lockScript : Option Script
  flags : List SigHashFlags
  isP2sh : Option Bool
  signed : Option TxInput

/-- Spec: the input a call asks for. -/
def Spec.BuilderCall.ins : BuilderCall Dyn → List InputRequest
  | .input i lock s => [⟨i, some lock, flagsOf s, some s.isP2sh, none⟩]
  | _ => []

/-- The data of a builder input. -/
def Spec.request (i : TxBuilderInput Dyn) : InputRequest :=
  ⟨i.input, i.lockScript, i.sigHashFlags, i.isP2sh, i.signedInput⟩

/-- Spec: the unlocking script a signatory makes: its own operations followed, for P2SH, by a push of the redeem
script. -/
def Spec.unlocks (s : Signatory Dyn) (preimages : List TxPreimage) (size : Option Nat) (sigs : s.Sigs)
    (lock : Script) (outs : List TxOutput) (script : Script) : Prop :=
  ∃ own : Script, (match s.kind with
      | .one _ build => ∃ p rest, preimages = p :: rest ∧ build p size sigs lock outs = some own
      | .multiple _ build => build preimages size sigs lock outs = some own) ∧
    if s.isP2sh then ∃ bytes, Script.serOps lock = some bytes ∧ script = own ++ [.pushByteArray bytes true]
    else script = own

/-! ## Theorems -/

theorem addOutputs_eq (b : TxBuilder Dyn) (os : List TxOutput) :
    b.addOutputs os = { b with outputs := b.outputs ++ os.map .knownValue } := by
  unfold addOutputs
  induction os generalizing b with
  | nil => simp
  | cons o os ih => rw [List.foldl_cons, ih]; simp [addOutput]

theorem runCalls_version (cs : List (BuilderCall Dyn)) : ∀ b : TxBuilder Dyn,
    (runCalls b cs).1.version = b.version ∧ (runCalls b cs).1.lockTime = b.lockTime := by
  induction cs with
  | nil => intro b; exact ⟨rfl, rfl⟩
  | cons c cs ih =>
    intro b
    obtain ⟨h1, h2⟩ := ih (c.run b).1
    rw [runCalls]
    dsimp only
    rw [h1, h2]
    cases c <;> first | exact ⟨rfl, rfl⟩ | (simp only [BuilderCall.run, addOutputs_eq, and_self])

/-- **C78** (new builders): no inputs and outputs; version 1, lock time 0 and a fee of 1000 satoshis per 1000
bytes unless given. -/
theorem C78_new (version : Int32) (lockTime : UInt32) (fee : UInt64) :
    (newSimple : TxBuilder Dyn) = ⟨1, [], [], 0, 1000⟩ ∧
    (TxBuilder.new version lockTime : TxBuilder Dyn) = ⟨version, [], [], lockTime, 1000⟩ ∧
    (newWithFee version lockTime fee : TxBuilder Dyn) = ⟨version, [], [], lockTime, fee⟩ := ⟨rfl, rfl, rfl⟩

/-- **C78** (calls): after any calls the builder has the version and lock time it had, the outputs and inputs
asked for in order after those it had, and the fee set last; the references count the inputs. -/
theorem C78_calls (b : TxBuilder Dyn) (cs : List (BuilderCall Dyn)) :
    (runCalls b cs).1.version = b.version ∧ (runCalls b cs).1.lockTime = b.lockTime ∧
    (runCalls b cs).1.outputs = b.outputs ++ cs.flatMap BuilderCall.outs ∧
    (runCalls b cs).1.inputs.map request = b.inputs.map request ++ cs.flatMap BuilderCall.ins ∧
    (runCalls b cs).1.feePerKb = (cs.filterMap BuilderCall.fee).getLast?.getD b.feePerKb ∧
    (runCalls b cs).2 = List.range' b.inputs.length (cs.flatMap BuilderCall.ins).length := by
  refine ⟨(runCalls_version cs b).1, (runCalls_version cs b).2, ?_⟩
  induction cs generalizing b with
  | nil => simp [runCalls]
  | cons c cs ih =>
    rw [runCalls]
    dsimp only
    obtain ⟨h1, h2, h3, h4⟩ := ih (c.run b).1
    rw [h1, h2, h3, h4, List.flatMap_cons, List.flatMap_cons, List.length_append, ← List.append_assoc,
      ← List.append_assoc]
    cases c with
    | setFee f =>
      refine ⟨by simp [BuilderCall.run, setFeePerKb, BuilderCall.outs],
        by simp [BuilderCall.run, setFeePerKb, BuilderCall.ins], ?_,
        by simp [BuilderCall.run, setFeePerKb, BuilderCall.ins]⟩
      rw [List.filterMap_cons_some (by rfl), List.getLast?_cons]
      simp [BuilderCall.run, setFeePerKb]
    | input i lock s =>
      refine ⟨by simp [BuilderCall.run, addInput, BuilderCall.outs], ?_, by simp [BuilderCall.run, addInput, BuilderCall.fee], ?_⟩
      · congr 1
        simp only [BuilderCall.run, addInput, List.map_append, BuilderCall.ins, List.map_cons, List.map_nil, request]
        rfl
      · generalize (cs.flatMap BuilderCall.ins).length = n
        simp only [BuilderCall.run, addInput, BuilderCall.ins, List.length_append, List.length_cons,
          List.length_nil, Option.toList_some, List.cons_append, List.nil_append, Nat.zero_add]
        rw [Nat.add_comm 1 n, List.range'_succ]
    | output o =>
      exact ⟨rfl, by simp [BuilderCall.run, addOutput, BuilderCall.ins], rfl, by simp [BuilderCall.run, addOutput, BuilderCall.ins]⟩
    | outputs os =>
      simp only [BuilderCall.run, addOutputs_eq]
      exact ⟨rfl, by simp [BuilderCall.ins], rfl, by simp [BuilderCall.ins]⟩
    | leftover s =>
      exact ⟨rfl, by simp [BuilderCall.run, addLeftoverOutput, BuilderCall.ins], rfl, by simp [BuilderCall.run, addLeftoverOutput, BuilderCall.ins]⟩
    | leftoverBounded l u p s =>
      exact ⟨rfl, by simp [BuilderCall.run, addLeftoverOutputBounded, BuilderCall.ins], rfl, by simp [BuilderCall.run, addLeftoverOutputBounded, BuilderCall.ins]⟩

theorem unlockScript_spec {s : Signatory Dyn} {ps : List TxPreimage} {size : Option Nat} {sigs : s.Sigs}
    {lock : Script} {outs : List TxOutput} {script : Script} :
    s.unlockScript ps size sigs lock outs = some script ↔ unlocks s ps size sigs lock outs script := by
  unfold Signatory.unlockScript unlocks
  dsimp only
  constructor
  · intro h
    obtain ⟨own, h1, h2⟩ := Option.bind_eq_some_iff.mp h
    refine ⟨own, ?_, ?_⟩
    · cases hk : s.kind with
      | one f build =>
        rw [hk] at h1
        obtain ⟨p, hp, h1⟩ := Option.bind_eq_some_iff.mp h1
        cases ps with
        | nil => cases hp
        | cons q rest => cases hp; exact ⟨_, _, rfl, h1⟩
      | multiple f build => rw [hk] at h1; exact h1
    · by_cases hp : s.isP2sh = true
      · rw [if_pos hp] at h2 ⊢
        obtain ⟨bytes, h3, h4⟩ := Option.bind_eq_some_iff.mp h2
        exact ⟨bytes, h3, (Option.some.inj h4).symm⟩
      · rw [if_neg hp] at h2 ⊢
        exact (Option.some.inj h2).symm
  · rintro ⟨own, h1, h2⟩
    refine Option.bind_eq_some_iff.mpr ⟨own, ?_, ?_⟩
    · cases hk : s.kind with
      | one f build =>
        rw [hk] at h1
        obtain ⟨p, rest, rfl, h1⟩ := h1
        exact h1
      | multiple f build => rw [hk] at h1; exact h1
    · by_cases hp : s.isP2sh = true
      · rw [if_pos hp] at h2 ⊢
        obtain ⟨bytes, h3, rfl⟩ := h2
        rw [h3]; rfl
      · rw [if_neg hp] at h2 ⊢
        rw [h2]

/-- **C78** (estimation): to estimate the size, the signatory of an added input is asked for its script with its
placeholder signatures, no size, one empty preimage with the script code per flag set, and the outputs; the
estimate uses this script with the outpoint and sequence of the input. -/
theorem C78_placeholder (b : TxBuilder Dyn) (i : UnsignedTxInput) (lock : Script) (s : Signatory Dyn)
    (outs : List TxOutput) (t : UnhashedTx) (more : List (TxBuilderInput Dyn)) (b' : TxBuilder Dyn)
    (hb : b'.inputs = (b.addInput i lock s).1.inputs ++ more) (h : placeholderTx b' outs = some t) :
    ∃ inp, t.inputs[(b.addInput i lock s).2]? = some inp ∧ inp.prevOut = i.prevOut ∧ inp.sequence = i.sequence ∧
      unlocks s (List.replicate (flagsOf s).length
        ⟨0, Hash256.zero, Hash256.zero, ⟨Hash256.zero, 0⟩, lock.toScriptCodeFirst, 0, 0, Hash256.zero, 0, 1⟩)
        none s.placeholderSignatures lock outs inp.script := by
  unfold placeholderTx at h
  obtain ⟨ins, h1, rfl⟩ := Option.map_eq_some_iff.mp h
  have hget : b'.inputs[b.inputs.length]? = some ⟨i, s.funcScript, s.sigHashFlagsVec, some lock, some s.isP2sh, none⟩ := by
    rw [hb]; simp [addInput]
  obtain ⟨inp, h2, h3⟩ := (mapM_some h1).2 b.inputs.length _ hget
  refine ⟨inp, h2, ?_⟩
  unfold placeholderInput at h3
  obtain ⟨script, h4, rfl⟩ := Option.map_eq_some_iff.mp h3
  refine ⟨rfl, rfl, ?_⟩
  rw [← unlockScript_spec]
  exact h4

/-- **C78** (taking the builder back): the builder inside a prepared transaction is the one it was built from,
whatever was signed, so that it can be changed and built again. -/
theorem C78_into_builder (sz : Layout) (H : Bytes → Hash256) (b : TxBuilder Dyn) (u u' : UnsignedTx Dyn)
    (cs : List (SignCall Dyn)) (h : b.build sz H = .ok u ∨ b.buildWithoutEstimation sz H = .ok u)
    (hs : signAll u cs = some u') : u'.intoTxBuilder = b := by
  have hb : u.builder = b := by
    rcases h with h | h
    · obtain ⟨known, inputs, st, pre, hk, hin, hle, hloop, inv, hest, hpre, hu⟩ := build_ok h
      rw [hu]
    · obtain ⟨pre, _, _, hpre, hu⟩ := without_ok h
      rw [hu]
  clear h
  induction cs generalizing u with
  | nil => cases hs; exact hb
  | cons c cs ih =>
    rw [signAll] at hs
    obtain ⟨⟨u1, r⟩, h1, h2⟩ := Option.bind_eq_some_iff.mp hs
    have := (C39_one_input u u1 c r h1).2.2.2.2.1
    exact ih u1 h2 (by rw [this]; exact hb)

/-- Non-vacuity: a leftover output, two inputs, a change of the fee. -/
example : ∃ s : Signatory Unit, ∃ r, r = runCalls newSimple
      [.input ⟨⟨.zero, 1⟩, 5, 1000⟩ [.code .OP_1] s, .leftover [.code .OP_2], .setFee 7,
       .input ⟨⟨.zero, 2⟩, 6, 2000⟩ [.code .OP_3] s, .setFee 8] ∧
    r.2 = [0, 1] ∧ r.1.feePerKb = 8 ∧ r.1.outputs = [.leftover 546 18446744073709551615 0 [.code .OP_2]] ∧
    r.1.inputs.map (·.input.value) = [1000, 2000] ∧ r.1.inputs.map (·.sigHashFlags) = [[0x41, 0xc3], [0x41, 0xc3]] :=
  ⟨⟨Unit, some, .multiple [0x41, 0xc3] fun _ _ _ _ _ => some [], (), true⟩, _, rfl, rfl, rfl, rfl, rfl, rfl⟩

end BCash
