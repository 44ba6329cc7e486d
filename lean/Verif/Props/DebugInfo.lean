import Verif.Proofs.RichBuilder
import Verif.Props.Spending
import Verif.Props.JsonText
import Verif.Props.Text

/-! # C101 — debugging information accompanies a transaction from the scripts to the export -/

namespace BCash
open Spec
variable {Dyn : Type}

/-! ## What a client does -/

/-- Spec: something to spend, with debugging information: see `Job`. -/
structure Spec.RichJob (Dyn : Type) where
  input : RichUnsignedInput
  lock : TaggedScript
  signatory : RichSignatory Dyn
  sign : List RichPreimage → Res Error signatory.Sigs

/-- Spec: what `build_script` of a signatory returns. -/
def Spec.builtRich (s : RichSignatory Dyn) (preimages : List RichPreimage) (estimatedSize : Option Nat)
    (sigs : s.Sigs) (lock : TaggedScript) (outputs : List RichOutput) : Option TaggedScript :=
  match s.kind with
  | .one _ build => preimages.head?.bind fun p => build p estimatedSize sigs lock outputs
  | .multiple _ build => build preimages estimatedSize sigs lock outputs

/-- Spec: adding everything to spend in order. -/
def Spec.addRichJobs (opName : Opcode → String) : RichBuilder Dyn → List (RichJob Dyn) → RichBuilder Dyn
  | b, [] => b
  | b, job :: rest => addRichJobs opName (b.addInput opName job.input job.lock job.signatory).1 rest

/-- Spec: adding the outputs in order. -/
def Spec.addRichOuts : RichBuilder Dyn → List RichBuilderOutput → RichBuilder Dyn
  | b, [] => b
  | b, .knownValue o :: rest => addRichOuts (b.addOutput o) rest
  | b, .leftover lo hi p s :: rest => addRichOuts (b.addLeftoverOutputBounded lo hi p s) rest

/-- Spec: the builder with everything to spend and the outputs. -/
def Spec.richSpendBuilder (opName : Opcode → String) (version : Int32) (lockTime : UInt32) (fee : UInt64)
    (jobs : List (RichJob Dyn)) (outs : List RichBuilderOutput) : RichBuilder Dyn :=
  addRichOuts (addRichJobs opName (RichBuilder.newWithFee version lockTime fee) jobs) outs

/-- Spec: signing an input: take its preimages, make the signatures, hand them in. -/
def Spec.signRichJob (opName : Opcode → String) (u : RichUnsigned Dyn) (idx : Nat) (job : RichJob Dyn) :
    Res Error (RichUnsigned Dyn) :=
  (Res.ofOption u.txPreimages[idx]?).bind fun ps =>
  (job.sign ps).bind fun sigs =>
  match u.signInputSignatory opName idx job.signatory sigs with
  | none => .panic
  | some (_, .error e) => .err e
  | some (u', .ok ()) => .ok u'

/-- Spec: signing all inputs from number `idx` on. -/
def Spec.signRichJobs (opName : Opcode → String) : RichUnsigned Dyn → Nat → List (RichJob Dyn) →
    Res Error (RichUnsigned Dyn)
  | u, _, [] => .ok u
  | u, idx, job :: rest => (signRichJob opName u idx job).bind fun u => signRichJobs opName u (idx + 1) rest

/-- Spec: spending: add inputs and outputs, build, sign, complete. -/
def Spec.richSpend (opName : Opcode → String) (sz : Layout) (P : HashPrims) (version : Int32) (lockTime : UInt32)
    (fee : UInt64) (jobs : List (RichJob Dyn)) (outs : List RichBuilderOutput) : Res Error RichTx :=
  ((richSpendBuilder opName version lockTime fee jobs outs).build opName sz P).bind fun u =>
  (signRichJobs opName u 0 jobs).bind fun u =>
  Res.ofOption u.completeTx

/-- Spec: a job and what remains of it without debugging information: its signatory and its way to make signatures
do with the contents of what they are given what those of the other do. -/
inductive Spec.JobContents : RichJob Dyn → Job Dyn → Prop
  | mk (j : RichJob Dyn) (kind : SignatoryKind j.signatory.Sigs)
      (sign : List TxPreimage → Res Error j.signatory.Sigs) (size : Nat)
      (hk : KindContents j.signatory.kind kind) (hs : ∀ ps, j.sign ps = sign (ps.map RichPreimage.contents)) :
      JobContents j ⟨j.input.contents, TaggedScript.contents j.lock, plainSignatory j.signatory kind, sign, size⟩

/-! ## Proofs -/

namespace DebugProofs
open RichProofs

theorem addJobs_contents (opName : Opcode → String) {jobs' : List (RichJob Dyn)} {jobs : List (Job Dyn)}
    (h : List.Forall₂ JobContents jobs' jobs) {b' : RichBuilder Dyn} {b : TxBuilder Dyn} (hb : BuilderContents b' b) :
    BuilderContents (addRichJobs opName b' jobs') (addJobs b jobs) := by
  induction h generalizing b' b with
  | nil => exact hb
  | @cons j _ _ _ h1 _ ih =>
    cases h1 with
    | mk kind sign size hk hs =>
      exact ih (addInput_contents opName hb j.input j.lock j.signatory kind hk).1

theorem addOuts_contents (outs : List RichBuilderOutput) {b' : RichBuilder Dyn} {b : TxBuilder Dyn}
    (hb : BuilderContents b' b) :
    BuilderContents (addRichOuts b' outs) (addOuts b (outs.map RichBuilderOutput.contents)) := by
  induction outs generalizing b' b with
  | nil => exact hb
  | cons o outs ih =>
    cases o with
    | knownValue o =>
      refine ih (b := b.addOutput o.contents) ⟨hb.version, hb.inputs, ?_, hb.lockTime, hb.fee⟩
      simp [RichBuilder.addOutput, TxBuilder.addOutput, hb.outputs, RichBuilderOutput.contents]
    | leftover lo hi p s =>
      refine ih (b := b.addLeftoverOutputBounded lo hi p (TaggedScript.contents s))
        ⟨hb.version, hb.inputs, ?_, hb.lockTime, hb.fee⟩
      simp [RichBuilder.addLeftoverOutputBounded, TxBuilder.addLeftoverOutputBounded, hb.outputs,
        RichBuilderOutput.contents]

theorem signJob_contents (opName : Opcode → String) {j' : RichJob Dyn} {j : Job Dyn} (h : JobContents j' j)
    {u' : RichUnsigned Dyn} {u : UnsignedTx Dyn} (hu : UnsignedContents u' u) (idx : Nat) :
    Agree UnsignedContents (signRichJob opName u' idx j') (signJob u idx j) := by
  cases h with
  | mk kind sign size hk hs =>
    unfold signRichJob signJob
    rw [← hu.preimages, List.getElem?_map]
    cases u'.txPreimages[idx]? with
    | none => exact .panic
    | some ps =>
      simp only [Option.map_some, Res.ofOption, Res.bind]
      rw [hs ps]
      cases sign (ps.map RichPreimage.contents) with
      | panic => exact .panic
      | err e => exact .err e
      | ok sigs =>
        simp only
        have := signSignatory_contents opName hu idx j'.signatory kind hk sigs
        revert this
        generalize RichUnsigned.signInputSignatory opName u' idx j'.signatory sigs = x
        generalize UnsignedTx.signInputSignatory u idx (plainSignatory j'.signatory kind) sigs = y
        intro hr
        cases hr with
        | none => exact .panic
        | @some v' v r hv =>
          cases r with
          | error e => exact .err e
          | ok _ => exact .ok hv

theorem signJobs_contents (opName : Opcode → String) {jobs' : List (RichJob Dyn)} {jobs : List (Job Dyn)}
    (h : List.Forall₂ JobContents jobs' jobs) {u' : RichUnsigned Dyn} {u : UnsignedTx Dyn}
    (hu : UnsignedContents u' u) (idx : Nat) :
    Agree UnsignedContents (signRichJobs opName u' idx jobs') (signJobs u idx jobs) := by
  induction h generalizing u' u idx with
  | nil => exact .ok hu
  | cons h1 _ ih => exact (signJob_contents opName h1 hu idx).bind fun v' v hv => ih hv (idx + 1)

end DebugProofs

/-! ## The theorems -/

/-- **C101** (contents): debugging information never changes what is built and signed. If the signatories and the ways
to make signatures do with tagged scripts and arrays with provenance what others do with their contents, then
spending with debugging information gives the transaction, the error or the panic that spending without gives (C100):
the same up to debugging information. -/
theorem C101_contents (opName : Opcode → String) (sz : Layout) (P : HashPrims) (version : Int32) (lockTime : UInt32)
    (fee : UInt64) (jobs' : List (RichJob Dyn)) (jobs : List (Job Dyn)) (hj : List.Forall₂ JobContents jobs' jobs)
    (outs : List RichBuilderOutput) :
    Agree (fun tx' tx => tx'.contents = tx) (richSpend opName sz P version lockTime fee jobs' outs)
      (spend sz (sha256d P) version lockTime fee jobs (outs.map RichBuilderOutput.contents)) := by
  unfold richSpend spend
  have hb : BuilderContents (richSpendBuilder opName version lockTime fee jobs' outs)
      (spendBuilder version lockTime fee jobs (outs.map RichBuilderOutput.contents)) :=
    DebugProofs.addOuts_contents outs (DebugProofs.addJobs_contents opName hj ⟨rfl, .nil, rfl, rfl, rfl⟩)
  refine (RichProofs.build_contents opName sz P hb).bind fun u' u hu => ?_
  refine (DebugProofs.signJobs_contents opName hj hu 0).bind fun v' v hv => ?_
  exact RichProofs.ofOption_rel (RichProofs.complete_contents hv)

/-! ## What the transaction carries -/

/-- Spec: the flags a signatory signs with. -/
def Spec.richFlags (s : RichSignatory Dyn) : List SigHashFlags :=
  match s.kind with
  | .one f _ => [f]
  | .multiple fs _ => fs

/-- Spec: what an input carries: its script consists of the operations the signatory returned for the prepared
preimages, with everything recorded in them, and, for a script hash, of the push of the serialised script, with the
provenance of the bytes; with it go the whole script of the spent output as it was given, the amount and the flags.
The code in the preimages is the end of this very script. -/
def Spec.Carried (opName : Opcode → String) (u : RichUnsigned Dyn) (tx : RichTx) (idx : Nat) (job : RichJob Dyn) :
    Prop :=
  ∃ ps sigs ops redeem, u.txPreimages[idx]? = some ps ∧
    (∀ p ∈ ps, p.scriptCode <:+ job.lock ∧
      IsScriptCode (TaggedScript.contents job.lock) (TaggedScript.contents p.scriptCode)) ∧
    job.sign ps = .ok sigs ∧
    builtRich job.signatory ps (some u.estimatedSize) sigs job.lock tx.outputs = some ops ∧
    (if job.signatory.isP2sh then
      ∃ bytes, serializeOpsBA opName (job.lock.map (·.op)) = .ok bytes ∧
        redeem = [⟨.pushByteArray bytes true, "<unknown>", 0, 0, [], none, none⟩]
     else redeem = []) ∧
    tx.inputs[idx]? = some {
      prevHash := job.input.prevHash, prevVout := job.input.prevVout, script := ops ++ redeem,
      sequence := job.input.sequence, lockScript := some job.lock, value := some job.input.value,
      isP2sh := some job.signatory.isP2sh, sigHashFlags := some (richFlags job.signatory) }

/-- Spec: the fixed ones among some outputs. -/
def Spec.richFixed (outs : List RichBuilderOutput) : List RichOutput :=
  outs.filterMap fun
    | .knownValue o => some o
    | .leftover .. => none

/-- Spec: the script of an output of a builder. -/
def Spec.richScript : RichBuilderOutput → TaggedScript
  | .knownValue o => o.script
  | .leftover _ _ _ s => s

namespace DebugProofs

/-- The builder input of a job. -/
def inputOf (opName : Opcode → String) (job : RichJob Dyn) : RichBuilderInput Dyn :=
  ⟨job.input, job.signatory.funcScript opName, job.signatory.sigHashFlagsVec, some job.lock,
    some job.signatory.isP2sh, none⟩

theorem addJobs_ok (opName : Opcode → String) (jobs : List (RichJob Dyn)) (b : RichBuilder Dyn) :
    (addRichJobs opName b jobs).inputs = b.inputs ++ jobs.map (inputOf opName) ∧
    (addRichJobs opName b jobs).version = b.version ∧ (addRichJobs opName b jobs).lockTime = b.lockTime ∧
    (addRichJobs opName b jobs).outputs = b.outputs := by
  induction jobs generalizing b with
  | nil => exact ⟨by simp [addRichJobs], rfl, rfl, rfl⟩
  | cons job rest ih =>
    obtain ⟨h1, h2, h3, h4⟩ := ih (b.addInput opName job.input job.lock job.signatory).1
    refine ⟨?_, h2, h3, h4⟩
    rw [addRichJobs, h1]
    simp only [RichBuilder.addInput, List.append_assoc, List.singleton_append, List.map_cons]
    rfl

theorem addOuts_ok (outs : List RichBuilderOutput) (b : RichBuilder Dyn) :
    (addRichOuts b outs).inputs = b.inputs ∧ (addRichOuts b outs).version = b.version ∧
    (addRichOuts b outs).lockTime = b.lockTime ∧ (addRichOuts b outs).outputs = b.outputs ++ outs := by
  induction outs generalizing b with
  | nil => exact ⟨rfl, rfl, rfl, by simp [addRichOuts]⟩
  | cons o outs ih =>
    cases o with
    | knownValue o =>
      obtain ⟨h1, h2, h3, h4⟩ := ih (b.addOutput o)
      refine ⟨h1, h2, h3, ?_⟩
      rw [addRichOuts, h4]
      simp [RichBuilder.addOutput]
    | leftover lo hi p s =>
      obtain ⟨h1, h2, h3, h4⟩ := ih (b.addLeftoverOutputBounded lo hi p s)
      refine ⟨h1, h2, h3, ?_⟩
      rw [addRichOuts, h4]
      simp [RichBuilder.addLeftoverOutputBounded]

theorem build_ok {opName : Opcode → String} {sz : Layout} {P : HashPrims} {b : RichBuilder Dyn} {u : RichUnsigned Dyn}
    (h : b.build opName sz P = .ok u) :
    u.builder = b ∧ u.inputs = b.prefilled ∧ b.preimages P opName u.outputs = some u.txPreimages ∧
      ∃ amounts, u.outputs = b.makeOutputs amounts := by
  unfold RichBuilder.build at h
  obtain ⟨known, _, h⟩ := Res.bind_eq_ok.mp h
  obtain ⟨ins, _, h⟩ := Res.bind_eq_ok.mp h
  split at h
  · cases h
  · obtain ⟨st, _, h⟩ := Res.bind_eq_ok.mp h
    obtain ⟨n, _, h⟩ := Res.bind_eq_ok.mp h
    obtain ⟨ps, hp, h⟩ := Res.bind_eq_ok.mp h
    cases h
    refine ⟨rfl, rfl, ?_, st.amounts, rfl⟩
    revert hp
    simp only
    cases RichBuilder.preimages P opName b (b.makeOutputs st.amounts) with
    | none => intro hp; cases hp
    | some x => intro hp; cases hp; rfl

theorem makeOutputs_sub (amounts : Nat → Option Nat) (outs : List RichBuilderOutput) (n : Nat) :
    (richFixed outs).Sublist (RichBuilder.makeOutputsFrom amounts n outs) ∧
    ((RichBuilder.makeOutputsFrom amounts n outs).map (·.script)).Sublist (outs.map richScript) := by
  induction outs generalizing n with
  | nil => exact ⟨.slnil, .slnil⟩
  | cons o outs ih =>
    obtain ⟨h1, h2⟩ := ih (n + 1)
    cases o with
    | knownValue o => exact ⟨h1.cons_cons o, h2.cons_cons o.script⟩
    | leftover lo hi p s =>
      simp only [RichBuilder.makeOutputsFrom]
      cases amounts n with
      | none => exact ⟨h1, h2.cons _⟩
      | some v => exact ⟨h1.cons _, h2.cons_cons _⟩

theorem sign_ok {opName : Opcode → String} {u v : RichUnsigned Dyn} {idx : Nat} {job : RichJob Dyn}
    (h : signRichJob opName u idx job = .ok v) :
    ∃ i ps sigs script, u.builder.inputs[idx]? = some i ∧ u.txPreimages[idx]? = some ps ∧ job.sign ps = .ok sigs ∧
      u.inputs[idx]? = some none ∧
      job.signatory.unlockScript opName ps (some u.estimatedSize) sigs (i.lockScript.getD []) u.outputs = some script ∧
      v = { u with inputs := u.inputs.set idx (some (RichUnsigned.signedInputOf i script)) } := by
  unfold signRichJob at h
  obtain ⟨ps, hps, h⟩ := Res.bind_eq_ok.mp h
  obtain ⟨sigs, hs, h⟩ := Res.bind_eq_ok.mp h
  have hps' : u.txPreimages[idx]? = some ps := by
    revert hps
    cases u.txPreimages[idx]? with
    | none => intro hp; cases hp
    | some x => intro hp; cases hp; rfl
  revert h
  unfold RichUnsigned.signInputSignatory RichUnsigned.signWith
  cases hin : u.inputs[idx]? with
  | none => intro h; cases h
  | some o =>
    cases o with
    | some t => intro h; cases h
    | none =>
      simp only
      cases hb : u.builder.inputs[idx]? with
      | none => intro h; cases h
      | some i =>
        rw [hps']
        simp only
        cases hc : job.signatory.unlockScript opName ps (some u.estimatedSize) sigs (i.lockScript.getD []) u.outputs with
        | none => intro h; cases h
        | some script =>
          intro h
          cases h
          exact ⟨i, ps, sigs, script, rfl, by first | rfl | exact hps', hs, by first | rfl | trivial, hc, rfl⟩

theorem signs_ok {opName : Opcode → String} {jobs : List (RichJob Dyn)} {u v : RichUnsigned Dyn} {idx : Nat}
    (h : signRichJobs opName u idx jobs = .ok v) :
    v.builder = u.builder ∧ v.outputs = u.outputs ∧ v.inputs.length = u.inputs.length ∧
    (∀ k < idx, v.inputs[k]? = u.inputs[k]?) ∧
    ∀ k job, jobs[k]? = some job → ∃ i ps sigs script, u.builder.inputs[idx + k]? = some i ∧
      u.txPreimages[idx + k]? = some ps ∧ job.sign ps = .ok sigs ∧
      job.signatory.unlockScript opName ps (some u.estimatedSize) sigs (i.lockScript.getD []) u.outputs = some script ∧
      v.inputs[idx + k]? = some (some (RichUnsigned.signedInputOf i script)) := by
  induction jobs generalizing u idx with
  | nil =>
    cases h
    exact ⟨rfl, rfl, rfl, fun _ _ => rfl, fun k job hk => by simp at hk⟩
  | cons job rest ih =>
    rw [signRichJobs] at h
    obtain ⟨w, hw, h⟩ := Res.bind_eq_ok.mp h
    obtain ⟨i, ps, sigs, script, h1, h2, h3, h4, h5, rfl⟩ := sign_ok hw
    obtain ⟨g1, g2, g3, g4, g5⟩ := ih h
    refine ⟨g1, g2, by simpa using g3, ?_, ?_⟩
    · intro k hk
      rw [g4 k (by omega)]
      simp only
      rw [List.getElem?_set_ne (by omega)]
    · intro k j hj
      cases k with
      | zero =>
        simp only [List.getElem?_cons_zero, Option.some.injEq] at hj
        subst hj
        refine ⟨i, ps, sigs, script, h1, h2, h3, h5, ?_⟩
        rw [Nat.add_zero, g4 idx (by omega)]
        have hl : idx < u.inputs.length := by
          rcases List.getElem?_eq_some_iff.mp h4 with ⟨hl, _⟩; exact hl
        simp [hl]
      | succ k =>
        simp only [List.getElem?_cons_succ] at hj
        obtain ⟨i', ps', sigs', script', e1, e2, e3, e4, e5⟩ := g5 k j hj
        have : idx + (k + 1) = idx + 1 + k := by omega
        rw [this]
        exact ⟨i', ps', sigs', script', e1, e2, e3, e4, e5⟩

theorem flags_eq (s : RichSignatory Dyn) : s.sigHashFlagsVec = richFlags s := rfl

theorem unlock_ok {opName : Opcode → String} {s : RichSignatory Dyn} {ps : List RichPreimage} {n : Option Nat}
    {sigs : s.Sigs} {lock : TaggedScript} {outs : List RichOutput} {script : TaggedScript}
    (h : s.unlockScript opName ps n sigs lock outs = some script) :
    ∃ ops redeem, builtRich s ps n sigs lock outs = some ops ∧ script = ops ++ redeem ∧
      (if s.isP2sh then ∃ bytes, serializeOpsBA opName (lock.map (·.op)) = .ok bytes ∧
        redeem = [⟨.pushByteArray bytes true, "<unknown>", 0, 0, [], none, none⟩] else redeem = []) := by
  unfold RichSignatory.unlockScript at h
  obtain ⟨ops, ho, h⟩ := Option.bind_eq_some_iff.mp h
  have hb : builtRich s ps n sigs lock outs = some ops := ho
  by_cases hp : s.isP2sh = true
  · rw [if_pos hp] at h
    obtain ⟨bytes, hb', h⟩ := Option.bind_eq_some_iff.mp h
    cases h
    refine ⟨ops, [TaggedOp.fromOp (.pushByteArray bytes true)], hb, rfl, ?_⟩
    rw [if_pos hp]
    refine ⟨bytes, ?_, rfl⟩
    unfold TaggedScript.serOps TaggedScript.ops at hb'
    revert hb'
    cases serializeOpsBA opName (lock.map (·.op)) with
    | ok b => intro hb'; cases hb'; rfl
    | err e => intro hb'; cases hb'
    | panic => intro hb'; cases hb'
  · rw [if_neg hp] at h
    simp only [Option.some.injEq] at h
    refine ⟨ops, [], hb, by simp [h], ?_⟩
    rw [if_neg hp]

theorem mapM_get {α β : Type} {f : α → Option β} {xs : List α} {ys : List β} (h : xs.mapM f = some ys) {k : Nat}
    {y : β} (hy : ys[k]? = some y) : ∃ x, xs[k]? = some x ∧ f x = some y := by
  induction xs generalizing ys k with
  | nil => simp at h; subst h; simp at hy
  | cons x xs ih =>
    rw [List.mapM_cons] at h
    simp only [bind, Option.bind_eq_some_iff, pure, Option.some.injEq] at h
    obtain ⟨y0, h1, ys0, h2, rfl⟩ := h
    cases k with
    | zero =>
      simp only [List.getElem?_cons_zero, Option.some.injEq] at hy
      subst hy
      exact ⟨x, rfl, h1⟩
    | succ k => exact ih h2 hy

theorem mapM_length {α β : Type} {f : α → Option β} {xs : List α} {ys : List β} (h : xs.mapM f = some ys) :
    xs.length = ys.length := by
  induction xs generalizing ys with
  | nil => simp at h; subst h; rfl
  | cons x xs ih =>
    rw [List.mapM_cons] at h
    simp only [bind, Option.bind_eq_some_iff, pure, Option.some.injEq] at h
    obtain ⟨y0, h1, ys0, h2, rfl⟩ := h
    simp [ih h2]

theorem code_suffix (s : TaggedScript) : s.toScriptCodeFirst <:+ s := by
  unfold TaggedScript.toScriptCodeFirst
  split
  · exact List.drop_suffix _ _
  · exact List.suffix_refl _

theorem preimage_code {P : HashPrims} {opName : Opcode → String} {b : RichBuilder Dyn} {outs : List RichOutput}
    {pss : List (List RichPreimage)} (h : b.preimages P opName outs = some pss) {idx : Nat} {ps : List RichPreimage}
    (hps : pss[idx]? = some ps) {i : RichBuilderInput Dyn} (hi : b.inputs[idx]? = some i) :
    ∀ p ∈ ps, p.scriptCode = TaggedScript.toScriptCodeFirst (i.lockScript.getD []) := by
  unfold RichBuilder.preimages at h
  dsimp only at h
  obtain ⟨hp, _, h⟩ := Option.bind_eq_some_iff.mp h
  obtain ⟨hs, _, h⟩ := Option.bind_eq_some_iff.mp h
  obtain ⟨ho, _, h⟩ := Option.bind_eq_some_iff.mp h
  obtain ⟨⟨i', n⟩, hx, hm⟩ := mapM_get h hps
  rw [List.getElem?_zipIdx] at hx
  rw [hi] at hx
  cases hx
  intro p hpm
  obtain ⟨k, hk⟩ := List.getElem?_of_mem hpm
  obtain ⟨f, _, hf⟩ := mapM_get hm hk
  obtain ⟨q, _, hq⟩ := Option.map_eq_some_iff.mp hf
  subst hq
  rfl

end DebugProofs

/-- **C101** (what a transaction carries): in a transaction that was spent with any jobs, the input of each of them
carries what was recorded: the operations as the signatory returned them, with their source texts, locations, names and
the provenance of their data, the push of the script with the provenance of its bytes, and the script of the spent
output exactly as it was given. The outputs have the scripts that were given, with everything recorded in them. -/
theorem C101_carried (opName : Opcode → String) (sz : Layout) (P : HashPrims) (version : Int32) (lockTime : UInt32)
    (fee : UInt64) (jobs : List (RichJob Dyn)) (outs : List RichBuilderOutput) (tx : RichTx)
    (h : richSpend opName sz P version lockTime fee jobs outs = .ok tx) :
    ∃ u, (richSpendBuilder opName version lockTime fee jobs outs).build opName sz P = .ok u ∧
      tx.version = version ∧ tx.lockTime = lockTime ∧ tx.inputs.length = jobs.length ∧
      (∀ idx job, jobs[idx]? = some job → Carried opName u tx idx job) ∧
      (richFixed outs).Sublist tx.outputs ∧ (tx.outputs.map (·.script)).Sublist (outs.map richScript) := by
  unfold richSpend at h
  obtain ⟨u, hu, h⟩ := Res.bind_eq_ok.mp h
  obtain ⟨v, hv, h⟩ := Res.bind_eq_ok.mp h
  obtain ⟨a1, a2, a3, a4⟩ := DebugProofs.addJobs_ok opName jobs (RichBuilder.newWithFee version lockTime fee : RichBuilder Dyn)
  obtain ⟨b1, b2, b3, b4⟩ := DebugProofs.addOuts_ok outs
    (addRichJobs opName (RichBuilder.newWithFee version lockTime fee : RichBuilder Dyn) jobs)
  have hins : (richSpendBuilder opName version lockTime fee jobs outs).inputs = jobs.map (DebugProofs.inputOf opName) := by
    unfold richSpendBuilder
    rw [b1, a1]
    rfl
  have houts : (richSpendBuilder opName version lockTime fee jobs outs).outputs = outs := by
    unfold richSpendBuilder
    rw [b4, a4]
    rfl
  obtain ⟨c1, c2, c3, amounts, c4⟩ := DebugProofs.build_ok hu
  obtain ⟨d1, d2, d3, d4, d5⟩ := DebugProofs.signs_ok hv
  have hc : ∃ ins, v.inputs.mapM id = some ins ∧ tx = ⟨v.builder.version, ins, v.outputs, v.builder.lockTime⟩ := by
    revert h
    unfold RichUnsigned.completeTx
    cases v.inputs.mapM id with
    | none => intro h; cases h
    | some ins => intro h; cases h; exact ⟨ins, rfl, rfl⟩
  obtain ⟨ins, hm, rfl⟩ := hc
  have hlen : ins.length = v.inputs.length := by
    exact (DebugProofs.mapM_length hm).symm
  have hlen2 : ins.length = jobs.length := by
    rw [hlen, d3, c2, RichBuilder.prefilled, List.length_map, hins, List.length_map]
  refine ⟨u, hu, ?_, ?_, hlen2, ?_, ?_, ?_⟩
  · simp only [d1, c1]
    unfold richSpendBuilder
    rw [b2, a2]; rfl
  · simp only [d1, c1]
    unfold richSpendBuilder
    rw [b3, a3]; rfl
  · intro idx job hj
    obtain ⟨i, ps, sigs, script, e1, e2, e3, e4, e5⟩ := d5 idx job hj
    rw [Nat.zero_add] at e1 e2 e5
    rw [c1, hins, List.getElem?_map, hj] at e1
    simp only [Option.map_some, Option.some.injEq] at e1
    subst e1
    obtain ⟨ops, redeem, f1, f2, f3⟩ := DebugProofs.unlock_ok e4
    have hcode := DebugProofs.preimage_code c3 e2 (i := DebugProofs.inputOf opName job) (by
      rw [hins, List.getElem?_map, hj]; rfl)
    refine ⟨ps, sigs, ops, redeem, e2, ?_, e3, ?_, f3, ?_⟩
    · intro p hp
      rw [hcode p hp]
      refine ⟨DebugProofs.code_suffix _, ?_⟩
      rw [RichProofs.codeFirst_contents]
      exact isScriptCode_first _
    · rw [d2]; exact f1
    · obtain ⟨x, hx, hx'⟩ : ∃ x, ins[idx]? = some x ∧ v.inputs[idx]? = some (some x) := by
        have hl : idx < ins.length := by
          rw [hlen2]
          exact (List.getElem?_eq_some_iff.mp hj).1
        refine ⟨ins[idx], by simp [hl], ?_⟩
        obtain ⟨o, ho, ho'⟩ := DebugProofs.mapM_get hm (k := idx) (y := ins[idx]) (by simp [hl])
        rw [ho]
        exact congrArg some ho'
      rw [e5] at hx'
      simp only [Option.some.injEq] at hx'
      subst hx'
      simp only
      rw [hx, f2]
      rfl
  · simp only [d2, c4]
    unfold RichBuilder.makeOutputs
    rw [houts]
    exact (DebugProofs.makeOutputs_sub amounts outs 0).1
  · simp only [d2, c4]
    unfold RichBuilder.makeOutputs
    rw [houts]
    exact (DebugProofs.makeOutputs_sub amounts outs 0).2

/-- **C101** (export): a spent transaction can be exported, and whoever imports the text gets the transaction with
everything it carries. (The integers pushed are script numbers; there are fewer than `2^64` arrays and strings.) -/
theorem C101_export (opName : Opcode → String) (sz : Layout) (P : HashPrims) (version : Int32) (lockTime : UInt32)
    (fee : UInt64) (jobs : List (RichJob Dyn)) (outs : List RichBuilderOutput) (tx : RichTx)
    (h : richSpend opName sz P version lockTime fee jobs outs = .ok tx)
    (hint : ∀ t ∈ tx.allOps, ∀ i, t.op = .pushInteger i → InScriptRange i)
    (ha : (txArrays tx).length ≤ 2 ^ 64) (hs : (txStrings tx).length ≤ 2 ^ 64) :
    ∃ text, txToText Base64.encode tx = some text ∧
      (∃ r, TextImportsTo Base64.decode text r) ∧
      ∀ r, TextImportsTo Base64.decode text r → ∃ tx' u, r = .ok tx' ∧
        (richSpendBuilder opName version lockTime fee jobs outs).build opName sz P = .ok u ∧
        tx'.version = version ∧ tx'.lockTime = lockTime ∧ tx'.inputs.length = jobs.length ∧
        (∀ idx job, jobs[idx]? = some job → Carried opName u tx' idx job) ∧
        (richFixed outs).Sublist tx'.outputs ∧ (tx'.outputs.map (·.script)).Sublist (outs.map richScript) := by
  obtain ⟨text, h1, h2⟩ := C94_roundtrip_base64 tx hint ha hs
  refine ⟨text, h1, ⟨_, h2⟩, fun r hr => ?_⟩
  obtain ⟨n, hn⟩ := h2
  obtain ⟨m, hm⟩ := hr
  have e := hn (max n m) (Nat.le_max_left _ _)
  rw [hm (max n m) (Nat.le_max_right _ _)] at e
  cases e
  obtain ⟨u, hu⟩ := C101_carried opName sz P version lockTime fee jobs outs tx h
  exact ⟨tx, u, rfl, hu⟩

/-- Spec: an operation of a script made by the macro, as it is in the program: its contents, the recorded texts and the
names (file, line, column and the provenance of the data can be any). -/
def Spec.MadeBy (t : Macro.Tagged) (op : TaggedOp) : Prop :=
  op.op.map ByteArray.data = t.op ∧ op.srcCode.map (fun p => (p.1.toNat, p.2)) = t.srcCode ∧
    op.pushedNames = t.pushed ∧ op.altPushedNames = t.altPushed

/-- **C101** (from the source of a contract to the export): if one of the scripts spent is made by the macro in debug
mode, then in the transaction whoever imports the exported text gets, the operations of the script of this input
correspond one to one and in order to the statements of the contract other than `transmute`: each is what its statement
stands for and carries the text of this statement as formatted at each of the four widths. -/
theorem C101_contract (opName : Opcode → String) (sz : Layout) (P : HashPrims) (version : Int32) (lockTime : UInt32)
    (fee : UInt64) (jobs : List (RichJob Dyn)) (outs : List RichBuilderOutput) (tx : RichTx)
    (h : richSpend opName sz P version lockTime fee jobs outs = .ok tx)
    (hint : ∀ t ∈ tx.allOps, ∀ i, t.op = .pushInteger i → InScriptRange i)
    (ha : (txArrays tx).length ≤ 2 ^ 64) (hs : (txStrings tx).length ≤ 2 ^ 64)
    -- the contract
    (fmt : Macro.Rustfmt) (lines : Nat → String → List String) (s : Macro.TSyn) (t : Macro.TProg)
    (hp : Macro.parseStmtsT s = .ok t) (hf : Text.FormatsEach fmt lines ((Text.spoken t).map Prod.fst))
    (order : List (String × Macro.VState) → List (String × Macro.VState)) (d : Macro.Decl) (ops : List Macro.Tagged)
    (g : Macro.Gen) (hg : Macro.generateT fmt order true d t = .ok (ops, g))
    (idx : Nat) (job : RichJob Dyn) (hj : jobs[idx]? = some job) (hl : List.Forall₂ MadeBy ops job.lock) :
    ∃ text, txToText Base64.encode tx = some text ∧
      (∃ r, TextImportsTo Base64.decode text r) ∧
      ∀ r, TextImportsTo Base64.decode text r → ∃ tx' i lock, r = .ok tx' ∧ tx'.inputs[idx]? = some i ∧
        i.lockScript = some lock ∧
        List.Forall₂ (fun x (op : TaggedOp) => Text.Becomes x.2 (op.op.map ByteArray.data) ∧
          op.srcCode.map (fun p => (p.1.toNat, p.2)) = Text.recorded lines x.1) (Text.spoken t) lock := by
  obtain ⟨text, h1, h2, h3⟩ := C101_export opName sz P version lockTime fee jobs outs tx h hint ha hs
  refine ⟨text, h1, h2, fun r hr => ?_⟩
  obtain ⟨tx', u, rfl, -, -, -, -, hc, -⟩ := h3 r hr
  obtain ⟨ps, sigs, ops', redeem, -, -, -, -, -, hi⟩ := hc idx job hj
  refine ⟨tx', _, job.lock, rfl, hi, rfl, ?_⟩
  have hb := (C90_texts fmt lines s t hp hf order d ops g hg).1
  generalize job.lock = lock at hl
  generalize Text.spoken t = xs at hb
  clear hf hg
  induction hb generalizing lock with
  | nil => cases hl; exact .nil
  | cons h _ ih =>
    cases hl with
    | cons h' hl =>
      obtain ⟨e1, e2, -, -⟩ := h'
      refine .cons ⟨?_, ?_⟩ (ih _ hl)
      · rw [e1]; exact h.1
      · rw [e2]; exact h.2

/-! ## Example -/

namespace DebugExample
open Spec.Text Macro

/-- Toy hash functions. -/
def prims : HashPrims := ⟨fun _ => ⟨List.replicate 20 1, rfl⟩, fun _ => ⟨List.replicate 20 2, rfl⟩,
  fun _ => ⟨List.replicate 32 3, rfl⟩⟩

def opName (o : Opcode) : String := if o = .OP_IF then "OP_IF" else "op"

/-- An operation of a macro-made script as it is in a program. -/
def place (t : Tagged) : TaggedOp :=
  ⟨t.op.map fun d => ⟨d, some "data", .plain, none⟩, "contract.rs", 7, 3, t.srcCode.map fun p => (UInt32.ofNat p.1, p.2),
    t.pushed, t.altPushed⟩

/-- The contract of `Props/Text`. -/
def generated : List Tagged :=
  match generateT TextExample.fmt id true TextExample.decl TextExample.tree with
  | .ok (ops, _) => ops
  | _ => []

/-- A signatory that pushes its signature and a flag, with names. -/
def signatory : RichSignatory Bytes where
  Sigs := Bytes
  downcast d := some d
  kind := .one 0x41 fun _ _ sig _ _ =>
    some [(TaggedOp.fromOp (.pushByteArray ⟨sig, some "sig", .ecdsaSign, none⟩ true)).named "b",
      (TaggedOp.fromOp (.pushBoolean true)).named "a"]
  placeholderSignatures := [0, 0]
  isP2sh := true

def job : RichJob Bytes where
  input := ⟨⟨⟨List.replicate 32 9, some "txid", .hash256, none⟩, rfl⟩, 1, 0xffffffff, 10000⟩
  lock := generated.map place
  signatory := signatory
  sign _ := .ok [1, 2]

def outs : List RichBuilderOutput :=
  [.knownValue ⟨4000, [(TaggedOp.fromOp (.code .OP_1)).named "anyone"]⟩, .leftover 546 100000 0 [TaggedOp.fromOp (.code .OP_2)]]

def spent : Res Error RichTx := richSpend opName ⟨1, 1⟩ prims 1 0 1000 [job] outs

def facts : Res Error RichTx → Bool
  | .ok tx => tx.allOps.all (fun t => match t.op with
      | .pushInteger i => decide (InScriptRange i)
      | _ => true) && decide ((txArrays tx).length ≤ 2 ^ 64) && decide ((txStrings tx).length ≤ 2 ^ 64)
  | _ => false

set_option maxRecDepth 100000 in
theorem facts_spent : facts spent = true := by decide +kernel

set_option maxRecDepth 100000 in
/-- What the input of the spent transaction carries. -/
example : (match spent with
    | .ok tx => tx.inputs.map fun i => (i.script.map (·.pushedNames), i.lockScript.map fun l => l.map (·.srcCode.length))
    | _ => []) = [([some [some "b"], some [some "a"], none], some [4, 4, 4, 4, 4, 4, 4, 4])] := by decide +kernel

theorem exists_spent : ∃ tx, spent = .ok tx ∧ (∀ t ∈ tx.allOps, ∀ i, t.op = .pushInteger i → InScriptRange i) ∧
    (txArrays tx).length ≤ 2 ^ 64 ∧ (txStrings tx).length ≤ 2 ^ 64 := by
  have h := facts_spent
  revert h
  cases spent with
  | err e => intro h; cases h
  | panic => intro h; cases h
  | ok tx =>
    intro h
    simp only [facts, Bool.and_eq_true, decide_eq_true_eq, List.all_eq_true] at h
    refine ⟨tx, rfl, fun t ht i hi => ?_, h.1.2, h.2⟩
    have := h.1.1 t ht
    rw [hi] at this
    simpa using this

theorem generated_ok : ∃ g, generateT TextExample.fmt id true TextExample.decl TextExample.tree = .ok (generated, g) :=
  ⟨_, rfl⟩

theorem made (ops : List Tagged) (h : ∀ t ∈ ops, ∀ p ∈ t.srcCode, p.1 < 2 ^ 32) :
    List.Forall₂ MadeBy ops (ops.map place) := by
  induction ops with
  | nil => exact .nil
  | cons t ops ih =>
    refine .cons ⟨?_, ?_, rfl, rfl⟩ (ih fun u hu => h u (by simp [hu]))
    · unfold place
      cases t.op <;> rfl
    · unfold place
      simp only [List.map_map]
      have := h t (by simp)
      conv => rhs; rw [← List.map_id t.srcCode]
      refine List.map_congr_left fun p hp => ?_
      simp only [Function.comp, id]
      rw [UInt32.toNat_ofNat_of_lt' (this p hp)]

/-- `C101_carried`, `C101_export` and `C101_contract`: the contract of `Props/Text` is spent; whoever imports the exported
transaction sees at each operation of the contract the statement it comes from. -/
example : ∃ tx text, spent = .ok tx ∧ txToText Base64.encode tx = some text ∧
    ∀ r, TextImportsTo Base64.decode text r → ∃ tx' i lock, r = .ok tx' ∧ tx'.inputs[0]? = some i ∧
      i.lockScript = some lock ∧
      List.Forall₂ (fun x (op : TaggedOp) => Becomes x.2 (op.op.map ByteArray.data) ∧
        op.srcCode.map (fun p => (p.1.toNat, p.2)) = recorded TextExample.lines x.1) (spoken TextExample.tree) lock := by
  obtain ⟨tx, h, h1, h2, h3⟩ := exists_spent
  obtain ⟨g, hg⟩ := generated_ok
  obtain ⟨text, e1, _, e2⟩ := C101_contract opName ⟨1, 1⟩ prims 1 0 1000 [job] outs tx h h1 h2 h3 TextExample.fmt
    TextExample.lines _ _ (C90_blocks _ TextExample.nested).1 TextExample.formats id TextExample.decl generated g hg 0 job rfl
    (made _ (by decide +kernel))
  exact ⟨tx, text, h, e1, e2⟩

/-- The job without debugging information. -/
def plainJob : Job Bytes :=
  ⟨job.input.contents, TaggedScript.contents job.lock,
   plainSignatory signatory (.one 0x41 fun _ _ sig _ _ => some [.pushByteArray sig true, .pushBoolean true]),
   fun _ => .ok [1, 2], 0⟩

/-- `C101_contents`: without debugging information, the same transaction is spent. -/
example : Agree (fun tx' tx => tx'.contents = tx) spent
    (spend ⟨1, 1⟩ (sha256d prims) 1 0 1000 [plainJob] (outs.map RichBuilderOutput.contents)) :=
  C101_contents opName ⟨1, 1⟩ prims 1 0 1000 [job] [plainJob]
    (.cons (.mk job _ _ 0 ⟨rfl, fun _ _ _ _ _ => rfl⟩ (fun _ => rfl)) .nil) outs

end DebugExample

namespace DebugProofs

theorem mapM_mem {α β : Type} {f : α → Option β} {l : List α} {r : List β} (h : l.mapM f = some r) {b : β}
    (hb : b ∈ r) : ∃ a ∈ l, f a = some b := by
  induction l generalizing r with
  | nil => cases h; cases hb
  | cons a l ih =>
    rw [List.mapM_cons] at h
    obtain ⟨c, h1, h⟩ := Option.bind_eq_some_iff.mp h
    obtain ⟨r', h2, h⟩ := Option.bind_eq_some_iff.mp h
    cases h
    rcases List.mem_cons.mp hb with rfl | hb
    · exact ⟨a, List.mem_cons_self, h1⟩
    · obtain ⟨a', h3, h4⟩ := ih h2 hb
      exact ⟨a', List.mem_cons_of_mem _ h3, h4⟩

end DebugProofs
open DebugProofs (mapM_mem)

/-- **C101**: a script made of plain operations has exactly these, in order, and no debugging information; naming an
operation gives its item a name and leaves the operation and everything else recorded as it is. Nothing of this
changes the bytes. -/
theorem C101_made (opName : Opcode → String) (ops : ScriptP) (t : TaggedOp) (name : String) :
    TaggedScript.ops (TaggedScript.fromOps ops) = ops ∧
    (∀ t ∈ TaggedScript.fromOps ops, t.srcCode = [] ∧ t.pushedNames = none ∧ t.altPushedNames = none) ∧
    (t.named name).pushedNames = some [some name] ∧ { t.named name with pushedNames := t.pushedNames } = t ∧
    TaggedScript.serOps opName [t.named name] = TaggedScript.serOps opName [t] ∧
    TaggedScript.serOps opName (TaggedScript.fromOps ops) =
      (match serializeOpsBA opName ops with
        | .ok b => some b
        | _ => none) := by
  have h : TaggedScript.ops (TaggedScript.fromOps ops) = ops := by
    unfold TaggedScript.ops TaggedScript.fromOps
    rw [List.map_map]
    conv => rhs; rw [← List.map_id ops]
    rfl
  refine ⟨h, ?_, rfl, rfl, rfl, ?_⟩
  · intro t ht
    obtain ⟨op, _, rfl⟩ := List.mem_map.mp ht
    exact ⟨rfl, rfl, rfl⟩
  · unfold TaggedScript.serOps
    rw [h]
    cases serializeOpsBA opName ops <;> rfl

/-- **C101**: while the size is estimated, signatories see a preimage of the end of the script, with every number 0 and
every hash 0, its parts named as in a real preimage: for a real one of the same script, both have the same code, and
the same names for the hashes (for SINGLE the code leaves the hash of the output without a name). -/
theorem C101_placeholder (P : HashPrims) (opName : Opcode → String) (lock : TaggedScript) (tx : PreimageTxP)
    (preimages : List (List TxPreimageP)) (h : buildPreimagesP P opName tx = some preimages) :
    let e := RichPreimage.emptyWithScript lock
    (∃ before, lock = before ++ e.scriptCode) ∧
    e.hashPrevouts.1.data = List.replicate 32 0 ∧ e.hashSequence.1.data = List.replicate 32 0 ∧
    e.hashOutputs.1.data = List.replicate 32 0 ∧ e.outpoint.txHash.1.data = List.replicate 32 0 ∧
    e.version = 0 ∧ e.outpoint.vout = 0 ∧ e.value = 0 ∧ e.sequence = 0 ∧ e.lockTime = 0 ∧
    ∀ ps ∈ preimages, ∀ p ∈ ps,
      e.hashPrevouts.1.name = p.hashPrevouts.1.name ∧ e.hashSequence.1.name = p.hashSequence.1.name ∧
      ((p.sigHashType : SigHashFlags) &&& SigHashFlags.MASK ≠ SigHashFlags.SINGLE → e.hashOutputs.1.name = p.hashOutputs.1.name) := by
  intro e
  refine ⟨?_, rfl, rfl, rfl, rfl, rfl, rfl, rfl, rfl, rfl, ?_⟩
  · show ∃ before, lock = before ++ lock.toScriptCodeFirst
    unfold TaggedScript.toScriptCodeFirst
    split
    · exact ⟨_, (List.take_append_drop _ _).symm⟩
    · exact ⟨[], rfl⟩
  · have named : ∀ (items : Option ByteArray) (arg name : String) (hh : FixedP 32),
        hashNamed P items arg name = some hh → hh.1.name = some name := by
      intro items arg name hh h
      unfold hashNamed at h
      obtain ⟨b, _, h⟩ := Option.bind_eq_some_iff.mp h
      split at h
      · next x _ =>
        cases h
        obtain ⟨⟨d, m, f, p⟩, hx⟩ := x
        rfl
      · cases h
    unfold buildPreimagesP at h
    obtain ⟨hp, h1, h⟩ := Option.bind_eq_some_iff.mp h
    obtain ⟨hs, h2, h⟩ := Option.bind_eq_some_iff.mp h
    obtain ⟨ho, h3, h⟩ := Option.bind_eq_some_iff.mp h
    intro ps hps p hmem
    obtain ⟨⟨input, idx⟩, _, h4⟩ := mapM_mem h hps
    obtain ⟨flags, _, h5⟩ := mapM_mem h4 hmem
    unfold buildPreimageP at h5
    obtain ⟨ho', h6, h5⟩ := Option.bind_eq_some_iff.mp h5
    obtain ⟨l, _, h5⟩ := Option.bind_eq_some_iff.mp h5
    obtain ⟨v, _, h5⟩ := Option.bind_eq_some_iff.mp h5
    cases h5
    refine ⟨?_, ?_, ?_⟩
    · show some "hashPrevouts" = _
      dsimp only
      split
      · exact (named _ _ _ _ h1).symm
      · rfl
    · show some "hashSequence" = _
      dsimp only
      split
      · exact (named _ _ _ _ h2).symm
      · rfl
    · intro hne
      show some "hashOutputs" = ho'.1.name
      split at h6
      · cases h6
        exact (named _ _ _ _ h3).symm
      · split at h6
        · next h7 =>
          exfalso
          simp only [Bool.and_eq_true, beq_iff_eq] at h7
          exact hne h7.1
        · cases h6
          rfl

/-- `C101_placeholder` applies: preimages are made of a transaction with two inputs. -/
example : ∃ preimages, buildPreimagesP DebugExample.prims DebugExample.opName
    ⟨1, [⟨⟨zero32P, 0⟩, 5, [.ALL, .NONE], some [], some 7⟩, ⟨⟨zero32P, 1⟩, 6, [.ALL], some [], some 8⟩], [⟨9, []⟩], 0⟩ =
      some preimages ∧ preimages.map List.length = [2, 1] := by
  refine ⟨_, rfl, rfl⟩

end BCash
