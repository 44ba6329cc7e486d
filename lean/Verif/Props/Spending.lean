import Verif.Props.Payment
import Verif.Props.Items

/-! # C100 — spending coins of any kind goes through -/

namespace BCash
open Spec TxBuilder
variable {Dyn : Type}

/-! ## What a client does -/

/-- Spec: something to spend: the output it is in, its locking script (for a script hash, the redeem script), the
signatory, how the client makes the signatures from the preimages handed out, and how many bytes the operations
of the signatory's placeholder script have. -/
structure Spec.Job (Dyn : Type) where
  input : UnsignedTxInput
  lock : Script
  signatory : Signatory Dyn
  sign : List TxPreimage → Res Error signatory.Sigs
  size : Nat

/-- Spec: what `build_script` of a signatory returns. -/
def Spec.builtScript (s : Signatory Dyn) (preimages : List TxPreimage) (estimatedSize : Option Nat)
    (sigs : s.Sigs) (lock : Script) (outputs : List TxOutput) : Option Script :=
  match s.kind with
  | .one _ build => preimages.head?.bind fun p => build p estimatedSize sigs lock outputs
  | .multiple _ build => build preimages estimatedSize sigs lock outputs

/-- Spec: preimages as they may be handed out for signing a job: one for each flag set, with the code after the
first separator (all of it if there is none). -/
def Spec.Job.Handed (job : Job Dyn) (ps : List TxPreimage) : Prop :=
  ps.length = job.signatory.sigHashFlagsVec.length ∧ ∀ p ∈ ps, IsScriptCode job.lock p.scriptCode

/-- Spec: the script can be pushed, and `build_script` returns a script of `size` bytes for the placeholder
signatures. -/
structure Spec.Job.Estimates (job : Job Dyn) : Prop where
  lock : ∃ bytes, job.lock.serOps = some bytes ∧ bytes.length < 2 ^ 32
  placeholder : ∀ outs, ∃ ops bytes, builtScript job.signatory (List.replicate job.signatory.sigHashFlagsVec.length
      (TxPreimage.emptyWithScript job.lock)) none job.signatory.placeholderSignatures job.lock outs = some ops ∧
    ops.serOps = some bytes ∧ bytes.length = job.size

/-- Spec: what a client has to take care of: besides, signatures can be made for whatever preimages are handed out,
and `build_script` returns a script of at most `size` bytes for these. -/
structure Spec.Job.Works (job : Job Dyn) : Prop extends job.Estimates where
  signed : ∀ ps, job.Handed ps → ∃ sigs, job.sign ps = .ok sigs ∧ ∀ n outs, ∃ ops bytes,
    builtScript job.signatory ps (some n) sigs job.lock outs = some ops ∧
      ops.serOps = some bytes ∧ bytes.length ≤ job.size

/-- Spec: the push of the redeem script after the operations of the signatory. -/
def Spec.Job.redeem (job : Job Dyn) : Script :=
  if job.signatory.isP2sh then [.pushByteArray (scriptBytes job.lock) true] else []

/-- Spec: the size of the unlocking script. -/
def Spec.Job.total (job : Job Dyn) : Nat := job.size + (scriptBytes job.redeem).length

/-- Spec: adding everything to spend in order. -/
def Spec.addJobs : TxBuilder Dyn → List (Job Dyn) → TxBuilder Dyn
  | b, [] => b
  | b, job :: rest => addJobs (b.addInput job.input job.lock job.signatory).1 rest

/-- Spec: signing an input: take its preimages, make the signatures, hand them in. -/
def Spec.signJob (u : UnsignedTx Dyn) (idx : Nat) (job : Job Dyn) : Res Error (UnsignedTx Dyn) :=
  (Res.ofOption u.txPreimages[idx]?).bind fun ps =>
  (job.sign ps).bind fun sigs =>
  match u.signInputSignatory idx job.signatory sigs with
  | none => .panic
  | some (_, .error e) => .err e
  | some (u', .ok ()) => .ok u'

/-- Spec: signing all inputs from number `idx` on. -/
def Spec.signJobs : UnsignedTx Dyn → Nat → List (Job Dyn) → Res Error (UnsignedTx Dyn)
  | u, _, [] => .ok u
  | u, idx, job :: rest => (signJob u idx job).bind fun u => signJobs u (idx + 1) rest

/-- Spec: the builder with everything to spend and the outputs. -/
def Spec.spendBuilder (version : Int32) (lockTime : UInt32) (feePerKb : UInt64) (jobs : List (Job Dyn))
    (outs : List TxBuilderOutput) : TxBuilder Dyn :=
  addOuts (addJobs (newWithFee version lockTime feePerKb) jobs) outs

/-- Spec: spending: add inputs and outputs, build, sign, complete. -/
def Spec.spend (sz : Layout) (H : Bytes → Hash256) (version : Int32) (lockTime : UInt32) (feePerKb : UInt64)
    (jobs : List (Job Dyn)) (outs : List TxBuilderOutput) : Res Error UnhashedTx :=
  ((spendBuilder version lockTime feePerKb jobs outs).build sz H).bind fun u =>
  (signJobs u 0 jobs).bind fun u =>
  Res.ofOption u.completeTx

/-- Spec: a bound for the size of the transaction. -/
def Spec.spendBound (jobs : List (Job Dyn)) (scripts : List Script) : Nat :=
  26 + (jobs.map fun job => 49 + job.total).sum + (scripts.map fun s => 17 + (scriptBytes s).length).sum

/-! ## Proofs -/

namespace SpendingProofs
open PaymentProofs

/-- The builder input of a job. -/
def inputOf (job : Job Dyn) : TxBuilderInput Dyn :=
  ⟨job.input, job.signatory.funcScript, job.signatory.sigHashFlagsVec, some job.lock,
    some job.signatory.isP2sh, none⟩

theorem addJobs_ok (jobs : List (Job Dyn)) (b : TxBuilder Dyn) (hr : b.Reach) :
    (addJobs b jobs).Reach ∧ (addJobs b jobs).inputs = b.inputs ++ jobs.map inputOf ∧
    (addJobs b jobs).version = b.version ∧ (addJobs b jobs).lockTime = b.lockTime ∧
    (addJobs b jobs).feePerKb = b.feePerKb ∧ (addJobs b jobs).outputs = b.outputs := by
  induction jobs generalizing b with
  | nil => exact ⟨hr, by simp [addJobs], rfl, rfl, rfl, rfl⟩
  | cons job rest ih =>
    obtain ⟨h1, h2, h3, h4, h5, h6⟩ := ih (b.addInput job.input job.lock job.signatory).1 (.addInput _ _ _ hr)
    refine ⟨h1, ?_, h3, h4, h5, h6⟩
    rw [addJobs, h2]
    simp only [addInput, List.append_assoc, List.singleton_append, List.map_cons]
    rfl

theorem unlock_eq (s : Signatory Dyn) (ps : List TxPreimage) (n : Option Nat) (sigs : s.Sigs)
    (lock : Script) (outs : List TxOutput) :
    s.unlockScript ps n sigs lock outs =
      (builtScript s ps n sigs lock outs).bind fun ops =>
        if s.isP2sh then lock.serOps.bind fun bytes => some (ops ++ [.pushByteArray bytes true])
        else some ops := by
  rcases s with ⟨_, _, kind, _, _⟩
  cases kind <;> rfl

theorem serOps_ok {s : Script} {bytes : Bytes} : s.serOps = some bytes ↔ serializeOps s = .ok bytes := by
  unfold Script.serOps
  cases serializeOps s <;> simp

theorem redeem_bytes {job : Job Dyn} (h : job.Estimates) : ∃ bytes, job.redeem.serOps = some bytes := by
  obtain ⟨l, h1, h2⟩ := h.lock
  unfold Job.redeem
  split
  · refine ⟨(pushToken l true).encode, ?_⟩
    rw [serOps_ok]
    simp [serializeOps, serializeOp, scriptBytes, h1, serializePushBytes_token l true h2]
  · exact ⟨[], rfl⟩

/-- The unlocking script made from the operations of the signatory. -/
theorem unlock_of {job : Job Dyn} (h : job.Estimates) {ps : List TxPreimage} {n : Option Nat}
    {sigs : job.signatory.Sigs} {outs : List TxOutput} {ops : Script} {bytes : Bytes}
    (h1 : builtScript job.signatory ps n sigs job.lock outs = some ops) (h2 : ops.serOps = some bytes) :
    job.signatory.unlockScript ps n sigs job.lock outs = some (ops ++ job.redeem) ∧
    (ops ++ job.redeem).len = some (bytes.length + (scriptBytes job.redeem).length) := by
  obtain ⟨r, hr⟩ := redeem_bytes h
  obtain ⟨l, hl, _⟩ := h.lock
  constructor
  · rw [unlock_eq, h1, Option.bind_some]
    unfold Job.redeem
    by_cases hp : job.signatory.isP2sh = true
    · rw [if_pos hp, if_pos hp, hl]
      simp [scriptBytes, hl]
    · rw [if_neg hp, if_neg hp]
      simp
  · have := GenProofs.serializeOps_append (serOps_ok.mp h2) (serOps_ok.mp hr)
    unfold Script.len scriptBytes
    rw [serOps_ok.mpr this, hr]
    simp

theorem placeholder_ok {job : Job Dyn} (h : job.Estimates) (outs : List TxOutput) :
    ∃ t, placeholderInput (inputOf job) outs = some t ∧ t.script.len = some job.total := by
  obtain ⟨ops, bytes, h1, h2, h3⟩ := h.placeholder outs
  obtain ⟨h4, h5⟩ := unlock_of h h1 h2
  rw [h3] at h5
  refine ⟨⟨job.input.prevOut, ops ++ job.redeem, job.input.sequence, none, none, none, none⟩, ?_, h5⟩
  unfold placeholderInput inputOf
  simp only [Signatory.funcScript, Option.bind_some, h4, Option.map_some]

theorem sumOpt_some (l : List Nat) :
    sumOpt ((l.map some).map (·.map fun n => 40 + varLen n + n)) =
      some ((l.map fun n => 40 + varLen n + n).sum) := by
  induction l with
  | nil => rfl
  | cons x xs ih =>
    simp only [List.map_cons, Option.map_some, sumOpt, Option.bind_some, ih, List.sum_cons]

theorem sum_le_total (jobs : List (Job Dyn)) :
    ((jobs.map Job.total).map fun n => 40 + varLen n + n).sum ≤ (jobs.map fun job => 49 + job.total).sum := by
  induction jobs with
  | nil => exact Nat.le_refl _
  | cons x xs ih =>
    simp only [List.map_cons, List.sum_cons]
    have := varLen_le x.total
    omega

theorem total_le_bound {jobs : List (Job Dyn)} {job : Job Dyn} (h : job ∈ jobs) (scripts : List Script) :
    job.total ≤ spendBound jobs scripts := by
  have : job.total ≤ (jobs.map fun job => 49 + job.total).sum := by
    induction h with
    | head xs => simp only [List.map_cons, List.sum_cons]; omega
    | tail x _ ih => simp only [List.map_cons, List.sum_cons]; omega
  unfold spendBound
  omega

theorem lengths_le_bound (jobs : List (Job Dyn)) (scripts : List Script) :
    jobs.length ≤ spendBound jobs scripts ∧ scripts.length ≤ spendBound jobs scripts := by
  have h1 : jobs.length ≤ (jobs.map fun job => 49 + job.total).sum := by
    induction jobs with
    | nil => exact Nat.le_refl _
    | cons s rest ih => simp only [List.map_cons, List.sum_cons, List.length_cons]; omega
  have h2 : scripts.length ≤ (scripts.map fun s => 17 + (scriptBytes s).length).sum := by
    induction scripts with
    | nil => exact Nat.le_refl _
    | cons s rest ih => simp only [List.map_cons, List.sum_cons, List.length_cons]; omega
  unfold spendBound
  omega

/-- Estimates. -/
theorem jobs_estimable (sz : Layout) (jobs : List (Job Dyn)) (hw : ∀ job ∈ jobs, job.Estimates) (b : TxBuilder Dyn)
    (hb : b.inputs = jobs.map inputOf) (hs : ∀ o ∈ b.outputs, o.script.Serialisable)
    (hfee : spendBound jobs (b.outputs.map (·.script)) * b.feePerKb.toNat < 2 ^ 64) : Estimable sz b := by
  intro outs hsub
  obtain ⟨ins, hins⟩ := mapM_isSome (f := fun i => placeholderInput i outs) (l := b.inputs) fun i hi => by
    rw [hb] at hi
    obtain ⟨job, hj, rfl⟩ := List.mem_map.mp hi
    obtain ⟨t, h, _⟩ := placeholder_ok (hw job hj) outs
    exact ⟨t, h⟩
  obtain ⟨hlen, hall⟩ := mapM_some hins
  have hlens : ins.map (·.script.len) = (jobs.map Job.total).map some := by
    apply List.ext_getElem?
    intro j
    simp only [List.getElem?_map]
    rw [hb, List.length_map] at hlen
    by_cases hj : j < jobs.length
    · rw [List.getElem?_eq_getElem (by omega), List.getElem?_eq_getElem hj]
      obtain ⟨t, h1, h2⟩ := hall j (inputOf jobs[j]) (by rw [hb]; simp [hj])
      rw [List.getElem?_eq_getElem (by omega)] at h1
      cases h1
      obtain ⟨t', h3, h4⟩ := placeholder_ok (hw _ (List.getElem_mem hj)) outs
      rw [h2] at h3
      cases h3
      simp [h4]
    · rw [List.getElem?_eq_none (by omega), List.getElem?_eq_none (by omega)]; rfl
  have hso : ∀ s ∈ outs.map (·.script), s.Serialisable := by
    intro s h
    obtain ⟨o, ho, rfl⟩ := List.mem_map.mp (hsub.subset h)
    exact hs o ho
  obtain ⟨m, hm, hle⟩ := sumOpt_outputs _ hso
  have hsz := ser_tx_length sz ⟨b.version, ins, outs, b.lockTime⟩
  dsimp only at hsz
  rw [hlens, show outs.map (·.script.len) = (outs.map (·.script)).map Script.len by simp,
    txSizeOf, sumOpt_some, Option.bind_some, hm, Option.bind_some] at hsz
  obtain ⟨bytes, hbytes, hn⟩ := Option.map_eq_some_iff.mp hsz
  refine ⟨_, bytes.length, by unfold placeholderTx; rw [hins]; rfl, ⟨bytes, hbytes, rfl⟩, ?_⟩
  refine Nat.lt_of_le_of_lt (Nat.mul_le_mul_right _ ?_) hfee
  rw [hn]
  simp only [List.length_map]
  have h1 := varLen_le jobs.length
  have h2 := varLen_le outs.length
  have h3 := sublist_sum_le (f := fun s : Script => 17 + (scriptBytes s).length) hsub
  have h4 := sum_le_total jobs
  unfold spendBound
  omega

theorem jobs_sizeFixed (jobs : List (Job Dyn)) (hw : ∀ job ∈ jobs, job.Estimates) (b : TxBuilder Dyn)
    (hb : b.inputs = jobs.map inputOf) : PlaceholderSizeFixed b := by
  intro i hi outs outs' _
  rw [hb] at hi
  obtain ⟨job, hj, rfl⟩ := List.mem_map.mp hi
  obtain ⟨t, h1, h2⟩ := placeholder_ok (hw job hj) outs
  obtain ⟨t', h1', h2'⟩ := placeholder_ok (hw job hj) outs'
  rw [h1, h1', Option.bind_some, Option.bind_some, h2, h2']

theorem signJobs_ok (jobs : List (Job Dyn)) (hw : ∀ job ∈ jobs, job.Works) (u : UnsignedTx Dyn) (k : Nat)
    (hi : ∀ j job, jobs[j]? = some job → u.builder.inputs[k + j]? = some (inputOf job))
    (hp : ∀ j job, jobs[j]? = some job → ∃ ps, u.txPreimages[k + j]? = some ps ∧ job.Handed ps)
    (hu : ∀ j, j < jobs.length → u.inputs[k + j]? = some none) :
    ∃ u' cs, signJobs u k jobs = .ok u' ∧ signAll u cs = some u' ∧
      (∀ j, j < jobs.length → ∃ t, u'.inputs[k + j]? = some (some t)) ∧
      ∀ call ∈ cs, ∃ (j : Nat) (job : Job Dyn) (ps : List TxPreimage) (sigs : job.signatory.Sigs),
        jobs[j]? = some job ∧ u.txPreimages[k + j]? = some ps ∧
        job.sign ps = .ok sigs ∧ call = .signatory (k + j) job.signatory sigs := by
  induction jobs generalizing u k with
  | nil => exact ⟨u, [], rfl, rfl, fun j h => absurd h (by simp), fun c hc => by cases hc⟩
  | cons job rest ih =>
    obtain ⟨ps, hps, hh⟩ := hp 0 job rfl
    obtain ⟨sigs, hs1, hs2⟩ := (hw job (by simp)).signed ps hh
    obtain ⟨ops, bytes, hb1, hb2, hb3⟩ := hs2 u.estimatedSize u.outputs
    obtain ⟨hun, _⟩ := unlock_of (hw job (by simp)).toEstimates hb1 hb2
    have hi0 := hi 0 job rfl
    rw [Nat.add_zero] at hps hi0
    have hu0 : u.inputs[k]? = some none := hu 0 (by simp)
    have hnew : (SignCall.signatory k job.signatory sigs).newInput u =
        some (UnsignedTx.signedInputOf (inputOf job) (ops ++ job.redeem)) := by
      unfold SignCall.newInput
      simp only [SignCall.idx, hi0, hps, Option.bind_some, SignCall.script]
      simp only [inputOf, Option.getD_some, hun, Option.map_some]
    obtain ⟨u1, hrun⟩ : ∃ u1, (SignCall.signatory k job.signatory sigs).run u = some (u1, .ok ()) := by
      rw [SignCall.run_unsigned (c := SignCall.signatory k job.signatory sigs) hu0, hnew]
      exact ⟨_, rfl⟩
    obtain ⟨g1, g2, g3, g4, g5, g6, g7, g8⟩ := C39_one_input u _ _ _ hrun
    have hone : signJob u k job = .ok u1 := by
      unfold signJob
      simp only [hps, Res.ofOption, Res.bind_ok, hs1]
      have : u.signInputSignatory k job.signatory sigs = some (u1, .ok ()) := hrun
      rw [this]
    obtain ⟨u', cs, f1, f2, f3, f4⟩ := ih (fun c hc => hw c (by simp [hc])) u1 (k + 1)
      (by
        intro j c hj
        rw [g5, show k + 1 + j = k + (j + 1) by omega]
        exact hi (j + 1) c (by simpa using hj))
      (by
        intro j c hj
        rw [g6, show k + 1 + j = k + (j + 1) by omega]
        exact hp (j + 1) c (by simpa using hj))
      (by
        intro j hj
        rw [g1 (k + 1 + j) (by simp only [SignCall.idx]; omega), show k + 1 + j = k + (j + 1) by omega]
        exact hu (j + 1) (by simpa using hj))
    refine ⟨u', .signatory k job.signatory sigs :: cs, ?_, ?_, ?_, ?_⟩
    · rw [signJobs, hone, Res.bind_ok, f1]
    · rw [signAll, hrun, Option.bind_some]
      exact f2
    · intro j hj
      cases j with
      | zero =>
        obtain ⟨t, ht⟩ := g2
        exact ⟨t, C39_signed_once u1 u' cs k t ht f2⟩
      | succ j =>
        obtain ⟨t, ht⟩ := f3 j (by simpa using hj)
        exact ⟨t, by rw [← ht]; congr 1; omega⟩
    · intro call hcall
      rcases List.mem_cons.mp hcall with rfl | hcall
      · exact ⟨0, job, ps, sigs, rfl, hps, hs1, rfl⟩
      · obtain ⟨j, c, qs, sg, h1, h2, h3, h4⟩ := f4 call hcall
        rw [g6, show k + 1 + j = k + (j + 1) by omega] at h2
        rw [show k + 1 + j = k + (j + 1) by omega] at h4
        exact ⟨j + 1, c, qs, sg, by simpa using h1, h2, h3, h4⟩

theorem spend_builder (version : Int32) (lockTime : UInt32) (fee : UInt64)
    (jobs : List (Job Dyn)) (outs : List TxBuilderOutput) :
    (spendBuilder version lockTime fee jobs outs).Reach ∧
    (spendBuilder version lockTime fee jobs outs).inputs = jobs.map inputOf ∧
    (spendBuilder version lockTime fee jobs outs).version = version ∧
    (spendBuilder version lockTime fee jobs outs).lockTime = lockTime ∧
    (spendBuilder version lockTime fee jobs outs).feePerKb = fee ∧
    (spendBuilder version lockTime fee jobs outs).outputs = outs ∧
    (spendBuilder version lockTime fee jobs outs).inputTotal = (jobs.map (·.input.value.toNat)).sum ∧
    (spendBuilder version lockTime fee jobs outs).fixedOutputs = fixedOf outs := by
  obtain ⟨a1, a2, a3, a4, a5, a6⟩ := addJobs_ok jobs (newWithFee version lockTime fee)
    (.newWithFee version lockTime fee)
  obtain ⟨b1, b2, b3, b4, b5, b6⟩ := addOuts_ok outs (addJobs (newWithFee version lockTime fee) jobs) a1
  rw [a2] at b2
  rw [a6] at b6
  rw [a3] at b3; rw [a4] at b4; rw [a5] at b5
  have hbd : spendBuilder version lockTime fee jobs outs =
    addOuts (addJobs (newWithFee version lockTime fee) jobs) outs := rfl
  rw [hbd]
  generalize addOuts (addJobs (newWithFee version lockTime fee) jobs) outs = b at *
  clear hbd a1 a2 a3 a4 a5 a6
  simp only [newWithFee, List.nil_append] at b2 b6 b3 b4 b5
  refine ⟨b1, b2, b3, b4, b5, b6, ?_, ?_⟩
  · unfold TxBuilder.inputTotal
    rw [b2, List.map_map]
    rfl
  · unfold TxBuilder.fixedOutputs fixedOf
    rw [b6]
    rfl

theorem spend_built (sz : Layout) (H : Bytes → Hash256) (b : TxBuilder Dyn)
    (jobs : List (Job Dyn)) (outs : List TxBuilderOutput) (hw : ∀ job ∈ jobs, job.Estimates)
    (b2 : b.inputs = jobs.map inputOf) (b6 : b.outputs = outs)
    (hvals : b.inputTotal = (jobs.map (·.input.value.toNat)).sum) (hfixed : b.fixedOutputs = fixedOf outs)
    (hin : (jobs.map (·.input.value.toNat)).sum < 2 ^ 64)
    (hfix : outputSum (fixedOf outs) ≤ (jobs.map (·.input.value.toNat)).sum)
    (hs : ∀ o ∈ outs, o.script.Serialisable)
    (hfee : spendBound jobs (outs.map (·.script)) * max 1 b.feePerKb.toNat < 2 ^ 64) :
    ∃ u, b.build sz H = .ok u ∧ u.builder = b ∧
      (∀ j job, jobs[j]? = some job → u.builder.inputs[0 + j]? = some (inputOf job)) ∧
      (∀ j job, jobs[j]? = some job → ∃ ps, u.txPreimages[0 + j]? = some ps ∧ job.Handed ps) ∧
      (∀ j, j < jobs.length → u.inputs[0 + j]? = some none) ∧
      ∀ o ∈ u.outputs, o.script.Serialisable := by
  have hs' : ∀ o ∈ b.outputs, o.script.Serialisable := by rw [b6]; exact hs
  have hest : Estimable sz b := by
    refine jobs_estimable sz jobs hw b b2 hs' ?_
    rw [b6]
    exact Nat.lt_of_le_of_lt (Nat.mul_le_mul_left _ (Nat.le_max_right _ _)) hfee
  obtain ⟨u, hu⟩ := (C99_build_returns sz H b (by rw [hvals]; exact hin) (by rw [hfixed]; omega) hest hs').1
    (by rw [hfixed, hvals]; exact hfix)
  have hord := C35_order sz H b u hu
  rw [hfixed, b6] at hord
  obtain ⟨v1, v2, v3⟩ := SpendProofs.built (.inl hu)
  have houts : ∀ o ∈ u.outputs, o.script.Serialisable := by
    intro o ho
    obtain ⟨o', h1, h2⟩ := List.mem_map.mp (hord.2.subset (List.mem_map_of_mem ho))
    rw [← h2]
    exact hs o' h1
  obtain ⟨ps, w1, w2, w3⟩ := C23_preimage_spec H (b.toPreimageTx u.outputs) houts (by
    intro i hi
    obtain ⟨j, _, rfl⟩ := List.mem_map.mp hi
    exact ⟨by simp, by simp⟩)
  rw [v3] at w1
  cases w1
  have hinput : ∀ j job, jobs[j]? = some job → u.builder.inputs[0 + j]? = some (inputOf job) := by
    intro j job hj
    rw [v1, b2, Nat.zero_add, List.getElem?_map, hj]
    rfl
  have hpre : ∀ j job, jobs[j]? = some job → ∃ ps, u.txPreimages[0 + j]? = some ps ∧ job.Handed ps := by
    intro j job hj
    have h4 : (b.toPreimageTx u.outputs).inputs[0 + j]? = some ⟨job.input.prevOut,
        job.input.sequence, job.signatory.sigHashFlagsVec, some job.lock, some job.input.value⟩ := by
      have := hinput j job hj
      rw [v1] at this
      simp only [toPreimageTx, List.getElem?_map, this, Option.map_some]
      rfl
    obtain ⟨⟨l, h5, h6⟩, h7⟩ := w3 _ _ h4
    refine ⟨l, h5, h6, ?_⟩
    intro p hp
    obtain ⟨k, hk, rfl⟩ := List.getElem_of_mem hp
    dsimp only at h6
    obtain ⟨p, h8, h9, _⟩ := h7 k (job.signatory.sigHashFlagsVec[k]'(by omega)) job.lock job.input.value
      (List.getElem?_eq_getElem _) rfl rfl
    unfold preimageAt at h8
    rw [h5, Option.bind_some, List.getElem?_eq_getElem hk] at h8
    cases h8
    exact h9
  have hnone : ∀ j, j < jobs.length → u.inputs[0 + j]? = some none := by
    intro j hj
    have := hinput j _ (List.getElem?_eq_getElem hj)
    rw [v1] at this
    rw [v2]
    simp only [prefilled, List.getElem?_map, this, Option.map_some]
    rfl
  exact ⟨u, hu, v1, hinput, hpre, hnone, houts⟩

end SpendingProofs
open SpendingProofs PaymentProofs

/-- Spec: how input `idx` of a spending transaction was made from a job. -/
structure Spec.SpentBy (b : TxBuilder Dyn) (u : UnsignedTx Dyn) (cs : List (SignCall Dyn))
    (tx : UnhashedTx) (idx : Nat) (job : Job Dyn) (ps : List TxPreimage) (sigs : job.signatory.Sigs)
    (ops : Script) : Prop where
  /-- It was added with the script and the signatory. -/
  added : InputAdded b idx job.input job.lock job.signatory
  /-- These are the preimages handed out for it. -/
  preimages : u.txPreimages[idx]? = some ps
  handed : job.Handed ps
  /-- It was signed once, with the signatures made from them. -/
  signatures : job.sign ps = .ok sigs
  calls : ∀ call ∈ cs, call.idx = idx → call = .signatory idx job.signatory sigs
  /-- The script is what the signatory returned, followed by the redeem script for a script hash. -/
  returned : signatoryOps job.signatory ps u.estimatedSize sigs job.lock u.outputs = some ops
  script : ∃ i, tx.inputs[idx]? = some i ∧ i.script = ops ++ job.redeem

/-- **C100** (spending): take any coins, each with its script, its signatory and a way to make signatures such that
the signatory works, worth less than 2^64 together, any fixed outputs they can pay and any leftover outputs, at any
fee rate at which the fee for the largest such transaction fits into 64 bits. Building, signing every input with the
signatures made from the preimages handed out, and completing go through. The transaction has a wire form; it has
the given version and lock time, spends exactly the coins, in order, and pays the fixed outputs and some of the
leftover outputs, in order; it spends no more than the coins are worth, and if it has a leftover output it pays the
fee rate for its actual size; and the script of every input is the one its signatory made from the signatures. -/
theorem C100_spending (sz : Layout) (H : Bytes → Hash256) (version : Int32) (lockTime : UInt32) (fee : UInt64)
    (jobs : List (Job Dyn)) (outs : List TxBuilderOutput) (hw : ∀ job ∈ jobs, job.Works)
    (hin : (jobs.map (·.input.value.toNat)).sum < 2 ^ 64)
    (hfix : outputSum (fixedOf outs) ≤ (jobs.map (·.input.value.toNat)).sum)
    (hs : ∀ o ∈ outs, o.script.Serialisable)
    (hfee : spendBound jobs (outs.map (·.script)) * max 1 fee.toNat < 2 ^ 64) :
    ∃ u cs tx bytes, spend sz H version lockTime fee jobs outs = .ok tx ∧
      (spendBuilder version lockTime fee jobs outs).build sz H = .ok u ∧
      Completed sz H (spendBuilder version lockTime fee jobs outs) u cs tx ∧
      (Codec.unhashedTx sz).ser tx = some bytes ∧ bytes = tx.wire.encode ∧
      tx.version = version ∧ tx.lockTime = lockTime ∧
      tx.inputs.map (·.prevOut) = jobs.map (·.input.prevOut) ∧
      tx.inputs.map (·.sequence) = jobs.map (·.input.sequence) ∧
      (fixedOf outs).Sublist tx.outputs ∧ (tx.outputs.map (·.script)).Sublist (outs.map (·.script)) ∧
      outputSum tx.outputs ≤ (jobs.map (·.input.value.toNat)).sum ∧
      ((fixedOf outs).length < tx.outputs.length →
        outputSum tx.outputs + bytes.length * fee.toNat / 1000 ≤ (jobs.map (·.input.value.toNat)).sum) ∧
      ∀ (idx : Nat) (job : Job Dyn), jobs[idx]? = some job → ∃ ps sigs ops,
        SpentBy (spendBuilder version lockTime fee jobs outs) u cs tx idx job ps sigs ops := by
  obtain ⟨b1, b2, b3, b4, b5, b6, hvals, hfixed⟩ := spend_builder version lockTime fee jobs outs
  unfold spend
  generalize spendBuilder version lockTime fee jobs outs = b at *
  have hmax : spendBound jobs (outs.map (·.script)) < 2 ^ 64 := by
    refine Nat.lt_of_le_of_lt ?_ hfee
    exact Nat.le_mul_of_pos_right _ (by omega)
  obtain ⟨u, hu, v1, hinput, hpre, hnone, houts⟩ := spend_built sz H b jobs outs (fun j h => (hw j h).toEstimates)
    b2 b6 hvals hfixed hin hfix hs (by rw [b5]; exact hfee)
  have hord := C35_order sz H b u hu
  have hcons := C32_conservation sz H b u hu
  have hpaid := C34_fee_paid_partial sz H b u hu
  rw [hfixed, b6] at hord
  rw [hvals] at hcons
  rw [hfixed, b5, hvals] at hpaid
  obtain ⟨u', cs, s1, s2, s3, s4⟩ := signJobs_ok jobs hw u 0 hinput hpre hnone
  have hreach : u.Reach := .build b1 hu
  have hreach' := SpendProofs.reach_signAll hreach s2
  obtain ⟨g1, g2, g3, g4⟩ := signAll_same s2
  have hul : u'.inputs.length = jobs.length := by
    have h1 := hreach'.good.length
    rw [g1, v1, b2, List.length_map] at h1
    omega
  have hall : ∀ o ∈ u'.inputs, o ≠ none := by
    intro o ho
    obtain ⟨j, hj, rfl⟩ := List.getElem_of_mem ho
    obtain ⟨t, ht⟩ := s3 j (by omega)
    rw [Nat.zero_add, List.getElem?_eq_getElem hj] at ht
    rw [Option.some.inj ht]
    simp
  obtain ⟨tx, htx⟩ := (C40_complete u' hreach').1.mpr hall
  have hC : Completed sz H b u cs tx := ⟨b1, .inl hu, ⟨u', s2, htx⟩, houts⟩
  obtain ⟨x1, x2, x3, x4, x5⟩ := SpendProofs.completed_wire hC
  have hlen : tx.inputs.length = jobs.length := by
    have h1 := congrArg List.length x4
    rw [b2] at h1
    simpa using h1
  have hspent : ∀ (idx : Nat) (job : Job Dyn), jobs[idx]? = some job → ∃ ps sigs ops bytes,
      SpentBy b u cs tx idx job ps sigs ops ∧ ops.serOps = some bytes ∧ bytes.length ≤ job.size := by
    intro idx job hj
    have hlt : idx < jobs.length := (List.getElem?_eq_some_iff.mp hj).1
    obtain ⟨ps, hps, hh⟩ := hpre idx job hj
    rw [Nat.zero_add] at hps
    obtain ⟨sigs, hs1, hs2⟩ := (hw job (List.mem_of_getElem? hj)).signed ps hh
    obtain ⟨ops, bytes, hb1, hb2, hb3⟩ := hs2 u.estimatedSize u.outputs
    have hadd : InputAdded b idx job.input job.lock job.signatory := by
      refine ⟨{ b with inputs := b.inputs.take idx }, ?_, ?_⟩
      · simp only [addInput, List.length_take, b2, List.length_map]
        omega
      · simp only [addInput]
        refine ⟨b.inputs.drop (idx + 1), ?_⟩
        have h1 := hinput idx job hj
        rw [v1, Nat.zero_add] at h1
        have hlt' : idx < b.inputs.length := by rw [b2, List.length_map]; omega
        rw [List.getElem?_eq_getElem hlt'] at h1
        have h1' := Option.some.inj h1
        calc _ = b.inputs.take idx ++ b.inputs[idx] :: b.inputs.drop (idx + 1) := by
              rw [h1', List.append_assoc]; rfl
          _ = b.inputs := by rw [← List.drop_eq_getElem_cons hlt', List.take_append_drop]
    have hcalls : ∀ call ∈ cs, call.idx = idx → call = .signatory idx job.signatory sigs := by
      intro call hcall hidx
      obtain ⟨j, job', ps', sigs', h1, h2, h3, h4⟩ := s4 call hcall
      rw [Nat.zero_add] at h2 h4
      rw [h4] at hidx
      simp only [SignCall.idx] at hidx
      subst hidx
      rw [hj] at h1
      cases h1
      rw [hps] at h2
      cases h2
      rw [hs1] at h3
      cases h3
      exact h4
    refine ⟨ps, sigs, ops, bytes, ⟨hadd, hps, hh, hs1, hcalls, hb1, ?_⟩, hb2, hb3⟩
    obtain ⟨t, ps', ht, hps', hscript⟩ := SpendProofs.completed_script hC hadd (fun c hc hi => .inl (hcalls c hc hi))
    rw [hps] at hps'
    cases hps'
    rw [(unlock_of (hw job (List.mem_of_getElem? hj)).toEstimates hb1 hb2).1] at hscript
    exact ⟨t, ht, (Option.some.inj hscript).symm⟩
  have hlens : ∀ (i : Nat) (t : TxInput), tx.inputs[i]? = some t → ∃ job, jobs[i]? = some job ∧
      ∃ n, t.script.len = some n ∧ n ≤ job.total := by
    intro i t ht
    have hi : i < jobs.length := by rw [← hlen]; exact (List.getElem?_eq_some_iff.mp ht).1
    obtain ⟨ps, sigs, ops, bytes, h1, h2, h3⟩ := hspent i _ (List.getElem?_eq_getElem hi)
    obtain ⟨t', ht', he⟩ := h1.script
    rw [ht] at ht'
    cases ht'
    refine ⟨_, List.getElem?_eq_getElem hi, bytes.length + (scriptBytes jobs[i].redeem).length, ?_, ?_⟩
    · rw [he]; exact (unlock_of (hw _ (List.getElem_mem hi)).toEstimates h1.returned h2).2
    · unfold Job.total; omega
  have hser : (Codec.unhashedTx sz).ser tx = some tx.wire.encode := by
    refine C14_wire_format sz tx ⟨?_, ?_⟩ ⟨?_, ?_⟩
    · have := (lengths_le_bound jobs (outs.map (·.script))).1
      omega
    · intro t ht
      obtain ⟨j, hj, rfl⟩ := List.getElem_of_mem ht
      obtain ⟨job, h1, n, h2, h3⟩ := hlens j _ (List.getElem?_eq_getElem hj)
      obtain ⟨bs, hbs, rfl⟩ := Option.map_eq_some_iff.mp h2
      have := total_le_bound (List.mem_of_getElem? h1) (outs.map (·.script))
      exact ⟨bs, hbs, by omega⟩
    · have h1 := hord.2.length_le
      have := (lengths_le_bound jobs (outs.map (·.script))).2
      simp only [List.length_map] at h1 this
      rw [x3]
      omega
    · rw [x3]; exact houts
  have hle : tx.wire.encode.length ≤ u.estimatedSize := by
    have hsf := jobs_sizeFixed jobs (fun j h => (hw j h).toEstimates) b b2
    obtain ⟨ptx, hp, _⟩ := C37_exact sz H b u (.inl hu) hsf
    refine C37_upper_bound sz H b u u' cs tx ptx _ (.inl hu) hsf s2 htx hp ⟨_, hser, rfl⟩ ?_
    intro i t q ht hq a c ha hc
    obtain ⟨job, h1, n, h2, h3⟩ := hlens i t ht
    rw [ha] at h2
    cases h2
    obtain ⟨ins, hin', rfl⟩ := Option.map_eq_some_iff.mp hp
    obtain ⟨q', h4, h5⟩ := (mapM_some hin').2 i (inputOf job) (by rw [b2, List.getElem?_map, h1]; rfl)
    dsimp only at hq
    rw [hq] at h4
    cases h4
    obtain ⟨q'', h6, h7⟩ := placeholder_ok (hw job (List.mem_of_getElem? h1)).toEstimates u.outputs
    rw [h5] at h6
    cases h6
    rw [hc] at h7
    cases h7
    have := total_le_bound (List.mem_of_getElem? h1) (outs.map (·.script))
    exact ⟨h3, by omega⟩
  refine ⟨u, cs, tx, _, ?_, hu, hC, hser, rfl, x1.trans b3, x2.trans b4, ?_, ?_, ?_, ?_, ?_, ?_, ?_⟩
  · rw [hu, Res.bind_ok, s1, Res.bind_ok, htx]
    rfl
  · rw [x4, b2, List.map_map]; rfl
  · rw [x5, b2, List.map_map]; rfl
  · rw [x3]; exact hord.1
  · rw [x3]; exact hord.2
  · rw [x3]; exact hcons
  · intro h
    rw [x3] at h ⊢
    have h1 := hpaid h
    have h2 : tx.wire.encode.length * fee.toNat / 1000 ≤ u.estimatedSize * fee.toNat / 1000 :=
      Nat.div_le_div_right (Nat.mul_le_mul_right _ hle)
    omega
  · intro idx job hj
    obtain ⟨ps, sigs, ops, _, h, _⟩ := hspent idx job hj
    exact ⟨ps, sigs, ops, h⟩

/-! ## Public key hashes -/

/-- Spec: spending a coin locked to a public key hash: hash the serialised preimage and sign the hash. -/
def Spec.coinJob (E : Ecc) (H : Bytes → Hash256) (pk : Pubkey) (lock : Script) (flags : SigHashFlags)
    (dc : Dyn → Option Bytes) (coin : Coin) : Job Dyn where
  input := coin.input
  lock := lock
  signatory := P2PKHSignatory.signatory ⟨pk, flags⟩ dc
  sign ps :=
    (Res.ofOption ps.head?).bind fun p =>
    (Res.ofOption (Codec.txPreimage.ser p)).bind fun bytes =>
    (E.sign coin.sk (.newUnnamed (H bytes).1)).bind fun sig =>
    .ok sig.data
  size := 108

namespace SpendingProofs

theorem code_serialisable {lock code : Script} (h : IsScriptCode lock code)
    (hl : ∃ bytes, lock.serOps = some bytes ∧ bytes.length < 2 ^ 32) : code.Serialisable := by
  obtain ⟨bytes, h1, h2⟩ := hl
  rcases h with ⟨_, rfl⟩ | ⟨q, e, _⟩
  · exact ⟨bytes, h1, by omega⟩
  · exact SignedProofs.suffix_serialisable (pre := q ++ [.code .OP_CODESEPARATOR]) h1 h2 (by simp [e])

theorem p2pkh_script_bytes {s : P2PKHSignatory} {sig : Bytes} (h : sig.length ≤ 72) :
    ∃ bytes, (s.buildScript sig).serOps = some bytes ∧ bytes.length ≤ 108 ∧
      (sig.length = 72 → bytes.length = 108) := by
  obtain ⟨n, h1, h2, h3⟩ := p2pkhUnlock_len s sig h
  obtain ⟨bytes, hb, rfl⟩ := Option.map_eq_some_iff.mp h1
  exact ⟨bytes, hb, h2, h3⟩

theorem coinJob_sign {S : Secp} (L : Ecdsa S) {E : Ecc} (hE : Backend S E) {H : Bytes → Hash256} {pk : Pubkey}
    {lock : Script} {flags : SigHashFlags} {dc : Dyn → Option Bytes} {coin : Coin} (hk : SecretKey S coin.sk)
    (hl : ∃ bytes, lock.serOps = some bytes ∧ bytes.length < 2 ^ 32) {ps : List TxPreimage}
    (hp : (coinJob E H pk lock flags dc coin).Handed ps) :
    ∃ p bytes sig, ps[0]? = some p ∧ Codec.txPreimage.ser p = some bytes ∧
      E.sign coin.sk (.newUnnamed (H bytes).1) = .ok sig ∧ sig.data.length ≤ 72 ∧
      (coinJob E H pk lock flags dc coin).sign ps = .ok sig.data := by
  obtain ⟨h1, h2⟩ := hp
  cases ps with
  | nil => cases h1
  | cons p rest =>
    have h3 := C14_preimage_wire_format p (code_serialisable (h2 p (by simp)) hl)
    obtain ⟨sig, pk', hs1, _, _, _, _, hs6, _⟩ := C84_sign_verify S L E E hE hE coin.sk
      (.newUnnamed (H p.wire.encode).1) hk (H p.wire.encode).2
    refine ⟨p, _, sig, rfl, h3, hs1, hs6, ?_⟩
    unfold coinJob
    simp only [List.head?_cons, Res.ofOption, Res.bind_ok, h3, hs1]

end SpendingProofs

/-- **C100** (public key hashes): spending a coin whose secret key is known is something that works. -/
theorem C100_coin_works (S : Secp) (L : Ecdsa S) (E : Ecc) (hE : Backend S E) (H : Bytes → Hash256) (pk : Pubkey)
    (a : Address) (ha : a.addrType = .P2PKH) (flags : SigHashFlags) (dc : Dyn → Option Bytes) (coin : Coin)
    (hk : SecretKey S coin.sk) : (coinJob E H pk a.toScript flags dc coin).Works := by
  have hl : ∃ bytes, a.toScript.serOps = some bytes ∧ bytes.length < 2 ^ 32 := by
    refine ⟨_, p2pkh_bytes a ha, ?_⟩
    have := a.hash.2
    simp only [List.length_append, List.length_cons, List.length_nil]
    omega
  refine ⟨⟨hl, ?_⟩, ?_⟩
  · intro outs
    obtain ⟨bytes, h1, _, h2⟩ := p2pkh_script_bytes (s := ⟨pk, flags⟩)
      (sig := P2PKHSignatory.placeholderSignatures ⟨pk, flags⟩) (by simp [P2PKHSignatory.placeholderSignatures,
        MAX_SIGNATURE_SIZE])
    exact ⟨_, bytes, rfl, h1, h2 (by simp [P2PKHSignatory.placeholderSignatures, MAX_SIGNATURE_SIZE])⟩
  · intro ps hp
    obtain ⟨p, bytes, sig, h1, _, _, h4, h5⟩ := coinJob_sign L hE hk hl hp
    refine ⟨sig.data, h5, ?_⟩
    intro n outs
    obtain ⟨bytes', h6, h7, _⟩ := p2pkh_script_bytes (s := ⟨pk, flags⟩) (sig := sig.data) h4
    refine ⟨_, bytes', ?_, h6, h7⟩
    cases ps with
    | nil => cases h1
    | cons q qs => rfl

/-- **C100** (public key hashes): in a transaction that spends coins of any kind, every input that spends a coin
locked to the address of a public key and signed with its secret key is valid for the output it spends. -/
theorem C100_coin_valid (S : Secp) (L : Ecdsa S) (E E' : Ecc) (hE : Backend S E) (hE' : Backend S E')
    (c : Crypto) (hc : ∀ pk m sig, c.verify pk m sig = true ↔ E'.verify pk m sig = .ok true)
    (sz : Layout) (H : Bytes → Hash256) (hH : ∀ x, (H x).1 = c.hash256 x)
    (h160 : Bytes → Hash160) (h160c : ∀ x, (h160 x).1 = c.hash160 x)
    (version : Int32) (lockTime : UInt32) (fee : UInt64)
    (jobs : List (Job Dyn)) (outs : List TxBuilderOutput) (hw : ∀ job ∈ jobs, job.Works)
    (hin : (jobs.map (·.input.value.toNat)).sum < 2 ^ 64)
    (hfix : outputSum (fixedOf outs) ≤ (jobs.map (·.input.value.toNat)).sum)
    (hs : ∀ o ∈ outs, o.script.Serialisable)
    (hfee : spendBound jobs (outs.map (·.script)) * max 1 fee.toNat < 2 ^ 64) :
    ∃ tx, spend sz H version lockTime fee jobs outs = .ok tx ∧
      ∀ (idx : Nat) (coin : Coin) (pk : Pubkey) (pre : Bytes) (a : Address) (flags : SigHashFlags)
        (dc : Dyn → Option Bytes),
        jobs[idx]? = some (coinJob E H pk a.toScript flags dc coin) → E.derivePubkey coin.sk = .ok pk →
        Address.fromPk h160 pre pk = some a → flags.toNat < 256 → flags.toNat / 64 % 2 = 1 →
        SpendOk c tx.wire idx coin.input.value.toNat (p2pkhLock c pk) := by
  obtain ⟨u, cs, tx, bytes, h1, hbu, h2, _, _, _, _, _, _, _, _, _, _, h3⟩ :=
    C100_spending sz H version lockTime fee jobs outs hw hin hfix hs hfee
  refine ⟨tx, h1, ?_⟩
  intro idx coin pk pre a flags dc hj hpk ha hf8 hfork
  obtain ⟨ps, sigs, ops, hsp⟩ := h3 idx _ hj
  have hty : a.addrType = .P2PKH ∧ a.hash = h160 pk.1 := by
    obtain ⟨_, _, rfl⟩ := Option.map_eq_some_iff.mp ha; exact ⟨rfl, rfl⟩
  have hlock : scriptBytes a.toScript = p2pkhLock c pk := by
    unfold scriptBytes p2pkhLock
    rw [p2pkh_bytes a hty.1, Option.getD_some, hty.2, h160c]
  have hk : SecretKey S coin.sk := by
    by_contra hk
    rw [((C84_sign_errors S E hE coin.sk (.newUnnamed [])).1 hk).2] at hpk
    cases hpk
  obtain ⟨p, pb, sig, g1, g2, g3, _, g5⟩ := coinJob_sign (lock := a.toScript) L hE hk
    (hw _ (List.mem_of_getElem? hj)).lock hsp.handed
  have hsig := hsp.signatures
  rw [g5] at hsig
  cases hsig
  rw [← hlock]
  refine C84_spend S L E E' hE hE' c hc sz H hH h160 h160c _ u cs tx h2 idx coin.input coin.sk ⟨pk, flags⟩ hpk pre a
    ha dc hsp.added hf8 hfork p pb ?_ g2 (.newUnnamed (H pb).1) sig rfl g3 (fun call h4 h5 => .inl (hsp.calls call h4 h5))
  unfold preimageAt
  rw [hsp.preimages, Option.bind_some, g1]

/-! ## Script hashes -/

/-- Spec: the locking script of a redeem script: HASH160 <hash> EQUAL. -/
def Spec.p2shLock (c : Crypto) (redeem : Bytes) : Bytes := [0xa9, 20] ++ c.hash160 redeem ++ [0x87]

namespace SpendingProofs

theorem p2sh_bytes (a : Address) (ha : a.addrType = .P2SH) :
    a.toScript.serOps = some ([0xa9, 20] ++ a.hash.1 ++ [0x87]) := by
  obtain ⟨te, _, tb⟩ := SpendProofs.hash_token a.hash
  unfold Script.serOps
  simp only [Address.toScript, ha, p2shScript, serializeOps, te, Res.bind_ok, tb]
  rfl

end SpendingProofs

/-- **C100** (script hashes): in a transaction that spends coins of any kind, an input whose signatory returns minimal
pushes of some items is valid for the output locked to the hash of its script exactly if the script, run on these
items, leaves exactly one true item. -/
theorem C100_script_valid (c : Crypto) (sz : Layout) (H : Bytes → Hash256)
    (version : Int32) (lockTime : UInt32) (fee : UInt64)
    (jobs : List (Job Dyn)) (outs : List TxBuilderOutput) (hw : ∀ job ∈ jobs, job.Works)
    (hin : (jobs.map (·.input.value.toNat)).sum < 2 ^ 64)
    (hfix : outputSum (fixedOf outs) ≤ (jobs.map (·.input.value.toNat)).sum)
    (hs : ∀ o ∈ outs, o.script.Serialisable)
    (hfee : spendBound jobs (outs.map (·.script)) * max 1 fee.toNat < 2 ^ 64)
    (h20 : ∀ x, (c.hash160 x).length = 20) :
    ∃ (u : UnsignedTx Dyn) (tx : UnhashedTx), (spendBuilder version lockTime fee jobs outs).build sz H = .ok u ∧
      spend sz H version lockTime fee jobs outs = .ok tx ∧
      ∀ (idx : Nat) (job : Job Dyn) (items : List TxPreimage → List Bytes), jobs[idx]? = some job →
        job.signatory.isP2sh = true →
        (∀ ps sigs n outs ops, job.Handed ps → job.sign ps = .ok sigs →
          builtScript job.signatory ps (some n) sigs job.lock outs = some ops →
          (∀ op ∈ ops, op.WellFormed ∧ ∀ d, op ≠ .pushByteArray d false) ∧
          ops.map Vm.item = (items ps).map some) →
        ∃ ps i, u.txPreimages[idx]? = some ps ∧ job.Handed ps ∧ tx.wire.inputs[idx]? = some i ∧
          (SpendOk c tx.wire idx job.input.value.toNat (p2shLock c (scriptBytes job.lock)) ↔
            ∃ r, Vm.RunsFrom (txEnv c tx.wire idx i job.input.value.toNat) (scriptBytes job.lock)
              ⟨(items ps).reverse, []⟩ r ∧ Vm.Success r) := by
  obtain ⟨u, cs, tx, bytes, h1, hbu, h2, _, _, _, _, _, _, _, _, _, _, h3⟩ :=
    C100_spending sz H version lockTime fee jobs outs hw hin hfix hs hfee
  refine ⟨u, tx, hbu, h1, ?_⟩
  intro idx job items hj hp hitems
  obtain ⟨ps, sigs, ops, hsp⟩ := h3 idx _ hj
  obtain ⟨rbytes, hr, hrl⟩ := (hw _ (List.mem_of_getElem? hj)).lock
  have hrb : scriptBytes job.lock = rbytes := by unfold scriptBytes; rw [hr]; rfl
  obtain ⟨hm, hi⟩ := hitems ps sigs u.estimatedSize u.outputs ops hsp.handed hsp.signatures hsp.returned
  let h160 : Bytes → Hash160 := fun x => ⟨c.hash160 x, h20 x⟩
  obtain ⟨a, ha, _⟩ := C54_total (Prefix.str .bitcoinCash) .P2SH (h160 rbytes)
  have ha' : Address.fromRedeemScript h160 (Prefix.str .bitcoinCash) rbytes = some a := ha
  obtain ⟨i, h4, h5⟩ := C63_p2sh_own_script c sz H h160 (fun x => rfl) _ u cs tx h2 idx job.input job.lock rbytes hr hrl
    (Prefix.str .bitcoinCash) a ha' job.signatory hp hsp.added sigs (fun call h4 h5 => .inl (hsp.calls call h4 h5))
    ps hsp.preimages ops (items ps) hsp.returned hm hi
  refine ⟨ps, i, hsp.preimages, hsp.handed, h4, ?_⟩
  have hty : a.addrType = .P2SH ∧ a.hash = h160 rbytes := by
    obtain ⟨_, _, rfl⟩ := Option.map_eq_some_iff.mp ha; exact ⟨rfl, rfl⟩
  have hlock : scriptBytes a.toScript = p2shLock c rbytes := by
    unfold scriptBytes p2shLock
    rw [p2sh_bytes a hty.1, Option.getD_some, hty.2]
  rw [hrb, ← hlock]
  exact h5

/-! ## Refusals -/

/-- **C100** (not enough): if the coins cannot pay the fixed outputs, spending is refused with the missing amount;
nothing is signed, and no signatory is asked for anything. -/
theorem C100_insufficient (sz : Layout) (H : Bytes → Hash256) (version : Int32) (lockTime : UInt32) (fee : UInt64)
    (jobs : List (Job Dyn)) (outs : List TxBuilderOutput) (hfix : outputSum (fixedOf outs) < 2 ^ 64)
    (hless : (jobs.map (·.input.value.toNat)).sum < outputSum (fixedOf outs)) :
    spend sz H version lockTime fee jobs outs =
      .err (.insufficientInputAmount (outputSum (fixedOf outs) - (jobs.map (·.input.value.toNat)).sum)) := by
  obtain ⟨b1, b2, b3, b4, b5, b6, hvals, hfixed⟩ := spend_builder version lockTime fee jobs outs
  unfold spend
  rw [(C32_insufficient sz H _ (by rw [hvals]; omega) (by rw [hfixed]; exact hfix)).1
    (by rw [hfixed, hvals]; exact hless), hfixed, hvals]
  rfl

namespace SpendingProofs

theorem signJobs_refused (good : List (Job Dyn)) (bad : Job Dyn) (rest : List (Job Dyn)) (e : Error)
    (hw : ∀ job ∈ good, job.Works) (hbad : ∀ ps, bad.Handed ps → bad.sign ps = .err e) (u : UnsignedTx Dyn) (k : Nat)
    (hi : ∀ j job, (good ++ bad :: rest)[j]? = some job → u.builder.inputs[k + j]? = some (inputOf job))
    (hp : ∀ j job, (good ++ bad :: rest)[j]? = some job → ∃ ps, u.txPreimages[k + j]? = some ps ∧ job.Handed ps)
    (hu : ∀ j, j < (good ++ bad :: rest).length → u.inputs[k + j]? = some none) :
    signJobs u k (good ++ bad :: rest) = .err e := by
  induction good generalizing u k with
  | nil =>
    obtain ⟨ps, hps, hh⟩ := hp 0 bad rfl
    rw [Nat.add_zero] at hps
    rw [List.nil_append, signJobs, signJob]
    simp only [hps, Res.ofOption, Res.bind_ok, hbad ps hh]
    rfl
  | cons job good ih =>
    obtain ⟨u1, cs, h1, h2, _, _⟩ := signJobs_ok [job] (fun c hc => hw c (by simp_all)) u k
      (by
        intro j c hj
        cases j with
        | zero => exact hi 0 c (by simpa using hj)
        | succ j => simp at hj)
      (by
        intro j c hj
        cases j with
        | zero => exact hp 0 c (by simpa using hj)
        | succ j => simp at hj)
      (by
        intro j hj
        simp only [List.length_cons, List.length_nil] at hj
        exact hu j (by simp only [List.length_append, List.length_cons]; omega))
    rw [signJobs] at h1
    rw [List.cons_append, signJobs]
    cases hx : signJob u k job with
    | panic => rw [hx] at h1; cases h1
    | err e' => rw [hx] at h1; cases h1
    | ok u2 =>
      rw [Res.bind_ok]
      -- the effect of signing this input
      obtain ⟨c, hrun, hidx⟩ : ∃ c : SignCall Dyn, c.run u = some (u2, .ok ()) ∧ c.idx = k := by
        unfold signJob at hx
        cases hq : u.txPreimages[k]? with
        | none => rw [hq] at hx; cases hx
        | some ps =>
          rw [hq] at hx
          simp only [Res.ofOption, Res.bind_ok] at hx
          cases hsg : job.sign ps with
          | panic => rw [hsg] at hx; cases hx
          | err e' => rw [hsg] at hx; cases hx
          | ok sigs =>
            rw [hsg, Res.bind_ok] at hx
            refine ⟨.signatory k job.signatory sigs, ?_, rfl⟩
            show u.signInputSignatory k job.signatory sigs = _
            cases hr : u.signInputSignatory k job.signatory sigs with
            | none => rw [hr] at hx; cases hx
            | some r =>
              obtain ⟨u3, r⟩ := r
              rw [hr] at hx
              cases r with
              | error e' => cases hx
              | ok x => cases hx; rfl
      obtain ⟨g1, g2, g3, g4, g5, g6, g7, g8⟩ := C39_one_input u _ _ _ hrun
      refine ih (fun c hc => hw c (by simp [hc])) u2 (k + 1) ?_ ?_ ?_
      · intro j c hj
        rw [g5, show k + 1 + j = k + (j + 1) by omega]
        exact hi (j + 1) c (by simpa using hj)
      · intro j c hj
        rw [g6, show k + 1 + j = k + (j + 1) by omega]
        exact hp (j + 1) c (by simpa using hj)
      · intro j hj
        rw [g1 (k + 1 + j) (by rw [hidx]; omega), show k + 1 + j = k + (j + 1) by omega]
        exact hu (j + 1) (by simpa using hj)

end SpendingProofs

/-- **C100** (no signature): if no signature can be made for one of the coins, spending is refused with that error,
and there is no transaction. -/
theorem C100_refused (sz : Layout) (H : Bytes → Hash256) (version : Int32) (lockTime : UInt32) (fee : UInt64)
    (good : List (Job Dyn)) (bad : Job Dyn) (rest : List (Job Dyn)) (outs : List TxBuilderOutput)
    (hw : ∀ job ∈ good, job.Works) (he : ∀ job ∈ good ++ bad :: rest, job.Estimates)
    (e : Error) (hbad : ∀ ps, bad.Handed ps → bad.sign ps = .err e)
    (hin : ((good ++ bad :: rest).map (·.input.value.toNat)).sum < 2 ^ 64)
    (hfix : outputSum (fixedOf outs) ≤ ((good ++ bad :: rest).map (·.input.value.toNat)).sum)
    (hs : ∀ o ∈ outs, o.script.Serialisable)
    (hfee : spendBound (good ++ bad :: rest) (outs.map (·.script)) * max 1 fee.toNat < 2 ^ 64) :
    spend sz H version lockTime fee (good ++ bad :: rest) outs = .err e := by
  obtain ⟨b1, b2, b3, b4, b5, b6, hvals, hfixed⟩ := spend_builder version lockTime fee (good ++ bad :: rest) outs
  unfold spend
  generalize spendBuilder version lockTime fee (good ++ bad :: rest) outs = b at *
  obtain ⟨u, hu, v1, hinput, hpre, hnone, houts⟩ := spend_built sz H b (good ++ bad :: rest) outs he
    b2 b6 hvals hfixed hin hfix hs (by rw [b5]; exact hfee)
  rw [hu, Res.bind_ok, signJobs_refused good bad rest e hw hbad u 0 hinput hpre hnone]
  rfl

/-! ## Contracts -/

section
open Spec.Macro Spec.Named Spec.Source Spec.Items Macro

/-- Spec: a job that spends the contract `sc`, whose generated script is `ops`, with a value of the generated type for
the variant `name`, which may depend on the preimages. -/
structure Spec.SpendsContract (sc : Macro.Script) (ops : Script) (name : String) (text : ScriptInput → String)
    (job : Job Dyn) (v : List TxPreimage → InputsValue) (items : List TxPreimage → List Bytes) : Prop where
  lock : job.lock = ops
  p2sh : job.signatory.isP2sh = true
  value : ∀ ps, job.Handed ps → (v ps).case = name ∧ Inhabits sc.inputsItem (v ps) ∧
    (∀ x ∈ (v ps).fields, Exists x.2) ∧
    List.Forall₂ (fun x item => ItemOf x.2 item) (v ps).fields (items ps)
  pushes : ∀ ps sigs n outs, job.Handed ps → job.sign ps = .ok sigs → ∃ tagged,
    sc.inputOps text (v ps) = .ok tagged ∧
    builtScript job.signatory ps (some n) sigs job.lock outs = some (tagged.map Tagged.op)

/-- **C100** (contracts, partial: under the restrictions of `C60_names_partial`): take a contract, from its source, and
spend a coin locked to the hash of its script, beside any others, with a value of the generated type made from the
preimages handed out. Spending goes through, and the input is valid exactly if the statements as written, executed on
the field values under the names of the fields, run to the end and leave exactly one true item. A signature followed
by a flag byte of the signatory is accepted where the code after any separator (or the whole script) is in force
exactly if it verifies for the hash of the serialised preimage handed out, with that code. -/
theorem C100_contract_partial (c : Crypto) (sz : Layout) (H : Bytes → Hash256)
    (hH : ∀ x, (H x).1 = c.hash256 x) (h20 : ∀ x, (c.hash160 x).length = 20)
    -- the source
    (lx : Lex) (hl : LexOk lx)
    (order : List (String × VState) → List (String × VState)) (horder : ∀ l, (order l).Perm l)
    (args : List NestedMeta) (f : ItemFn) (d : Decl) (t : Prog)
    (hdecl : Declares lx args f d) (hsays : Says f.body (blocks t)) (hn : WellNested t)
    (hd : declOk d) (hok : progOk false t = true)
    (sc : Macro.Script) (e : List Emit) (g : Gen) (hacc : scriptMacro lx order args f = .ok (sc, e, g))
    (hvalid : Valid sc.inputsItem)
    -- the coins and the outputs
    (version : Int32) (lockTime : UInt32) (fee : UInt64)
    (jobs : List (Job Dyn)) (outs : List TxBuilderOutput) (hw : ∀ job ∈ jobs, job.Works)
    (hin : (jobs.map (·.input.value.toNat)).sum < 2 ^ 64)
    (hfix : outputSum (fixedOf outs) ≤ (jobs.map (·.input.value.toNat)).sum)
    (hs : ∀ o ∈ outs, o.script.Serialisable)
    (hfee : spendBound jobs (outs.map (·.script)) * max 1 fee.toNat < 2 ^ 64)
    -- the coin locked to the contract
    (idx : Nat) (job : Job Dyn) (hj : jobs[idx]? = some job) (name : String) (cond : Predicate)
    (hcond : (name, cond) ∈ variantsOf d) (text : ScriptInput → String)
    (v : List TxPreimage → InputsValue) (items : List TxPreimage → List Bytes)
    (hjob : SpendsContract sc (e.map Emit.op) name text job v items)
    (k : Nat) (fl : SigHashFlags) (hk : job.signatory.sigHashFlagsVec[k]? = some fl) (hf8 : fl.toNat < 256) :
    ∃ (u : UnsignedTx Dyn) (tx : UnhashedTx) (ps : List TxPreimage) (i : WireInput),
      (spendBuilder version lockTime fee jobs outs).build sz H = .ok u ∧
      spend sz H version lockTime fee jobs outs = .ok tx ∧
      u.txPreimages[idx]? = some ps ∧ job.Handed ps ∧ tx.wire.inputs[idx]? = some i ∧
      -- if execution does not depend on what the model of the virtual machine leaves open
      (runScript (txEnv c tx.wire idx i job.input.value.toNat) cond t (e.map Emit.op) scriptBytes
        (start ((v ps).fields.map Prod.fst) (items ps)) ≠ .undecided →
      ∃ p, ps[k]? = some p ∧
      p.scriptCode = (if separators t = 0 then e.map Emit.op else afterSeparator 0 (e.map Emit.op)) ∧
      (∀ code, code = e.map Emit.op ∨ (∃ n, code = afterSeparator n (e.map Emit.op)) →
        ∃ bytes, Codec.txPreimage.ser { p with scriptCode := code } = some bytes ∧
          ∀ sig pubkey,
            (txEnv c tx.wire idx i job.input.value.toNat (scriptBytes code)).checkSig (sig ++ [fl.toUInt8]) pubkey =
              some true ↔
            fl.toNat / 64 % 2 = 1 ∧ c.verify pubkey (c.hash256 bytes) sig = true) ∧
      (SpendOk c tx.wire idx job.input.value.toNat (p2shLock c (scriptBytes (e.map Emit.op))) ↔
        ∃ top alt, execScript (txEnv c tx.wire idx i job.input.value.toNat) t (e.map Emit.op) scriptBytes
            (start ((v ps).fields.map Prod.fst) (items ps)) = .ok ⟨[top], alt⟩ ∧
          Vm.truthy top.value = true)) := by
  obtain ⟨u, cs, tx, bytes, h1, hbu, h2, _, _, _, _, _, _, _, _, _, _, h3⟩ :=
    C100_spending sz H version lockTime fee jobs outs hw hin hfix hs hfee
  obtain ⟨ps, sigs, ops, hsp⟩ := h3 idx _ hj
  obtain ⟨rbytes, hr, hrl⟩ := (hw _ (List.mem_of_getElem? hj)).lock
  rw [hjob.lock] at hr
  have hrb : scriptBytes (e.map Emit.op) = rbytes := by unfold scriptBytes; rw [hr]; rfl
  obtain ⟨v1, v2, v3, v4⟩ := hjob.value ps hsp.handed
  obtain ⟨tagged, q1, q2⟩ := hjob.pushes ps sigs u.estimatedSize u.outputs hsp.handed hsp.signatures
  let h160 : Bytes → Hash160 := fun x => ⟨c.hash160 x, h20 x⟩
  obtain ⟨a, ha, _⟩ := C54_total (Prefix.str .bitcoinCash) .P2SH (h160 rbytes)
  have ha' : Address.fromRedeemScript h160 (Prefix.str .bitcoinCash) rbytes = some a := ha
  have hadd := hsp.added
  rw [hjob.lock] at hadd q2
  obtain ⟨ti, hti, _⟩ := hsp.script
  have hwi : tx.wire.inputs[idx]? = some ti.wire := by
    show (tx.inputs.map TxInput.wire)[idx]? = _
    rw [List.getElem?_map, hti]; rfl
  refine ⟨u, tx, ps, ti.wire, hbu, h1, hsp.preimages, hsp.handed, hwi, fun hdec => ?_⟩
  obtain ⟨i, p, g1, g2, g3, g4, g5⟩ := C96_signed_partial c sz H hH h160 (fun x => rfl) lx hl order horder args f d t
    hdecl hsays hn hd hok sc e g hacc rbytes hr hrl (Prefix.str .bitcoinCash) a ha' hvalid (v ps) v2 v3 (items ps) v4
    cond (by rw [v1]; exact hcond) text tagged q1 _ u cs tx h2 idx job.input job.signatory hjob.p2sh hadd sigs
    (fun call h4 h5 => .inl (hsp.calls call h4 h5)) ps hsp.preimages q2
    (fun i hi => by rw [hwi] at hi; cases hi; exact hdec) k fl hk hf8
  rw [hwi] at g1
  cases g1
  have hty : a.addrType = .P2SH ∧ a.hash = h160 rbytes := by
    obtain ⟨_, _, rfl⟩ := Option.map_eq_some_iff.mp ha; exact ⟨rfl, rfl⟩
  have hlock : scriptBytes a.toScript = p2shLock c rbytes := by
    unfold scriptBytes p2shLock
    rw [p2sh_bytes a hty.1, Option.getD_some, hty.2]
  rw [hlock] at g5
  refine ⟨p, g2, g3, g4, ?_⟩
  rw [hrb]
  exact g5

/-- **C100** (contracts without variants, partial: under the restrictions of `C60_without_variants_partial`): the same
for a contract with one way of writing its inputs, whose branches leave the same names; every value of the generated
struct is covered, whichever branches it takes. -/
theorem C100_without_variants_partial (c : Crypto) (sz : Layout) (H : Bytes → Hash256)
    (hH : ∀ x, (H x).1 = c.hash256 x) (h20 : ∀ x, (c.hash160 x).length = 20)
    -- the source
    (lx : Lex) (hl : LexOk lx)
    (order : List (String × VState) → List (String × VState)) (horder : ∀ l, (order l).Perm l)
    (args : List NestedMeta) (f : ItemFn) (d : Decl) (t : Prog)
    (hdecl : Declares lx args f d) (hsays : Says f.body (blocks t)) (hn : WellNested t)
    (hd : declOk d) (hok : progOk false t = true)
    (hnone : d.variants = []) (hbal : Balanced d d.inputStruct [] t)
    (sc : Macro.Script) (e : List Emit) (g : Gen) (hacc : scriptMacro lx order args f = .ok (sc, e, g))
    (hvalid : Valid sc.inputsItem)
    -- the coins and the outputs
    (version : Int32) (lockTime : UInt32) (fee : UInt64)
    (jobs : List (Job Dyn)) (outs : List TxBuilderOutput) (hw : ∀ job ∈ jobs, job.Works)
    (hin : (jobs.map (·.input.value.toNat)).sum < 2 ^ 64)
    (hfix : outputSum (fixedOf outs) ≤ (jobs.map (·.input.value.toNat)).sum)
    (hs : ∀ o ∈ outs, o.script.Serialisable)
    (hfee : spendBound jobs (outs.map (·.script)) * max 1 fee.toNat < 2 ^ 64)
    -- the coin locked to the contract
    (idx : Nat) (job : Job Dyn) (hj : jobs[idx]? = some job)
    (text : ScriptInput → String)
    (v : List TxPreimage → InputsValue) (items : List TxPreimage → List Bytes)
    (hjob : SpendsContract sc (e.map Emit.op) d.inputStruct text job v items)
    (k : Nat) (fl : SigHashFlags) (hk : job.signatory.sigHashFlagsVec[k]? = some fl) (hf8 : fl.toNat < 256) :
    ∃ (u : UnsignedTx Dyn) (tx : UnhashedTx) (ps : List TxPreimage) (i : WireInput),
      (spendBuilder version lockTime fee jobs outs).build sz H = .ok u ∧
      spend sz H version lockTime fee jobs outs = .ok tx ∧
      u.txPreimages[idx]? = some ps ∧ job.Handed ps ∧ tx.wire.inputs[idx]? = some i ∧
      ∃ p, ps[k]? = some p ∧
      p.scriptCode = (if separators t = 0 then e.map Emit.op else afterSeparator 0 (e.map Emit.op)) ∧
      (∀ code, code = e.map Emit.op ∨ (∃ n, code = afterSeparator n (e.map Emit.op)) →
        ∃ bytes, Codec.txPreimage.ser { p with scriptCode := code } = some bytes ∧
          ∀ sig pubkey,
            (txEnv c tx.wire idx i job.input.value.toNat (scriptBytes code)).checkSig (sig ++ [fl.toUInt8]) pubkey =
              some true ↔
            fl.toNat / 64 % 2 = 1 ∧ c.verify pubkey (c.hash256 bytes) sig = true) ∧
      (SpendOk c tx.wire idx job.input.value.toNat (p2shLock c (scriptBytes (e.map Emit.op))) ↔
        ∃ top alt, execScript (txEnv c tx.wire idx i job.input.value.toNat) t (e.map Emit.op) scriptBytes
            (start ((v ps).fields.map Prod.fst) (items ps)) = .ok ⟨[top], alt⟩ ∧
          Vm.truthy top.value = true) := by
  obtain ⟨u, tx, ps, i, h1, h2, h3, h4, h5, h6⟩ := C100_contract_partial c sz H hH h20 lx hl order horder args f d t
    hdecl hsays hn hd hok sc e g hacc hvalid version lockTime fee jobs outs hw hin hfix hs hfee idx job hj
    d.inputStruct [] (by simp [variantsOf, hnone]) text v items hjob k fl hk hf8
  refine ⟨u, tx, ps, i, h1, h2, h3, h4, h5, h6 ?_⟩
  obtain ⟨v1, v2, _, v4⟩ := hjob.value ps h4
  have hde := ItemsProofs.decl_eq lx hl order args f d hdecl sc e g hacc
  have hnames := ItemsProofs.names_of_item sc (by rw [hde]; exact hd) hvalid (v ps) v2
  rw [hde, v1] at hnames
  rw [hnames]
  exact C71_decided _ d t d.inputStruct hbal _ (by rw [← hnames, List.length_map]; exact v4.length_eq.symm) _ _

end

/-! ## Examples -/

/-- A signatory that unlocks with a secret; it signs nothing. -/
def secretSignatory : Signatory Bytes where
  Sigs := Bytes
  downcast d := some d
  kind := .multiple [] fun _ _ sigs _ _ => some [.pushByteArray sigs true]
  placeholderSignatures := [0, 0]
  isP2sh := true

/-- A coin locked to a secret: `SHA256 <digest> EQUAL`. -/
def secretJob : Job Bytes where
  input := exampleSpendInput 2
  lock := [.code .OP_SHA256, .pushByteArray (List.replicate 32 7) true, .code .OP_EQUAL]
  signatory := secretSignatory
  sign _ := .ok [5, 6]
  size := 3

theorem secretJob_works : secretJob.Works where
  lock := ⟨_, rfl, by decide⟩
  placeholder _ := ⟨_, _, rfl, rfl, rfl⟩
  signed _ _ := ⟨[5, 6], rfl, fun _ _ => ⟨_, _, rfl, rfl, by decide⟩⟩

/-- A coin with a secret key, and the coin with the secret. -/
def mixedJobs : List (Job Bytes) :=
  [coinJob toySecp.rustEcc exampleHash ⟨5 :: List.replicate 32 0, rfl⟩ toyAddress.toScript SigHashFlags.DEFAULT some
    ⟨toyKey, exampleSpendInput 0⟩, secretJob]

theorem mixedJobs_work : ∀ job ∈ mixedJobs, job.Works := by
  intro job hjob
  simp only [mixedJobs, List.mem_cons, List.not_mem_nil, or_false] at hjob
  rcases hjob with rfl | rfl
  · exact C100_coin_works toySecp toyEcdsa toySecp.rustEcc .rust exampleHash _ toyAddress rfl _ _ _
      ⟨rfl, by decide, by decide⟩
  · exact secretJob_works

theorem toyOuts_ok : ∀ o ∈ toyOuts, o.script.Serialisable := by
  intro o ho
  simp only [toyOuts, List.mem_cons, List.not_mem_nil, or_false] at ho
  rcases ho with rfl | rfl
  · exact ⟨_, p2pkh_bytes toyAddress rfl, by decide⟩
  · exact ⟨_, p2pkh_bytes toyAddress rfl, by decide⟩

/-- `C100_spending` and `C100_coin_valid`: the mixed coins are spent, and the first input is valid. -/
example : ∃ tx, spend ⟨1, 1⟩ exampleHash 1 0 1000 mixedJobs toyOuts = .ok tx ∧
    SpendOk toyCrypto tx.wire 0 10000 (p2pkhLock toyCrypto ⟨5 :: List.replicate 32 0, rfl⟩) := by
  obtain ⟨tx, h1, h2⟩ := C100_coin_valid toySecp toyEcdsa toySecp.rustEcc toySecp.cEcc .rust .c toyCrypto
    (fun pk m sig => by simp only [toyCrypto, beq_iff_eq]) ⟨1, 1⟩ exampleHash
    (fun _ => rfl) (fun _ => ⟨List.replicate 20 7, rfl⟩) (fun x => rfl) 1 0 1000 mixedJobs toyOuts mixedJobs_work
    (by decide) (by decide) toyOuts_ok (by decide +kernel)
  obtain ⟨a, ha, _⟩ := C54_total (Prefix.str .bitcoinCash) .P2PKH ⟨List.replicate 20 7, rfl⟩
  have hj : mixedJobs[0]? = some (coinJob toySecp.rustEcc exampleHash ⟨5 :: List.replicate 32 0, rfl⟩ a.toScript
      SigHashFlags.DEFAULT some ⟨toyKey, exampleSpendInput 0⟩) := by
    obtain ⟨_, _, rfl⟩ := Option.map_eq_some_iff.mp ha
    rfl
  exact ⟨tx, h1, h2 0 ⟨toyKey, exampleSpendInput 0⟩ ⟨5 :: List.replicate 32 0, rfl⟩ (Prefix.str .bitcoinCash)
    a SigHashFlags.DEFAULT some hj rfl ha (by decide) (by decide)⟩

/-- `C100_script_valid`: the second input is valid as well. -/
example : ∃ tx, spend ⟨1, 1⟩ exampleHash 1 0 1000 mixedJobs toyOuts = .ok tx ∧
    SpendOk toyCrypto tx.wire 1 10000 (p2shLock toyCrypto (scriptBytes secretJob.lock)) := by
  obtain ⟨u, tx, _, h1, h2⟩ := C100_script_valid toyCrypto ⟨1, 1⟩ exampleHash 1 0 1000 mixedJobs toyOuts
    mixedJobs_work (by decide) (by decide) toyOuts_ok (by decide +kernel) (fun x => rfl)
  obtain ⟨ps, i, _, _, _, h3⟩ := h2 1 secretJob (fun _ => [[5, 6]]) rfl rfl (by
    intro ps sigs n outs ops _ hs ho
    cases hs
    cases ho
    refine ⟨?_, rfl⟩
    intro op hop
    rw [List.mem_singleton] at hop
    subst hop
    exact ⟨(by decide : [5, (6 : UInt8)].length < 2 ^ 32), by simp⟩)
  refine ⟨tx, h1, h3.mpr ⟨_, ⟨[.op 0xa8, .push .direct (List.replicate 32 7), .op 0x87], ?_, rfl, rfl⟩, ⟨[1], [], rfl, rfl⟩⟩⟩
  intro t ht
  simp only [List.mem_cons, List.not_mem_nil, or_false] at ht
  rcases ht with rfl | rfl | rfl <;> simp [Token.Valid]

/-- What is paid: 12000, and the change after the fee. -/
example : (match spend ⟨1, 1⟩ exampleHash 1 0 1000 mixedJobs toyOuts with
    | .ok tx => tx.outputs.map (·.value)
    | _ => []) = [12000, 7693] := by decide +kernel

/-- `C100_insufficient`: 10000 are missing. -/
example : spend ⟨1, 1⟩ exampleHash 1 0 1000 mixedJobs [.knownValue ⟨30000, toyAddress.toScript⟩] =
    .err (.insufficientInputAmount 10000) :=
  C100_insufficient ⟨1, 1⟩ exampleHash 1 0 1000 mixedJobs [.knownValue ⟨30000, toyAddress.toScript⟩]
    (by decide) (by decide)

/-- A coin whose key is none (too short). -/
def keylessJob : Job Bytes :=
  coinJob toySecp.rustEcc exampleHash ⟨5 :: List.replicate 32 0, rfl⟩ toyAddress.toScript SigHashFlags.DEFAULT some
    ⟨[1], exampleSpendInput 3⟩

/-- `C100_refused`: the error of signing is returned. -/
example : spend ⟨1, 1⟩ exampleHash 1 0 1000 (mixedJobs ++ [keylessJob]) toyOuts = .err (.invalidSize 32 1) := by
  have hk := C100_coin_works toySecp toyEcdsa toySecp.rustEcc .rust exampleHash ⟨5 :: List.replicate 32 0, rfl⟩
    toyAddress rfl SigHashFlags.DEFAULT (some : Bytes → Option Bytes) ⟨toyKey, exampleSpendInput 3⟩
    ⟨rfl, by decide, by decide⟩
  have he : keylessJob.Estimates := ⟨hk.lock, hk.placeholder⟩
  refine C100_refused ⟨1, 1⟩ exampleHash 1 0 1000 mixedJobs keylessJob [] toyOuts mixedJobs_work ?_
    (.invalidSize 32 1) ?_ (by decide) (by decide) toyOuts_ok (by decide +kernel)
  · intro job hjob
    rcases List.mem_append.mp hjob with h | h
    · exact (mixedJobs_work job h).toEstimates
    · rw [List.mem_singleton] at h
      rw [h]; exact he
  · intro ps hp
    obtain ⟨h1, h2⟩ := hp
    cases ps with
    | nil => cases h1
    | cons p rest =>
      have h3 := C14_preimage_wire_format p (code_serialisable (h2 p (by simp)) he.lock)
      unfold keylessJob coinJob
      simp only [List.head?_cons, Res.ofOption, Res.bind_ok, h3]
      rfl

section
open Spec.Macro Spec.Named Spec.Source Spec.Items Macro

/-- A signatory that unlocks with the claim of `contractFn`, given a signature. -/
def claimSignatory : Signatory Bytes := { contractSignatory with placeholderSignatures := [0, 0] }

/-- A coin locked to the contract, which is signed with the valid signature of the example. -/
def claimJob : Job Bytes where
  input := exampleSpendInput 0
  lock := contractScript
  signatory := claimSignatory
  sign _ := .ok [1, 2]
  size := 8

theorem claimJob_works : claimJob.Works where
  lock := ⟨_, rfl, by decide +kernel⟩
  placeholder _ := ⟨_, _, rfl, rfl, by decide +kernel⟩
  signed ps hp := by
    refine ⟨[1, 2], rfl, fun _ _ => ?_⟩
    cases ps with
    | nil => cases hp.1
    | cons p ps => exact ⟨_, _, rfl, rfl, by decide +kernel⟩

set_option maxRecDepth 100000 in
/-- `C100_contract_partial`: from its source, the contract is spent. -/
example : ∃ tx, spend ⟨1, 1⟩ exampleHash 1 0 1000 [claimJob] [.leftover 546 100000 0 toyAddress.toScript] = .ok tx ∧
    SpendOk exampleCrypto tx.wire 0 10000 (p2shLock exampleCrypto (scriptBytes contractScript)) := by
  obtain ⟨e, g, hacc, hes⟩ := contract_accepted
  have hjob : SpendsContract contractSource (e.map Emit.op) "Claim" ScriptInput.name claimJob (fun _ => claimValue)
      (fun _ => [[1, 2, 0x41], [5, 6], [1]]) := by
    rw [hes]
    refine ⟨rfl, rfl, fun _ _ => ⟨rfl, claim_inhabits, claim_exists,
      .cons (.bytes _) (.cons (.bytes _) (.cons .true .nil))⟩, ?_⟩
    intro ps sigs n outs hp hs
    cases hs
    refine ⟨_, rfl, ?_⟩
    cases ps with
    | nil => cases hp.1
    | cons p ps => rfl
  obtain ⟨u, tx, ps, i, _, h1, _, _, _, h2⟩ := C100_contract_partial exampleCrypto ⟨1, 1⟩ exampleHash (fun _ => rfl)
    (fun _ => rfl) exampleLex exampleLex_ok
    id (fun _ => List.Perm.refl _) htlcArgs contractFn exampleDecl contractProg contract_declares contract_says
    (by simp [contractProg, WellNested, opens, isElse, closes])
    ⟨by decide, by
      intro i hi
      simp only [exampleDecl, List.mem_cons, List.not_mem_nil, or_false] at hi
      rcases hi with rfl | rfl | rfl <;> decide +kernel, by
      intro i hi vs hvs
      simp only [exampleDecl, List.mem_cons, List.not_mem_nil, or_false] at hi
      rcases hi with rfl | rfl | rfl <;> cases hvs <;> simp [exampleDecl]⟩
    (by decide +kernel) contractSource e g hacc contract_valid
    1 0 1000 [claimJob] [.leftover 546 100000 0 toyAddress.toScript]
    (by intro job hj; rw [List.mem_singleton] at hj; rw [hj]; exact claimJob_works)
    (by decide) (by decide) (by
      intro o ho
      rw [List.mem_singleton] at ho
      rw [ho]
      exact ⟨_, p2pkh_bytes toyAddress rfl, by decide⟩) (by decide +kernel) 0 claimJob rfl
    "Claim" [[⟨"claim", true⟩]] (by decide) ScriptInput.name (fun _ => claimValue)
    (fun _ => [[1, 2, 0x41], [5, 6], [1]]) hjob 0 0x41 rfl (by decide)
  rw [hes] at h2
  obtain ⟨p, _, _, _, h3⟩ := h2 (by
    have : runScript (txEnv exampleCrypto tx.wire 0 i claimJob.input.value.toNat)
        [[⟨"claim", true⟩]] contractProg contractScript scriptBytes
          (start (claimValue.fields.map Prod.fst) [[1, 2, 0x41], [5, 6], [1]]) = .ok ⟨[⟨[1], none⟩], []⟩ := rfl
    rw [this]
    intro hc
    cases hc)
  exact ⟨tx, h1, h3.mpr ⟨⟨[1], none⟩, [], rfl, rfl⟩⟩

/-- A coin locked to the contract of `balancedFn`. -/
def balancedJob (old : Bool) : Job Bytes where
  input := exampleSpendInput 0
  lock := balancedScript
  signatory := balancedSignatory old
  sign _ := .ok [1, 2]
  size := 4

theorem balancedJob_works (old : Bool) : (balancedJob old).Works where
  lock := ⟨_, rfl, by decide +kernel⟩
  placeholder _ := by cases old <;> exact ⟨_, _, rfl, rfl, by decide +kernel⟩
  signed ps hp := by
    refine ⟨[1, 2], rfl, fun _ _ => ?_⟩
    cases ps with
    | nil => cases hp.1
    | cons p ps => cases old <;> exact ⟨_, _, rfl, rfl, by decide +kernel⟩

set_option maxRecDepth 100000 in
/-- `C100_without_variants_partial`: from its source, the coin is spent through either branch; the transaction is valid
with the first only. -/
example (old : Bool) :
    ∃ tx, spend ⟨1, 1⟩ exampleHash 1 0 1000 [balancedJob old] [.leftover 546 100000 0 toyAddress.toScript] = .ok tx ∧
    (SpendOk exampleCrypto tx.wire 0 10000 (p2shLock exampleCrypto (scriptBytes balancedScript)) ↔ old = true) := by
  obtain ⟨e, g, hacc, hes⟩ := balanced_accepted
  have hjob : SpendsContract balancedSource (e.map Emit.op) balancedDecl.inputStruct ScriptInput.name (balancedJob old)
      (fun _ => balancedValue old) (fun _ => [[7, 7], if old then [1] else []]) := by
    rw [hes]
    refine ⟨rfl, rfl, fun _ _ => ⟨rfl, .struct _ _ _ _ rfl, ?_, ?_⟩, ?_⟩
    · intro x hx
      simp only [balancedValue, List.mem_cons, List.not_mem_nil, or_false] at hx
      rcases hx with rfl | rfl
      · exact (by decide : [7, (7 : UInt8)].length < 2 ^ 32)
      · trivial
    · cases old
      · exact .cons (.bytes _) (.cons .false .nil)
      · exact .cons (.bytes _) (.cons .true .nil)
    · intro ps sigs n outs hp hs
      cases hs
      cases ps with
      | nil => cases hp.1
      | cons p ps => cases old <;> exact ⟨_, rfl, rfl⟩
  obtain ⟨u, tx, ps, i, _, h1, _, _, _, p, _, _, _, h3⟩ := C100_without_variants_partial exampleCrypto ⟨1, 1⟩
    exampleHash (fun _ => rfl) (fun _ => rfl) exampleLex exampleLex_ok
    id (fun _ => List.Perm.refl _) _ balancedFn balancedDecl balancedProg balanced_declares balanced_says
    (by simp [balancedProg, WellNested, opens, isElse, closes])
    ⟨by decide, by
      intro i hi
      simp only [balancedDecl, List.mem_cons, List.not_mem_nil, or_false] at hi
      rcases hi with rfl | rfl <;> decide +kernel, by
      intro i hi vs hvs
      simp only [balancedDecl, List.mem_cons, List.not_mem_nil, or_false] at hi
      rcases hi with rfl | rfl <;> cases hvs⟩
    (by decide +kernel) rfl (by decide +kernel) balancedSource e g hacc balanced_valid
    1 0 1000 [balancedJob old] [.leftover 546 100000 0 toyAddress.toScript]
    (by intro job hj; rw [List.mem_singleton] at hj; rw [hj]; exact balancedJob_works old)
    (by cases old <;> decide) (by cases old <;> decide) (by
      intro o ho
      rw [List.mem_singleton] at ho
      rw [ho]
      exact ⟨_, p2pkh_bytes toyAddress rfl, by decide⟩) (by cases old <;> decide +kernel) 0 (balancedJob old) rfl
    ScriptInput.name (fun _ => balancedValue old) (fun _ => [[7, 7], if old then [1] else []]) hjob 0 0x41 rfl
    (by decide)
  rw [hes] at h3
  refine ⟨tx, h1, h3.trans ?_⟩
  cases old with
  | true => exact ⟨fun _ => rfl, fun _ => ⟨⟨[1], none⟩, [], rfl, rfl⟩⟩
  | false =>
    refine ⟨?_, by simp⟩
    rintro ⟨top, alt, hx, ht⟩
    have hrun : execScript (txEnv exampleCrypto tx.wire 0 i (balancedJob false).input.value.toNat) balancedProg
        balancedScript scriptBytes (start ((balancedValue false).fields.map Prod.fst) [[7, 7], []]) =
        .ok ⟨[⟨[], none⟩], []⟩ := rfl
    change execScript _ _ _ _ (start ((balancedValue false).fields.map Prod.fst) [[7, 7], []]) = _ at hx
    rw [hrun] at hx
    cases hx
    cases ht

end

end BCash
