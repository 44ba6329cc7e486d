import Verif.Proofs.TxSize
import Verif.Props.Destination

/-! # C32–C37, C56: the transaction builder -/

namespace BCash
variable {Dyn : Type}

/-- Sum of the values of the inputs of a builder. -/
def TxBuilder.inputTotal (b : TxBuilder Dyn) : Nat := (b.inputs.map (·.input.value.toNat)).sum

/-- The outputs with a fixed value, in order. -/
def TxBuilder.fixedOutputs (b : TxBuilder Dyn) : List TxOutput :=
  b.outputs.filterMap TxBuilderOutput.known?

/-- Spec: the outputs obtained by giving leftover output `i` the amount `amt i`, or omitting it. -/
def Spec.chosenOutputs (outs : List TxBuilderOutput) (amt : Nat → Option Nat) : List TxOutput :=
  outs.zipIdx.filterMap fun x =>
    match x.1 with
    | .knownValue o => some o
    | .leftover _ _ _ script => (amt x.2).map fun v => ⟨UInt64.ofNat v, script⟩

open Spec TxBuilder

theorem makeOutputsFrom_chosen (amt : Nat → Option Nat) (k : Nat) (outs : List TxBuilderOutput) :
    makeOutputsFrom amt k outs = (outs.zipIdx k).filterMap fun x =>
      match x.1 with
      | .knownValue o => some o
      | .leftover _ _ _ script => (amt x.2).map fun v => ⟨UInt64.ofNat v, script⟩ := by
  induction outs generalizing k with
  | nil => rfl
  | cons o rest ih =>
    cases o with
    | knownValue o => simp [makeOutputsFrom, ih]
    | leftover l u p s =>
      simp only [makeOutputsFrom, ih, List.zipIdx_cons, List.filterMap_cons]
      cases amt k <;> rfl

theorem makeOutputs_chosen (b : TxBuilder Dyn) (amt : Nat → Option Nat) :
    b.makeOutputs amt = chosenOutputs b.outputs amt := makeOutputsFrom_chosen amt 0 b.outputs

theorem inputSum_total {b : TxBuilder Dyn} {n : Nat} (h : b.inputSum = some n) :
    n = b.inputTotal ∧ n < 2 ^ 64 := by
  have := sumU64_some h
  rw [List.map_map] at this
  exact this

theorem knownSum_fixed (b : TxBuilder Dyn) :
    ((b.outputs.map (·.getValue)).map UInt64.toNat).sum = outputSum b.fixedOutputs := by
  unfold fixedOutputs outputSum
  generalize b.outputs = outs
  induction outs with
  | nil => rfl
  | cons o rest ih => cases o <;> simp only [List.map_cons, List.sum_cons, ih, List.filterMap_cons] <;>
      simp [TxBuilderOutput.getValue, TxBuilderOutput.known?]

theorem knownOutputSum_fixed {b : TxBuilder Dyn} {n : Nat} (h : b.knownOutputSum = some n) :
    n = outputSum b.fixedOutputs := by
  rw [← knownSum_fixed]; exact (sumU64_some h).1

theorem Inv.amount_lt {sz : Layout} {b : TxBuilder Dyn} {inputs : Nat} {st : BuildState}
    (hi : Inv sz b inputs st) (i v : Nat) (h : st.amounts i = some v) : v < 2 ^ 64 := by
  obtain ⟨l, u, p, s, _, _, h⟩ := hi.bounds i v h
  have := u.toNat_lt
  omega

/-! ## C32 -/

/-- **C32** (conservation): a built transaction never spends more than its inputs. -/
theorem C32_conservation (sz : Layout) (H : Bytes → Hash256) (b : TxBuilder Dyn) (u : UnsignedTx Dyn)
    (h : b.build sz H = .ok u) : outputSum u.outputs ≤ b.inputTotal := by
  obtain ⟨known, inputs, st, pre, hk, hin, hle, hloop, inv, hest, hpre, hu⟩ := build_ok h
  rw [hu]
  dsimp only [makeOutputs]
  rw [outputSum_make (fun i v hv => Inv.amount_lt inv i v hv), ← (inputSum_total hin).1]
  have := inv.sum
  omega

/-- **C32** (insufficient inputs): when the fixed outputs exceed the inputs (and neither sum exceeds
64 bits), building fails and reports exactly the missing amount; it is the only error. -/
theorem C32_insufficient (sz : Layout) (H : Bytes → Hash256) (b : TxBuilder Dyn)
    (hin : b.inputTotal < 2 ^ 64) (hout : outputSum b.fixedOutputs < 2 ^ 64) :
    (outputSum b.fixedOutputs > b.inputTotal →
      b.build sz H = .err (.insufficientInputAmount (outputSum b.fixedOutputs - b.inputTotal))) ∧
    (∀ e, b.build sz H = .err e → outputSum b.fixedOutputs > b.inputTotal) := by
  have h1 : b.inputSum = some b.inputTotal := by
    unfold inputSum sumU64
    rw [List.map_map]
    exact if_pos hin
  have h2 : b.knownOutputSum = some (outputSum b.fixedOutputs) := by
    unfold knownOutputSum sumU64
    dsimp only
    rw [knownSum_fixed, if_pos hout]
  unfold build
  rw [h1, h2]
  constructor
  · intro hgt
    simp only [Res.ofOption, Res.bind_ok]
    rw [if_pos hgt]
  · intro e he
    obtain ⟨_, h1', he⟩ := Res.ofOption_bind_err he
    obtain ⟨_, h2', he⟩ := Res.ofOption_bind_err he
    cases h1'; cases h2'
    by_cases hgt : outputSum b.fixedOutputs > b.inputTotal
    · exact hgt
    · rw [if_neg hgt] at he
      obtain ⟨_, _, he⟩ := Res.ofOption_bind_err he
      obtain ⟨_, _, he⟩ := Res.ofOption_bind_err he
      obtain ⟨_, _, he⟩ := Res.ofOption_bind_err he
      cases he

/-! ## C33, C35 -/

/-- **C33**: every leftover output is either omitted or included with a value above its lower bound
and at most its upper bound; nothing else is in the transaction. -/
theorem C33_bounds (sz : Layout) (H : Bytes → Hash256) (b : TxBuilder Dyn) (u : UnsignedTx Dyn)
    (h : b.build sz H = .ok u) :
    ∃ amt : Nat → Option Nat, u.outputs = chosenOutputs b.outputs amt ∧
      ∀ i lower upper prec script, b.outputs[i]? = some (.leftover lower upper prec script) →
        ∀ v, amt i = some v → lower.toNat < v ∧ v ≤ upper.toNat := by
  obtain ⟨known, inputs, st, pre, hk, hin, hle, hloop, inv, hest, hpre, hu⟩ := build_ok h
  refine ⟨st.amounts, by rw [hu, ← makeOutputs_chosen], ?_⟩
  intro i lower upper prec script ho v hv
  obtain ⟨l, u', p, s, ho', h1, h2⟩ := inv.bounds i v hv
  rw [ho] at ho'
  cases ho'
  exact ⟨h1, h2⟩

theorem fixed_sublist (outs : List TxBuilderOutput) (amt : Nat → Option Nat) (k : Nat) :
    (outs.filterMap TxBuilderOutput.known?).Sublist (makeOutputsFrom amt k outs) := by
  induction outs generalizing k with
  | nil => exact List.Sublist.refl _
  | cons o rest ih =>
    cases o with
    | knownValue o => exact (ih (k + 1)).cons_cons o
    | leftover l u p s =>
      simp only [makeOutputsFrom]
      cases amt k with
      | none => exact ih (k + 1)
      | some v => exact (ih (k + 1)).cons _

/-- The script of an output to be built. -/
def TxBuilderOutput.script : TxBuilderOutput → Script
  | .knownValue o => o.script
  | .leftover _ _ _ s => s

theorem scripts_sublist (outs : List TxBuilderOutput) (amt : Nat → Option Nat) (k : Nat) :
    ((makeOutputsFrom amt k outs).map (·.script)).Sublist (outs.map (·.script)) := by
  induction outs generalizing k with
  | nil => exact List.Sublist.refl _
  | cons o rest ih =>
    cases o with
    | knownValue o => exact (ih (k + 1)).cons_cons _
    | leftover l u p s =>
      simp only [makeOutputsFrom]
      cases amt k with
      | none => exact (ih (k + 1)).cons _
      | some v => exact (ih (k + 1)).cons_cons _

/-- **C35**: the fixed outputs appear unchanged and in order, and the scripts of all outputs appear in
the order in which they were added. -/
theorem C35_order (sz : Layout) (H : Bytes → Hash256) (b : TxBuilder Dyn) (u : UnsignedTx Dyn)
    (h : b.build sz H = .ok u) :
    b.fixedOutputs.Sublist u.outputs ∧
    (u.outputs.map (·.script)).Sublist (b.outputs.map (·.script)) := by
  obtain ⟨known, inputs, st, pre, hk, hin, hle, hloop, inv, hest, hpre, hu⟩ := build_ok h
  rw [hu]
  exact ⟨fixed_sublist _ _ _, scripts_sublist _ _ _⟩

/-- **C35** (without leftovers): the outputs are exactly the fixed outputs, both when building with
and when building without estimation. -/
theorem C35_no_leftovers (sz : Layout) (H : Bytes → Hash256) (b : TxBuilder Dyn) (u : UnsignedTx Dyn)
    (outs : List TxOutput) (ho : b.outputs = outs.map .knownValue)
    (h : b.build sz H = .ok u ∨ b.buildWithoutEstimation sz H = .ok u) : u.outputs = outs := by
  have key : ∀ (outs : List TxOutput) amt k, makeOutputsFrom amt k (outs.map .knownValue) = outs := by
    intro outs amt
    induction outs with
    | nil => intro k; rfl
    | cons o rest ih => intro k; simp [makeOutputsFrom, ih]
  rcases h with h | h
  · obtain ⟨known, inputs, st, pre, hk, hin, hle, hloop, inv, hest, hpre, hu⟩ := build_ok h
    rw [hu]
    simp only [makeOutputs, ho, key]
  · unfold buildWithoutEstimation at h
    rw [ho] at h
    have : (outs.map TxBuilderOutput.knownValue).mapM TxBuilderOutput.known? = some outs := by
      rw [List.mapM_map]
      clear ho h
      induction outs with
      | nil => rfl
      | cons o rest ih => simp [List.mapM_cons, ih, TxBuilderOutput.known?]
    rw [this] at h
    simp only [Res.bind_eq_ok, Res.ofOption_eq_ok] at h
    obtain ⟨_, _, _, _, h⟩ := h
    injection h with h
    rw [← h]

/-- **C35** (building without estimation) fails exactly when there is a leftover output. -/
theorem C35_without_estimation_err (sz : Layout) (H : Bytes → Hash256) (b : TxBuilder Dyn) :
    (∃ e, b.buildWithoutEstimation sz H = .err e) ↔
      ∃ l u p s, TxBuilderOutput.leftover l u p s ∈ b.outputs := by
  have key : ∀ outs : List TxBuilderOutput, outs.mapM TxBuilderOutput.known? = none ↔ ∃ l u p s, TxBuilderOutput.leftover l u p s ∈ outs := by
    intro outs
    induction outs with
    | nil => simp
    | cons o rest ih =>
      cases o with
      | knownValue o =>
        rw [List.mapM_cons]
        simp only [TxBuilderOutput.known?, Option.pure_def, Option.bind_eq_bind, Option.bind_some,
          List.mem_cons, reduceCtorEq, false_or]
        rw [← ih, Option.bind_eq_none_iff]
        constructor
        · intro h
          cases hm : rest.mapM TxBuilderOutput.known? with
          | none => rfl
          | some r => exact absurd (h r hm) (by simp)
        · intro h a ha; rw [h] at ha; cases ha
      | leftover l u p s =>
        rw [List.mapM_cons]
        simp only [TxBuilderOutput.known?, Option.bind_eq_bind, Option.bind_none, true_iff]
        exact ⟨l, u, p, s, List.mem_cons_self⟩
  rw [← key]
  unfold buildWithoutEstimation
  constructor
  · rintro ⟨e, he⟩
    split at he
    · assumption
    · exfalso
      obtain ⟨_, _, he⟩ := Res.ofOption_bind_err he
      obtain ⟨_, _, he⟩ := Res.ofOption_bind_err he
      cases he
  · intro h
    rw [h]
    exact ⟨_, rfl⟩

/-! ## C34 -/

theorem makeOutputsFrom_none (outs : List TxBuilderOutput) (k : Nat) (amt : Nat → Option Nat)
    (h : ∀ i, amt i = none) : makeOutputsFrom amt k outs = outs.filterMap TxBuilderOutput.known? := by
  induction outs generalizing k with
  | nil => rfl
  | cons o rest ih =>
    cases o with
    | knownValue o => simp [makeOutputsFrom, ih, TxBuilderOutput.known?]
    | leftover l u p s => simp only [makeOutputsFrom, ih, h]; rw [List.filterMap_cons_none rfl]

/-- **C34**, the part that holds: whenever at least one leftover output is included (the transaction
has more outputs than there are fixed ones), the difference between inputs and outputs is at least the
fee rate times the estimated size. -/
theorem C34_fee_paid_partial (sz : Layout) (H : Bytes → Hash256) (b : TxBuilder Dyn)
    (u : UnsignedTx Dyn) (h : b.build sz H = .ok u) (hinc : b.fixedOutputs.length < u.outputs.length) :
    outputSum u.outputs + u.estimatedSize * b.feePerKb.toNat / 1000 ≤ b.inputTotal := by
  obtain ⟨known, inputs, st, pre, hk, hin, hle, hloop, inv, hest, hpre, hu⟩ := build_ok h
  have ho : u.outputs = b.makeOutputs st.amounts := by rw [hu]
  rw [ho, makeOutputs] at hinc ⊢
  rw [outputSum_make (fun i v hv => Inv.amount_lt inv i v hv), ← (inputSum_total hin).1]
  cases hs : st.estimated with
  | none =>
    exfalso
    rw [makeOutputsFrom_none _ _ _ (inv.none hs)] at hinc
    exact absurd hinc (Nat.lt_irrefl _)
  | some s =>
    rw [hs] at hest
    dsimp only at hest
    injection hest with hest
    have h1 := inv.fee s hs
    have h2 := inv.sum
    rw [hest] at h1
    omega

/-- A transaction spending one output of 1000 units. -/
def feelessTx : UnhashedTx :=
  ⟨1, [⟨⟨Hash256.zero, 0⟩, [.code .OP_1], 0xffffffff, none, some 1000, none, none⟩],
   [⟨999, [.code .OP_1]⟩], 0⟩

set_option maxRecDepth 100000 in
/-- **C34 fails** without an included leftover output: no fee is required then, even if a leftover
output (here: a change output, which would be dust) was requested. -/
theorem C34_fee_fails (sz : Layout) (H : Bytes → Hash256) :
    ∃ u, ((fromTx feelessTx : TxBuilder Dyn).addLeftoverOutput [.code .OP_1]).build sz H = .ok u ∧
      u.estimatedSize = 62 ∧ outputSum u.outputs = 999 ∧
      ((fromTx feelessTx : TxBuilder Dyn).addLeftoverOutput [.code .OP_1]).feePerKb = 1000 ∧
      ((fromTx feelessTx : TxBuilder Dyn).addLeftoverOutput [.code .OP_1]).inputTotal = 1000 :=
  ⟨_, rfl, rfl, rfl, rfl, rfl⟩

/-! ## C36 -/

theorem leftoverIndices_single (pre post : List TxOutput) (l u : UInt64) (p : Int32) (s : Script)
    (k : Nat) : leftoverIndices k (pre.map .knownValue ++ .leftover l u p s :: post.map .knownValue) =
      [(k + pre.length, p.toInt)] := by
  induction pre generalizing k with
  | nil =>
    have : ∀ (post : List TxOutput) k, leftoverIndices k (post.map .knownValue) = [] := by
      intro post
      induction post with
      | nil => intro k; rfl
      | cons o rest ih => intro k; exact ih (k + 1)
    simp [leftoverIndices, this]
  | cons o rest ih =>
    simp only [List.map_cons, List.cons_append, leftoverIndices, ih, List.length_cons]
    rw [show k + 1 + rest.length = k + (rest.length + 1) by omega]

theorem makeOutputsFrom_single (pre post : List TxOutput) (l u : UInt64) (p : Int32) (s : Script)
    (k : Nat) (amt : Nat → Option Nat) :
    makeOutputsFrom amt k (pre.map .knownValue ++ .leftover l u p s :: post.map .knownValue) =
      pre ++ ((amt (k + pre.length)).map fun v => (⟨UInt64.ofNat v, s⟩ : TxOutput)).toList ++ post := by
  induction pre generalizing k with
  | nil =>
    have : ∀ (post : List TxOutput) k, makeOutputsFrom amt k (post.map .knownValue) = post := by
      intro post
      induction post with
      | nil => intro k; rfl
      | cons o rest ih => intro k; simp [makeOutputsFrom, ih]
    simp only [List.map_nil, List.nil_append, makeOutputsFrom, this, List.length_nil, Nat.add_zero]
    cases amt k <;> rfl
  | cons o rest ih =>
    simp only [List.map_cons, List.cons_append, makeOutputsFrom, ih, List.length_cons]
    rw [show k + 1 + rest.length = k + (rest.length + 1) by omega]

theorem outputSum_append (a b : List TxOutput) : outputSum (a ++ b) = outputSum a + outputSum b := by
  simp [outputSum]

/-- **C36**: with a single leftover output without upper bound, that output either receives exactly
what inputs minus fixed outputs leave after the fee for the estimated size (more than its lower
bound), or it is omitted, and then paying for it would not have left more than its lower bound. -/
theorem C36_single_leftover (sz : Layout) (H : Bytes → Hash256) (b : TxBuilder Dyn)
    (u : UnsignedTx Dyn) (pre post : List TxOutput) (lower : UInt64) (p : Int32) (script : Script)
    (ho : b.outputs = pre.map .knownValue ++
      .leftover lower (UInt64.ofNat (2 ^ 64 - 1)) p script :: post.map .knownValue)
    (h : b.build sz H = .ok u) :
    (∃ v : UInt64, u.outputs = pre ++ ⟨v, script⟩ :: post ∧ lower < v ∧
      outputSum pre + v.toNat + outputSum post + u.estimatedSize * b.feePerKb.toNat / 1000 =
        b.inputTotal) ∨
    (u.outputs = pre ++ post ∧ ∀ size, b.estimateSize sz (pre ++
        ⟨UInt64.ofNat (b.inputTotal - outputSum pre - outputSum post), script⟩ :: post) = some size →
      b.inputTotal ≤ outputSum pre + outputSum post + lower.toNat + size * b.feePerKb.toNat / 1000) := by
  obtain ⟨known, inputs, st, preim, hk, hin, hle, hloop, inv, hest, hpre, hu⟩ := build_ok h
  have hout : u.outputs = b.makeOutputs st.amounts := by rw [hu]
  have hidx : b.outputs[pre.length]? = some (.leftover lower (UInt64.ofNat (2 ^ 64 - 1)) p script) := by
    rw [ho, List.getElem?_append_right (by simp)]; simp
  have hmax : (UInt64.ofNat (2 ^ 64 - 1)).toNat = 2 ^ 64 - 1 := rfl
  have hknown : known = outputSum pre + outputSum post := by
    have hn : ∀ l : List TxOutput, (l.map TxBuilderOutput.knownValue).filterMap
        TxBuilderOutput.known? = l := by
      intro l; induction l with
      | nil => rfl
      | cons o rest ih => simp only [List.map_cons, List.filterMap_cons, TxBuilderOutput.known?, ih]
    rw [knownOutputSum_fixed hk, fixedOutputs, ho, List.filterMap_append, List.filterMap_cons, hn, hn,
      ← outputSum_append]
    rfl
  obtain ⟨htot, hlt⟩ := inputSum_total hin
  rw [ho, leftoverIndices_single, Nat.zero_add] at hloop
  simp only [sortByKey, insertByKey, buildLoop, Option.bind_eq_some_iff] at hloop
  obtain ⟨st', hstep, hst⟩ := hloop
  injection hst with hst
  subst hst
  have hex := buildStep_exact hidx rfl hstep
  dsimp only at hex
  rw [hmax] at hex
  have hmk : ∀ amt, b.makeOutputs amt =
      pre ++ ((amt pre.length).map fun v => (⟨UInt64.ofNat v, script⟩ : TxOutput)).toList ++ post := by
    intro amt
    rw [makeOutputs, ho, makeOutputsFrom_single, Nat.zero_add]
  rw [hout, hmk]
  rcases buildStep_cases rfl hstep with e | ⟨l, up, p', s', size, ho', hsize, hfee, hl, e⟩
  · right
    rw [e]
    dsimp only
    refine ⟨by simp, ?_⟩
    intro size hsize
    by_cases hlow : inputs - known ≤ lower.toNat
    · omega
    · obtain ⟨size', hsize', ham⟩ := hex.2 (by omega)
      rw [e] at ham
      rw [hmk] at hsize'
      simp only [setAmount, if_true, Option.map_some, Option.toList_some, List.append_assoc,
        List.cons_append, List.nil_append] at hsize'
      rw [Nat.min_eq_left (by omega), show inputs - known =
        b.inputTotal - outputSum pre - outputSum post by omega, hsize] at hsize'
      cases hsize'
      dsimp only at ham
      split at ham
      · cases ham
      · omega
  · left
    rw [hidx] at ho'
    cases ho'
    rw [hmax] at hl e
    dsimp only at hfee hl e
    rw [Nat.min_eq_left (by omega)] at hl e
    rw [e] at hest ⊢
    dsimp only at hest
    injection hest with hest
    simp only [setAmount, if_true, Option.map_some, Option.toList_some]
    have hv : (UInt64.ofNat (inputs - known - size * b.feePerKb.toNat / 1000)).toNat =
        inputs - known - size * b.feePerKb.toNat / 1000 := by
      rw [UInt64.toNat_ofNat', Nat.mod_eq_of_lt (by omega)]
    refine ⟨UInt64.ofNat (inputs - known - size * b.feePerKb.toNat / 1000),
      by simp only [List.append_assoc, List.cons_append, List.nil_append], ?_, ?_⟩
    · rw [UInt64.lt_iff_toNat_lt, hv]; exact hl
    · rw [hv, ← hest]; omega

/-! ## C56: the greedy rule -/

/-- Leftover output `j` (precedence `q`) is served before leftover output `i` (precedence `p`): lower
precedence number first, ties in the order of addition. -/
def Spec.ServedFirst (outs : List TxBuilderOutput) (j i : Nat) : Prop :=
  ∃ lj uj q sj li ui p si, outs[j]? = some (.leftover lj uj q sj) ∧
    outs[i]? = some (.leftover li ui p si) ∧ (q.toInt < p.toInt ∨ q = p ∧ j < i)

open Classical in
/-- **C56**: leftover outputs are served greedily in order of precedence (ties in the order of
addition). The amount of leftover output `i` depends only on those served before it: out of what
remains after the fixed outputs and the amounts of those, it receives what is left after the fee for
the transaction consisting of the fixed outputs, those and itself, capped at its upper bound, if that
exceeds its lower bound; otherwise it is omitted. -/
theorem C56_greedy (sz : Layout) (H : Bytes → Hash256) (b : TxBuilder Dyn) (u : UnsignedTx Dyn)
    (h : b.build sz H = .ok u) :
    ∃ amt : Nat → Option Nat, u.outputs = chosenOutputs b.outputs amt ∧
      ∀ i lower upper prec script, b.outputs[i]? = some (.leftover lower upper prec script) →
        let served : Nat → Option Nat := fun j => if ServedFirst b.outputs j i then amt j else none
        let avail := b.inputTotal - outputSum (chosenOutputs b.outputs served)
        (avail ≤ lower.toNat → amt i = none) ∧
        (lower.toNat < avail → ∃ size,
          b.estimateSize sz (chosenOutputs b.outputs
            (fun j => if j = i then some (min avail upper.toNat) else served j)) = some size ∧
          amt i = (let v := min (avail - size * b.feePerKb.toNat / 1000) upper.toNat
                   if lower.toNat < v then some v else none)) := by
  obtain ⟨known, inputs, st, preim, hk, hin, hle, hloop, inv, hest, hpre, hu⟩ := build_ok h
  refine ⟨st.amounts, by rw [hu, ← makeOutputs_chosen], ?_⟩
  intro i lower upper prec script ho
  have hmem : (i, prec.toInt) ∈ sortByKey (leftoverIndices 0 b.outputs) := by
    have := leftoverIndices_complete (k := 0) ho
    rw [Nat.zero_add] at this
    exact (sortByKey_perm _).mem_iff.mpr this
  obtain ⟨before, after, hsplit⟩ := List.append_of_mem hmem
  have hnd := order_nodup b.outputs
  have hpw := sortByKey_pairwise _ (leftoverIndices_lt 0 b.outputs)
  rw [hsplit] at hloop hnd hpw
  have hbefore_mem : ∀ x ∈ before, x ∈ leftoverIndices 0 b.outputs := fun x hx =>
    (sortByKey_perm _).mem_iff.mp (by rw [hsplit]; exact List.mem_append_left _ hx)
  have hafter_mem : ∀ x ∈ after, x ∈ leftoverIndices 0 b.outputs := fun x hx =>
    (sortByKey_perm _).mem_iff.mp (by
      rw [hsplit]; exact List.mem_append_right _ (List.mem_cons_of_mem _ hx))
  obtain ⟨mid, hmid, hrest⟩ := buildLoop_append before _ hloop
  simp only [buildLoop, Option.bind_eq_some_iff] at hrest
  obtain ⟨st1, hstep, hend⟩ := hrest
  rw [List.map_append, List.map_cons, List.nodup_append] at hnd
  obtain ⟨hndb, hndc, hdisj⟩ := hnd
  rw [List.nodup_cons] at hndc
  have hsum := (sumU64_some hk).1
  have inv0 : Inv sz b inputs ⟨inputs - known, fun _ => none, none⟩ := by
    refine ⟨?_, ?_, ?_, ?_, fun _ _ => rfl⟩
    · dsimp only
      rw [allocSum_none, ← hsum]
      omega
    · intro i v hv; cases hv
    · intro s hs; cases hs
    · intro s hs; cases hs
  obtain ⟨invm, hsame0⟩ := Inv.loop before inv0 hndb (fun _ _ => rfl) hmid
  have hi_nb : i ∉ before.map (·.1) := by
    intro hc
    exact hdisj i hc i List.mem_cons_self rfl
  have hmi : mid.amounts i = none := hsame0 i hi_nb
  obtain ⟨inv1, hsame1⟩ := invm.step hmi hstep
  have hafter_none : ∀ x ∈ after, st1.amounts x.1 = none := by
    intro x hx
    have hxi : x.1 ≠ i := by
      intro e; exact hndc.1 (e ▸ List.mem_map_of_mem (f := (·.1)) hx)
    rw [hsame1 _ hxi]
    apply hsame0
    intro hc
    exact hdisj _ hc _ (List.mem_cons_of_mem _ (List.mem_map_of_mem hx)) rfl
  obtain ⟨_, hsame2⟩ := Inv.loop after inv1 hndc.2 hafter_none hend
  -- the amounts seen at `i`'s turn
  have hserved : (fun j => if ServedFirst b.outputs j i then st.amounts j else none) = mid.amounts := by
    funext j
    by_cases hj : j ∈ before.map (·.1)
    · obtain ⟨x, hx, rfl⟩ := List.mem_map.mp hj
      have hlt := (List.pairwise_append.mp hpw).2.2 x hx _ List.mem_cons_self
      obtain ⟨_, l', u', p', s', ho', hp'⟩ := leftoverIndices_mem (hbefore_mem x hx)
      rw [Nat.sub_zero] at ho'
      have hs : ServedFirst b.outputs x.1 i := by
        refine ⟨l', u', p', s', lower, upper, prec, script, ho', ho, ?_⟩
        rcases hlt with hlt | ⟨h1, h2⟩
        · left; rw [← hp']; exact hlt
        · right; exact ⟨Int32.toInt_inj.mp (by rw [← hp']; exact h1), h2⟩
      rw [if_pos hs]
      have hxi : x.1 ≠ i := by
        intro e; exact hi_nb (e ▸ hj)
      rw [hsame2, hsame1 _ hxi]
      intro hc
      exact hdisj _ hj _ (List.mem_cons_of_mem _ hc) rfl
    · rw [hsame0 j hj]
      by_cases hs : ServedFirst b.outputs j i
      · exfalso
        obtain ⟨lj, uj, q, sj, li, ui, p, si, hoj, hoi, hlt⟩ := hs
        rw [ho] at hoi
        cases hoi
        have hjm : (j, q.toInt) ∈ sortByKey (leftoverIndices 0 b.outputs) := by
          have := leftoverIndices_complete (k := 0) hoj
          rw [Nat.zero_add] at this
          exact (sortByKey_perm _).mem_iff.mpr this
        rw [hsplit, List.mem_append, List.mem_cons] at hjm
        rcases hjm with hm | hm | hm
        · exact hj (List.mem_map_of_mem (f := (·.1)) hm)
        · injection hm with e1 e2
          subst e1
          rcases hlt with hlt | ⟨_, hlt⟩ <;> omega
        · have hlt' := (List.pairwise_cons.mp (List.pairwise_append.mp hpw).2.1).1 _ hm
          unfold ServedBefore at hlt'
          dsimp only at hlt'
          rcases hlt with hlt | ⟨rfl, hlt⟩ <;> omega
      · rw [if_neg hs]
  have hfinal : st.amounts i = st1.amounts i := hsame2 i hndc.1
  have hchosen : ∀ amt, chosenOutputs b.outputs amt = b.makeOutputs amt := fun amt =>
    (makeOutputs_chosen b amt).symm
  have havail : b.inputTotal - outputSum (b.makeOutputs mid.amounts) = mid.total := by
    rw [makeOutputs, outputSum_make (fun i v hv => Inv.amount_lt invm i v hv),
      ← (inputSum_total hin).1]
    have := invm.sum
    omega
  intro served avail
  have e1 : served = mid.amounts := hserved
  have e2 : avail = mid.total := by
    show b.inputTotal - outputSum (chosenOutputs b.outputs served) = mid.total
    rw [e1, hchosen]; exact havail
  clear_value avail
  clear_value served
  subst e1 e2
  rw [hfinal]
  obtain ⟨r1, r2⟩ := buildStep_exact ho hmi hstep
  refine ⟨r1, fun hlt => ?_⟩
  obtain ⟨size, hsize, r3⟩ := r2 hlt
  exact ⟨size, by rw [hchosen]; exact hsize, r3⟩

/-- An input of 10000, a fixed output of 2000, a leftover output for the rest (precedence 1) and a
leftover output between 1000 and 3000 (precedence 0, served first). -/
def exampleBuilder : TxBuilder Dyn :=
  (((fromTx { feelessTx with
        inputs := [⟨⟨Hash256.zero, 0⟩, [.code .OP_1], 0xffffffff, none, some 10000, none, none⟩]
        outputs := [] }).addLeftoverOutputBounded 546 0xffffffffffffffff 1 [.code .OP_2]).addOutput
    ⟨2000, [.code .OP_3]⟩).addLeftoverOutputBounded 1000 3000 0 [.code .OP_4]

/-- What a build yields: estimated size and outputs. -/
def buildSummary (b : TxBuilder Unit) : Option (Nat × List TxOutput) :=
  match b.build ⟨1, 1⟩ (fun _ => Hash256.zero) with
  | .ok u => some (u.estimatedSize, u.outputs)
  | _ => none

/-- The second leftover output gets its maximum, the first one the rest minus the fee of 82. -/
example : buildSummary exampleBuilder =
      some (82, [⟨4918, [.code .OP_2]⟩, ⟨2000, [.code .OP_3]⟩, ⟨3000, [.code .OP_4]⟩]) ∧
    (exampleBuilder : TxBuilder Unit).fixedOutputs = [⟨2000, [.code .OP_3]⟩] := by
  decide +kernel

/-- One unbounded leftover output (C36): included with 10000 - 999 - 72 when there is room, omitted in
`C34_fee_fails`. -/
example : buildSummary ((fromTx { feelessTx with
        inputs := [⟨⟨Hash256.zero, 0⟩, [.code .OP_1], 0xffffffff, none, some 10000, none, none⟩] } :
        TxBuilder Unit).addLeftoverOutput [.code .OP_2]) =
      some (72, [⟨999, [.code .OP_1]⟩, ⟨8929, [.code .OP_2]⟩]) := by
  decide +kernel

/-- Fixed outputs above the inputs (C32). -/
example : outputSum ((fromTx feelessTx : TxBuilder Unit).addOutput ⟨500, []⟩).fixedOutputs = 1499 ∧
    ((fromTx feelessTx : TxBuilder Unit).addOutput ⟨500, []⟩).inputTotal = 1000 := by
  decide +kernel

/-! ### The theorems applied to these transactions -/

/-- A result that is checked to be a success is one. -/
theorem Res.exists_ok {ε α : Type} {x : Res ε α} (h : (match x with | .ok _ => true | _ => false) = true) :
    ∃ a, x = .ok a := by
  cases x with
  | ok a => exact ⟨a, rfl⟩
  | err e => cases h
  | panic => cases h

/-- The builder with two leftover outputs builds, and `C32` to `C35` and `C56` apply. -/
example : ∃ u, (exampleBuilder : TxBuilder Unit).build ⟨1, 1⟩ (fun _ => Hash256.zero) = .ok u ∧
    outputSum u.outputs ≤ 10000 ∧ outputSum u.outputs + u.estimatedSize * 1000 / 1000 ≤ 10000 ∧
    [⟨2000, [.code .OP_3]⟩].Sublist u.outputs ∧
    (u.outputs.map (·.script)).Sublist [[.code .OP_2], [.code .OP_3], [.code .OP_4]] ∧
    (∃ amt, u.outputs = chosenOutputs (exampleBuilder : TxBuilder Unit).outputs amt ∧ ∀ v, amt 2 = some v → 1000 < v ∧ v ≤ 3000) := by
  obtain ⟨u, hu⟩ : ∃ u, (exampleBuilder : TxBuilder Unit).build ⟨1, 1⟩ (fun _ => Hash256.zero) = .ok u :=
    Res.exists_ok (by decide +kernel)
  have hs : u.outputs.length = 3 := by
    have h3 : (buildSummary exampleBuilder).map (·.2.length) = some 3 := by decide +kernel
    rw [buildSummary, hu] at h3
    exact Option.some.inj h3
  obtain ⟨amt, ha, hb⟩ := C33_bounds _ _ _ u hu
  have hg := C56_greedy _ _ _ u hu
  refine ⟨u, hu, C32_conservation _ _ _ u hu, C34_fee_paid_partial _ _ _ u hu ?_, (C35_order _ _ _ u hu).1,
    (C35_order _ _ _ u hu).2, amt, ha, fun v hv => hb 2 1000 3000 0 _ rfl v hv⟩
  rw [hs]
  exact (by decide : 1 < 3)

/-- `C32_insufficient`: fixed outputs of 1499 from an input of 1000 lack 499. -/
example (sz : Layout) (H : Bytes → Hash256) :
    ((fromTx feelessTx : TxBuilder Unit).addOutput ⟨500, []⟩).build sz H =
      .err (.insufficientInputAmount 499) :=
  (C32_insufficient sz H ((fromTx feelessTx : TxBuilder Unit).addOutput ⟨500, []⟩) (by decide +kernel)
    (by decide +kernel)).1 (by decide +kernel)

/-- `C35_no_leftovers` and `C35_without_estimation_err`: without leftover outputs building without estimation gives
the outputs added; with one it is refused. -/
example : (∃ u, (fromTx feelessTx : TxBuilder Unit).buildWithoutEstimation ⟨1, 1⟩ (fun _ => Hash256.zero) = .ok u ∧
      u.outputs = feelessTx.outputs) ∧
    ∃ e, (exampleBuilder : TxBuilder Unit).buildWithoutEstimation ⟨1, 1⟩ (fun _ => Hash256.zero) = .err e := by
  obtain ⟨u, hu⟩ : ∃ u, (fromTx feelessTx : TxBuilder Unit).buildWithoutEstimation ⟨1, 1⟩
      (fun _ => Hash256.zero) = .ok u := Res.exists_ok (by decide +kernel)
  exact ⟨⟨u, hu, C35_no_leftovers _ _ _ u _ rfl (.inr hu)⟩,
    (C35_without_estimation_err _ _ _).mpr ⟨_, _, _, _, List.mem_of_getElem? (i := 0) rfl⟩⟩

/-- `C36_single_leftover`: an input of 10000, a fixed output of 999 and one leftover output. -/
example : ∃ u, ((fromTx { feelessTx with
      inputs := [⟨⟨Hash256.zero, 0⟩, [.code .OP_1], 0xffffffff, none, some 10000, none, none⟩] } :
      TxBuilder Unit).addLeftoverOutput [.code .OP_2]).build ⟨1, 1⟩ (fun _ => Hash256.zero) = .ok u ∧
    ∃ v : UInt64, u.outputs = [⟨999, [.code .OP_1]⟩, ⟨v, [.code .OP_2]⟩] ∧ DUST_AMOUNT < v ∧
      999 + v.toNat + u.estimatedSize * 1000 / 1000 = 10000 := by
  obtain ⟨u, hu⟩ : ∃ u, ((fromTx { feelessTx with
      inputs := [⟨⟨Hash256.zero, 0⟩, [.code .OP_1], 0xffffffff, none, some 10000, none, none⟩] } :
      TxBuilder Unit).addLeftoverOutput [.code .OP_2]).build ⟨1, 1⟩ (fun _ => Hash256.zero) = .ok u :=
    Res.exists_ok (by decide +kernel)
  refine ⟨u, hu, ?_⟩
  have hlen : u.outputs.length = 2 := by
    have h2 : (buildSummary ((fromTx { feelessTx with
      inputs := [⟨⟨Hash256.zero, 0⟩, [.code .OP_1], 0xffffffff, none, some 10000, none, none⟩] } :
      TxBuilder Unit).addLeftoverOutput [.code .OP_2])).map (·.2.length) = some 2 := by decide +kernel
    rw [buildSummary, hu] at h2
    exact Option.some.inj h2
  rcases C36_single_leftover _ _ _ u [⟨999, [.code .OP_1]⟩] [] DUST_AMOUNT 0 [.code .OP_2] rfl hu with
    ⟨v, h1, h2, h3⟩ | ⟨h1, -⟩
  · exact ⟨v, h1, h2, h3⟩
  · rw [h1] at hlen
    cases hlen

end BCash
