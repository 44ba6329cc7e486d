import Verif.Model.TxBuilder

/-! # Lemmas about the builder loop -/

namespace BCash
namespace TxBuilder
variable {Dyn : Type}

/-- Sum of the values of a list of outputs. -/
def _root_.BCash.outputSum (outs : List TxOutput) : Nat := (outs.map (·.value.toNat)).sum

/-- Fixed amounts plus allocated amounts. -/
def allocSum (amounts : Nat → Option Nat) : Nat → List TxBuilderOutput → Nat
  | _, [] => 0
  | k, .knownValue o :: rest => o.value.toNat + allocSum amounts (k + 1) rest
  | k, .leftover .. :: rest => (amounts k).getD 0 + allocSum amounts (k + 1) rest

/-- `idx` is the position of a leftover output (positions counted from `k`). -/
def IsLeftover (k : Nat) (outs : List TxBuilderOutput) (idx : Nat) : Prop :=
  k ≤ idx ∧ ∃ l u p s, outs[idx - k]? = some (.leftover l u p s)

theorem IsLeftover.of_cons {k : Nat} {o : TxBuilderOutput} {outs : List TxBuilderOutput} {idx : Nat}
    (h : IsLeftover k (o :: outs) idx) : idx = k ∨ IsLeftover (k + 1) outs idx := by
  obtain ⟨h1, l, u, p, s, h2⟩ := h
  by_cases e : idx = k
  · exact .inl e
  · refine .inr ⟨by omega, l, u, p, s, ?_⟩
    rw [show idx - k = (idx - (k + 1)) + 1 by omega, List.getElem?_cons_succ] at h2
    exact h2

theorem outputSum_make {amounts : Nat → Option Nat} (hlt : ∀ i v, amounts i = some v → v < 2 ^ 64)
    (k : Nat) (outs : List TxBuilderOutput) :
    outputSum (makeOutputsFrom amounts k outs) = allocSum amounts k outs := by
  induction outs generalizing k with
  | nil => rfl
  | cons o rest ih =>
    cases o with
    | knownValue o =>
      simp only [makeOutputsFrom, allocSum, ← ih, outputSum, List.map_cons, List.sum_cons]
    | leftover l u p s =>
      simp only [makeOutputsFrom, allocSum]
      cases h : amounts k with
      | none => simp [← ih]
      | some v =>
        have := hlt k v h
        simp only [← ih, outputSum, List.map_cons, List.sum_cons, Option.getD_some,
          UInt64.toNat_ofNat']
        rw [Nat.mod_eq_of_lt this]

theorem allocSum_none (k : Nat) (outs : List TxBuilderOutput) :
    allocSum (fun _ => none) k outs = ((outs.map (·.getValue)).map UInt64.toNat).sum := by
  induction outs generalizing k with
  | nil => rfl
  | cons o rest ih =>
    cases o <;> simp [allocSum, ih, TxBuilderOutput.getValue]

theorem allocSum_congr {f g : Nat → Option Nat} (k : Nat) (outs : List TxBuilderOutput)
    (h : ∀ i, k ≤ i → f i = g i) : allocSum f k outs = allocSum g k outs := by
  induction outs generalizing k with
  | nil => rfl
  | cons o rest ih =>
    have := ih (k + 1) (fun i hi => h i (by omega))
    cases o <;> simp [allocSum, this, h k (Nat.le_refl k)]

theorem makeOutputsFrom_congr {f g : Nat → Option Nat} (k : Nat) (outs : List TxBuilderOutput)
    (h : ∀ i, k ≤ i → f i = g i) : makeOutputsFrom f k outs = makeOutputsFrom g k outs := by
  induction outs generalizing k with
  | nil => rfl
  | cons o rest ih =>
    have := ih (k + 1) (fun i hi => h i (by omega))
    cases o <;> simp [makeOutputsFrom, this, h k (Nat.le_refl k)]

theorem allocSum_set {f : Nat → Option Nat} {idx : Nat} (hf : f idx = none) (v : Nat) (k : Nat)
    (outs : List TxBuilderOutput) (h : IsLeftover k outs idx) :
    allocSum (setAmount f idx (some v)) k outs = allocSum f k outs + v := by
  induction outs generalizing k with
  | nil => obtain ⟨_, l, u, p, s, h⟩ := h; simp at h
  | cons o rest ih =>
    rcases h.of_cons with rfl | h'
    · obtain ⟨_, l, u, p, s, h⟩ := h
      simp only [Nat.sub_self, List.getElem?_cons_zero, Option.some.injEq] at h
      subst h
      have : allocSum (setAmount f idx (some v)) (idx + 1) rest = allocSum f (idx + 1) rest :=
        allocSum_congr _ _ (fun i hi => by simp only [setAmount]; rw [if_neg (by omega)])
      simp only [allocSum, this, setAmount, if_true, hf, Option.getD_some, Option.getD_none]
      omega
    · have hk : k ≠ idx := by have := h'.1; omega
      have e : setAmount f idx (some v) k = f k := by simp only [setAmount]; rw [if_neg hk]
      cases o <;> simp only [allocSum, ih _ h', e] <;> omega

theorem setAmount_none_self {f : Nat → Option Nat} {idx : Nat} (hf : f idx = none) :
    setAmount f idx none = f := by
  funext i
  simp only [setAmount]
  split
  · next h => rw [h, hf]
  · rfl

/-! ### One step and the loop -/

/-- What one iteration does when the output considered has no amount yet. -/
theorem buildStep_cases {sz : Layout} {b : TxBuilder Dyn} {st st' : BuildState} {idx : Nat}
    (hf : st.amounts idx = none) (h : buildStep sz b st idx = some st') :
    st' = st ∨ ∃ l u p s size, b.outputs[idx]? = some (.leftover l u p s) ∧
      b.estimateSize sz (b.makeOutputs (setAmount st.amounts idx (some (min st.total u.toNat)))) =
        some size ∧
      size * b.feePerKb.toNat / 1000 ≤ st.total ∧
      l.toNat < min (st.total - size * b.feePerKb.toNat / 1000) u.toNat ∧
      st' = ⟨st.total - min (st.total - size * b.feePerKb.toNat / 1000) u.toNat,
        setAmount st.amounts idx (some (min (st.total - size * b.feePerKb.toNat / 1000) u.toNat)),
        some size⟩ := by
  unfold buildStep at h
  split at h
  · cases h
  · exact .inl (Option.some.inj h).symm
  · next l u p s ho =>
    split at h
    · exact .inl (Option.some.inj h).symm
    · rw [Option.bind_eq_some_iff] at h
      obtain ⟨size, hsize, h⟩ := h
      split at h
      · cases h
      · dsimp only at h
        split at h
        · next hfee =>
          split at h
          · left
            rw [← Option.some.inj h, setAmount_none_self hf]
          · next hl =>
            right
            exact ⟨l, u, p, s, size, ho, hsize, hfee, by omega, (Option.some.inj h).symm⟩
        · left
          rw [← Option.some.inj h, setAmount_none_self hf]

/-- The loop invariant; `inputs` is the sum of the input values. -/
structure Inv (sz : Layout) (b : TxBuilder Dyn) (inputs : Nat) (st : BuildState) : Prop where
  sum : allocSum st.amounts 0 b.outputs + st.total = inputs
  bounds : ∀ i v, st.amounts i = some v → ∃ l u p s,
    b.outputs[i]? = some (.leftover l u p s) ∧ l.toNat < v ∧ v ≤ u.toNat
  fee : ∀ s, st.estimated = some s → s * b.feePerKb.toNat / 1000 ≤ st.total
  est : ∀ s, st.estimated = some s → ∃ amounts', (∀ i, (amounts' i).isSome = (st.amounts i).isSome) ∧
    b.estimateSize sz (b.makeOutputs amounts') = some s
  none : st.estimated = none → ∀ i, st.amounts i = none

theorem Inv.step {sz : Layout} {b : TxBuilder Dyn} {inputs : Nat} {st st' : BuildState} {idx : Nat}
    (hi : Inv sz b inputs st) (hf : st.amounts idx = Option.none)
    (h : buildStep sz b st idx = some st') :
    Inv sz b inputs st' ∧ ∀ j, j ≠ idx → st'.amounts j = st.amounts j := by
  rcases buildStep_cases hf h with rfl | ⟨l, u, p, s, size, ho, hsize, hfee, hl, rfl⟩
  · exact ⟨hi, fun _ _ => rfl⟩
  · refine ⟨⟨?_, ?_, ?_, ?_, ?_⟩, ?_⟩
    · have := allocSum_set hf (min (st.total - size * b.feePerKb.toNat / 1000) u.toNat) 0 b.outputs
        ⟨Nat.zero_le _, l, u, p, s, by simpa using ho⟩
      dsimp only
      rw [this]
      have := hi.sum
      omega
    · intro i v hv
      simp only [setAmount] at hv
      split at hv
      · next e =>
        subst e
        injection hv with hv
        exact ⟨l, u, p, s, ho, by omega, by omega⟩
      · exact hi.bounds i v hv
    · intro s' hs
      injection hs with hs
      subst hs
      dsimp only
      omega
    · intro s' hs
      injection hs with hs
      subst hs
      refine ⟨_, ?_, hsize⟩
      intro i
      simp only [setAmount]
      split <;> rfl
    · intro hn; cases hn
    · intro j hj
      simp only [setAmount]
      rw [if_neg hj]

theorem Inv.loop {sz : Layout} {b : TxBuilder Dyn} {inputs : Nat} :
    ∀ (idxs : List (Nat × Int)) {st st' : BuildState}, Inv sz b inputs st →
    (idxs.map (·.1)).Nodup → (∀ x ∈ idxs, st.amounts x.1 = Option.none) →
    buildLoop sz b st idxs = some st' →
    Inv sz b inputs st' ∧ ∀ j, j ∉ idxs.map (·.1) → st'.amounts j = st.amounts j := by
  intro idxs
  induction idxs with
  | nil =>
    intro st st' hi _ _ h
    cases h
    exact ⟨hi, fun _ _ => rfl⟩
  | cons x rest ih =>
    intro st st' hi hnd hnone h
    obtain ⟨idx, p⟩ := x
    simp only [buildLoop, Option.bind_eq_some_iff] at h
    obtain ⟨st1, h1, h2⟩ := h
    have hf := hnone _ List.mem_cons_self
    obtain ⟨hi1, hsame⟩ := hi.step hf h1
    simp only [List.map_cons, List.nodup_cons] at hnd
    obtain ⟨hi2, hsame2⟩ := ih hi1 hnd.2 (by
      intro x hx
      rw [hsame x.1 (by rintro rfl; exact hnd.1 (List.mem_map_of_mem hx))]
      exact hnone x (List.mem_cons_of_mem _ hx)) h2
    refine ⟨hi2, ?_⟩
    intro j hj
    simp only [List.map_cons, List.mem_cons, not_or] at hj
    rw [hsame2 j hj.2, hsame j hj.1]

/-! ### The order of the leftover outputs -/

theorem insertByKey_perm (x : Nat × Int) (l : List (Nat × Int)) : (insertByKey x l).Perm (x :: l) := by
  induction l with
  | nil => exact .refl _
  | cons y ys ih =>
    simp only [insertByKey]
    split
    · exact .refl _
    · exact (ih.cons y).trans (.swap x y ys)

theorem sortByKey_perm (l : List (Nat × Int)) : (sortByKey l).Perm l := by
  induction l with
  | nil => exact .refl _
  | cons x xs ih => exact (insertByKey_perm x _).trans (ih.cons x)

theorem leftoverIndices_mem {k : Nat} {outs : List TxBuilderOutput} {x : Nat × Int}
    (h : x ∈ leftoverIndices k outs) :
    k ≤ x.1 ∧ ∃ l u p s, outs[x.1 - k]? = some (.leftover l u p s) ∧ x.2 = p.toInt := by
  induction outs generalizing k with
  | nil => cases h
  | cons o rest ih =>
    have step : x ∈ leftoverIndices (k + 1) rest →
        k ≤ x.1 ∧ ∃ l u p s, (o :: rest)[x.1 - k]? = some (.leftover l u p s) ∧ x.2 = p.toInt := by
      intro h
      obtain ⟨h1, l, u, p, s, h2, h3⟩ := ih h
      refine ⟨by omega, l, u, p, s, ?_, h3⟩
      rw [show x.1 - k = (x.1 - (k + 1)) + 1 by omega, List.getElem?_cons_succ]
      exact h2
    cases o with
    | knownValue o => exact step h
    | leftover l u p s =>
      rcases List.mem_cons.mp h with rfl | h
      · exact ⟨Nat.le_refl _, l, u, p, s, by simp, rfl⟩
      · exact step h

theorem leftoverIndices_nodup (k : Nat) (outs : List TxBuilderOutput) :
    ((leftoverIndices k outs).map (·.1)).Nodup := by
  induction outs generalizing k with
  | nil => exact List.nodup_nil
  | cons o rest ih =>
    cases o with
    | knownValue o => exact ih (k + 1)
    | leftover l u p s =>
      simp only [leftoverIndices, List.map_cons, List.nodup_cons]
      refine ⟨?_, ih (k + 1)⟩
      intro h
      obtain ⟨x, hx, e⟩ := List.mem_map.mp h
      have := (leftoverIndices_mem hx).1
      omega

theorem order_nodup (outs : List TxBuilderOutput) :
    ((sortByKey (leftoverIndices 0 outs)).map (·.1)).Nodup :=
  ((sortByKey_perm _).map _).nodup_iff.mpr (leftoverIndices_nodup 0 outs)

/-! ### The result of `build` -/

theorem _root_.BCash.Res.ofOption_eq_ok {ε α : Type} {x : Option α} {a : α} :
    (Res.ofOption x : Res ε α) = .ok a ↔ x = some a := by
  cases x <;> simp [Res.ofOption]

theorem _root_.BCash.Res.ofOption_bind_err {ε α β : Type} {x : Option α} {f : α → Res ε β} {e : ε}
    (h : (Res.ofOption x : Res ε α).bind f = .err e) : ∃ a, x = some a ∧ f a = .err e := by
  cases x with
  | none => cases h
  | some a => exact ⟨a, rfl, h⟩

theorem sumU64_some {l : List UInt64} {n : Nat} (h : sumU64 l = some n) :
    n = (l.map UInt64.toNat).sum ∧ n < 2 ^ 64 := by
  unfold sumU64 at h
  dsimp only at h
  split at h
  · next hlt =>
    have := Option.some.inj h
    exact ⟨this.symm, by omega⟩
  · cases h

/-- Everything a successful `build` establishes. -/
theorem build_ok {sz : Layout} {H : Bytes → Hash256} {b : TxBuilder Dyn} {u : UnsignedTx Dyn}
    (h : b.build sz H = .ok u) :
    ∃ known inputs st preimages, b.knownOutputSum = some known ∧ b.inputSum = some inputs ∧
      known ≤ inputs ∧
      buildLoop sz b ⟨inputs - known, fun _ => none, none⟩ (sortByKey (leftoverIndices 0 b.outputs)) =
        some st ∧ Inv sz b inputs st ∧
      (match st.estimated with
        | some s => some s
        | none => b.estimateSize sz (b.makeOutputs st.amounts)) = some u.estimatedSize ∧
      buildPreimages H (b.toPreimageTx (b.makeOutputs st.amounts)) = some preimages ∧
      u = ⟨b, b.makeOutputs st.amounts, preimages, b.prefilled, u.estimatedSize⟩ := by
  unfold build at h
  simp only [Res.bind_eq_ok, Res.ofOption_eq_ok] at h
  obtain ⟨known, hk, inputs, hin, h⟩ := h
  split at h
  · cases h
  · next hle =>
    simp only [Res.bind_eq_ok, Res.ofOption_eq_ok] at h
    obtain ⟨st, hloop, est, hest, preimages, hpre, h⟩ := h
    injection h with h
    have hsum := (sumU64_some hk).1
    have inv0 : Inv sz b inputs ⟨inputs - known, fun _ => none, none⟩ := by
      refine ⟨?_, ?_, ?_, ?_, fun _ _ => rfl⟩
      · dsimp only
        rw [allocSum_none, ← hsum]
        omega
      · intro i v hv; cases hv
      · intro s hs; cases hs
      · intro s hs; cases hs
    have inv := (Inv.loop _ inv0 (order_nodup _) (fun _ _ => rfl) hloop).1
    refine ⟨known, inputs, st, preimages, hk, hin, by omega, hloop, inv, ?_, hpre, ?_⟩
    · rw [← h]; exact hest
    · rw [← h]

/-! ### Stability of the order -/

/-- Lower precedence number first, ties in the order of addition. -/
def ServedBefore (x y : Nat × Int) : Prop := x.2 < y.2 ∨ x.2 = y.2 ∧ x.1 < y.1

theorem insertByKey_pairwise (x : Nat × Int) (l : List (Nat × Int)) (h : l.Pairwise ServedBefore)
    (hx : ∀ y ∈ l, x.1 < y.1) : (insertByKey x l).Pairwise ServedBefore := by
  induction l with
  | nil => simp [insertByKey]
  | cons y ys ih =>
    rw [List.pairwise_cons] at h
    simp only [insertByKey]
    split
    · next hle =>
      rw [List.pairwise_cons, List.pairwise_cons]
      refine ⟨?_, h.1, h.2⟩
      intro z hz
      have hxz := hx z hz
      rcases List.mem_cons.mp hz with rfl | hz'
      · unfold ServedBefore; omega
      · have := h.1 z hz'
        unfold ServedBefore at this ⊢
        omega
    · next hle =>
      rw [List.pairwise_cons]
      refine ⟨?_, ih h.2 (fun z hz => hx z (List.mem_cons_of_mem _ hz))⟩
      intro z hz
      rcases List.mem_cons.mp ((insertByKey_perm x ys).mem_iff.mp hz) with rfl | hz
      · unfold ServedBefore; omega
      · exact h.1 z hz

theorem leftoverIndices_lt (k : Nat) (outs : List TxBuilderOutput) :
    (leftoverIndices k outs).Pairwise (fun x y => x.1 < y.1) := by
  induction outs generalizing k with
  | nil => exact .nil
  | cons o rest ih =>
    cases o with
    | knownValue o => exact ih (k + 1)
    | leftover l u p s =>
      simp only [leftoverIndices, List.pairwise_cons]
      refine ⟨?_, ih (k + 1)⟩
      intro x hx
      have := (leftoverIndices_mem hx).1
      omega

theorem sortByKey_pairwise (l : List (Nat × Int)) (h : l.Pairwise (fun x y => x.1 < y.1)) :
    (sortByKey l).Pairwise ServedBefore := by
  induction l with
  | nil => exact .nil
  | cons x xs ih =>
    rw [List.pairwise_cons] at h
    exact insertByKey_pairwise x _ (ih h.2) (fun y hy => h.1 y ((sortByKey_perm xs).mem_iff.mp hy))

theorem leftoverIndices_complete {k i : Nat} {outs : List TxBuilderOutput} {l u : UInt64} {p : Int32}
    {s : Script} (h : outs[i]? = some (.leftover l u p s)) :
    (k + i, p.toInt) ∈ leftoverIndices k outs := by
  induction outs generalizing k i with
  | nil => simp at h
  | cons o rest ih =>
    cases i with
    | zero =>
      simp only [List.getElem?_cons_zero, Option.some.injEq] at h
      subst h
      simp [leftoverIndices]
    | succ i =>
      rw [List.getElem?_cons_succ] at h
      have := ih (k := k + 1) h
      rw [show k + 1 + i = k + (i + 1) by omega] at this
      cases o with
      | knownValue o => exact this
      | leftover l' u' p' s' => exact List.mem_cons_of_mem _ this

theorem buildLoop_append {sz : Layout} {b : TxBuilder Dyn} {st st' : BuildState}
    (xs ys : List (Nat × Int)) (h : buildLoop sz b st (xs ++ ys) = some st') :
    ∃ mid, buildLoop sz b st xs = some mid ∧ buildLoop sz b mid ys = some st' := by
  induction xs generalizing st with
  | nil => exact ⟨st, rfl, h⟩
  | cons x xs ih =>
    obtain ⟨idx, p⟩ := x
    simp only [List.cons_append, buildLoop, Option.bind_eq_some_iff] at h ⊢
    obtain ⟨st1, h1, h2⟩ := h
    obtain ⟨mid, h3, h4⟩ := ih h2
    exact ⟨mid, ⟨st1, h1, h3⟩, h4⟩

/-- The exact effect of one iteration. -/
theorem buildStep_exact {sz : Layout} {b : TxBuilder Dyn} {st st' : BuildState} {idx : Nat}
    {l u : UInt64} {p : Int32} {s : Script} (ho : b.outputs[idx]? = some (.leftover l u p s))
    (hf : st.amounts idx = none) (h : buildStep sz b st idx = some st') :
    (st.total ≤ l.toNat → st'.amounts idx = none) ∧
    (l.toNat < st.total → ∃ size, b.estimateSize sz
        (b.makeOutputs (setAmount st.amounts idx (some (min st.total u.toNat)))) = some size ∧
      st'.amounts idx =
        if l.toNat < min (st.total - size * b.feePerKb.toNat / 1000) u.toNat
        then some (min (st.total - size * b.feePerKb.toNat / 1000) u.toNat) else none) := by
  unfold buildStep at h
  rw [ho] at h
  dsimp only at h
  constructor
  · intro hle
    rw [if_pos hle] at h
    rw [← Option.some.inj h, hf]
  · intro hlt
    rw [if_neg (by omega), Option.bind_eq_some_iff] at h
    obtain ⟨size, hsize, h⟩ := h
    refine ⟨size, hsize, ?_⟩
    split at h
    · cases h
    · split at h
      · next hfee =>
        split at h
        · rw [if_neg (by omega), ← Option.some.inj h]
          simp [setAmount]
        · rw [if_pos (by omega), ← Option.some.inj h]
          simp [setAmount]
      · next hfee =>
        rw [if_neg (by omega), ← Option.some.inj h]
        simp [setAmount]

end TxBuilder
end BCash
