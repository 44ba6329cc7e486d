import Verif.Model.Address
import Verif.Spec.CashAddr
import Verif.Proofs.Script

/-! # Bit strings: what `_convert_bits` computes -/

namespace BCash

open Spec

@[simp] theorem bitsOf_length (w v : Nat) : (bitsOf w v).length = w := by
  induction w with
  | zero => rfl
  | succ w ih => simp [bitsOf, ih]

@[simp] theorem bitsAll_nil (w : Nat) : bitsAll w [] = [] := rfl
@[simp] theorem bitsAll_cons (w : Nat) (v : UInt8) (vs : Bytes) :
    bitsAll w (v :: vs) = bitsOf w v.toNat ++ bitsAll w vs := rfl
@[simp] theorem bitsAll_append (w : Nat) (a b : Bytes) :
    bitsAll w (a ++ b) = bitsAll w a ++ bitsAll w b := by simp [bitsAll]

@[simp] theorem bitsAll_length (w : Nat) (vs : Bytes) : (bitsAll w vs).length = w * vs.length := by
  induction vs with
  | nil => rfl
  | cons v vs ih => simp [ih, Nat.mul_add]; omega

theorem bitsOf_congr (w : Nat) {a b : Nat} (h : ∀ i, i < w → a.testBit i = b.testBit i) :
    bitsOf w a = bitsOf w b := by
  induction w with
  | zero => rfl
  | succ w ih =>
    simp only [bitsOf]
    rw [h w (by omega), ih (fun i hi => h i (by omega))]

theorem bitsOf_inj (w : Nat) {a b : Nat} (h : bitsOf w a = bitsOf w b) :
    ∀ i, i < w → a.testBit i = b.testBit i := by
  induction w with
  | zero => intro i hi; omega
  | succ w ih =>
    simp only [bitsOf, List.cons.injEq] at h
    intro i hi
    by_cases hw : i = w
    · rw [hw]; exact h.1
    · exact ih h.2 i (by omega)

theorem bitsOf_inj_lt (w : Nat) {a b : Nat} (ha : a < 2 ^ w) (hb : b < 2 ^ w)
    (h : bitsOf w a = bitsOf w b) : a = b := by
  apply Nat.eq_of_testBit_eq
  intro i
  by_cases hi : i < w
  · exact bitsOf_inj w h i hi
  · rw [Nat.testBit_lt_two_pow (Nat.lt_of_lt_of_le ha (Nat.pow_le_pow_right (by omega) (by omega))),
      Nat.testBit_lt_two_pow (Nat.lt_of_lt_of_le hb (Nat.pow_le_pow_right (by omega) (by omega)))]

theorem bitsAll_inj (w : Nat) (hw : 0 < w) : ∀ (a b : Bytes), (∀ v ∈ a, v.toNat < 2 ^ w) →
    (∀ v ∈ b, v.toNat < 2 ^ w) → bitsAll w a = bitsAll w b → a = b
  | [], [], _, _, _ => rfl
  | [], b :: bs, _, _, h => by
    have := congrArg List.length h
    simp at this; omega
  | a :: as, [], _, _, h => by
    have := congrArg List.length h
    simp at this; omega
  | a :: as, b :: bs, ha, hb, h => by
    simp only [bitsAll_cons] at h
    have h1 := List.append_inj h (by simp)
    have e1 := bitsOf_inj_lt w (ha a (by simp)) (hb b (by simp)) h1.1
    have e2 := bitsAll_inj w hw as bs (fun v hv => ha v (by simp [hv]))
      (fun v hv => hb v (by simp [hv])) h1.2
    rw [UInt8.toNat_inj.mp e1, e2]

theorem bitsOf_add (a b v : Nat) : bitsOf (a + b) v = bitsOf a (v >>> b) ++ bitsOf b v := by
  induction a with
  | zero => simp [bitsOf]
  | succ a ih =>
    rw [show a + 1 + b = (a + b) + 1 by omega]
    simp only [bitsOf, List.cons_append, ih, Nat.testBit_shiftRight]
    rw [Nat.add_comm b a]

theorem bitsOf_mod (w v k : Nat) (h : w ≤ k) : bitsOf w (v % 2 ^ k) = bitsOf w v := by
  apply bitsOf_congr
  intro i hi
  rw [Nat.testBit_mod_two_pow]
  simp [show i < k by omega]

theorem bitsOf_mask (w v k : Nat) (h : w ≤ k) : bitsOf w (v &&& (2 ^ k - 1)) = bitsOf w v := by
  rw [Nat.and_two_pow_sub_one_eq_mod, bitsOf_mod w v k h]

theorem bitsOf_zero (w : Nat) : bitsOf w 0 = List.replicate w false := by
  induction w with
  | zero => rfl
  | succ w ih => simp [bitsOf, ih, List.replicate_succ]

theorem bitsOf_shiftLeft (a k v : Nat) :
    bitsOf (a + k) (v <<< k) = bitsOf a v ++ List.replicate k false := by
  rw [bitsOf_add]
  congr 1
  · apply bitsOf_congr
    intro i _
    simp
  · rw [← bitsOf_zero]
    apply bitsOf_congr
    intro i hi
    simp [Nat.testBit_shiftLeft, show ¬ k ≤ i by omega]

theorem bitsOf_push (a f acc v : Nat) (hv : v < 2 ^ f) :
    bitsOf (a + f) ((acc <<< f) ||| v) = bitsOf a acc ++ bitsOf f v := by
  rw [bitsOf_add]
  congr 1
  · apply bitsOf_congr
    intro i _
    rw [Nat.testBit_shiftRight, Nat.testBit_or, Nat.testBit_shiftLeft]
    rw [Nat.testBit_lt_two_pow (Nat.lt_of_lt_of_le hv (Nat.pow_le_pow_right (by omega) (by omega)))]
    simp
  · apply bitsOf_congr
    intro i hi
    simp [Nat.testBit_shiftLeft, show ¬ f ≤ i by omega]

theorem mask_toNat (t x : Nat) (ht : t ≤ 8) :
    (UInt8.ofNat (x &&& (2 ^ t - 1))).toNat = x % 2 ^ t := by
  rw [Nat.and_two_pow_sub_one_eq_mod]
  apply ofNat_toNat_lt
  calc x % 2 ^ t < 2 ^ t := Nat.mod_lt _ (Nat.two_pow_pos t)
    _ ≤ 2 ^ 8 := Nat.pow_le_pow_right (by omega) ht

theorem drainBits_spec (t : Nat) (ht0 : 0 < t) (ht : t ≤ 8) : ∀ (fuel acc bits : Nat), bits ≤ fuel →
    bitsAll t (drainBits t fuel acc bits).1 ++ bitsOf (drainBits t fuel acc bits).2 acc
      = bitsOf bits acc ∧
    (drainBits t fuel acc bits).2 < t ∧ ∀ v ∈ (drainBits t fuel acc bits).1, v.toNat < 2 ^ t
  | 0, acc, bits, h => by
    have : bits = 0 := by omega
    subst this
    simp [drainBits, bitsOf, ht0]
  | fuel + 1, acc, bits, h => by
    unfold drainBits
    by_cases hb : bits ≥ t
    · rw [if_pos hb]
      obtain ⟨h1, h2, h3⟩ := drainBits_spec t ht0 ht fuel acc (bits - t) (by omega)
      refine ⟨?_, h2, ?_⟩
      · simp only [bitsAll_cons, List.append_assoc, h1, mask_toNat _ _ ht]
        rw [bitsOf_mod _ _ _ (Nat.le_refl _), ← bitsOf_add, Nat.add_sub_cancel' hb]
      · intro v hv
        simp only [List.mem_cons] at hv
        rcases hv with hv | hv
        · rw [hv, mask_toNat _ _ ht]
          exact Nat.mod_lt _ (Nat.two_pow_pos t)
        · exact h3 v hv
    · rw [if_neg hb]
      simp; omega

theorem convertLoop_spec (f t : Nat) (hf : 0 < f) (ht0 : 0 < t) (ht : t ≤ 8) :
    ∀ (data : Bytes) (acc bits : Nat), bits < t → (∀ v ∈ data, v.toNat < 2 ^ f) →
    ∃ out acc' bits', convertLoop f t data acc bits = some (out, acc', bits') ∧ bits' < t ∧
      bitsAll t out ++ bitsOf bits' acc' = bitsOf bits acc ++ bitsAll f data ∧
      ∀ v ∈ out, v.toNat < 2 ^ t
  | [], acc, bits, hb, _ => ⟨[], acc, bits, rfl, hb, by simp, by simp⟩
  | value :: data, acc, bits, hb, hd => by
    have hv := hd value (by simp)
    have hcond : ¬ (value.toNat >>> f ≠ 0) := by
      rw [Nat.shiftRight_eq_div_pow, Nat.div_eq_of_lt hv]; simp
    unfold convertLoop
    rw [if_neg hcond]
    dsimp only
    obtain ⟨d1, d2, d3⟩ := drainBits_spec t ht0 ht (bits + f)
      (((acc <<< f) ||| value.toNat) &&& (2 ^ (f + t - 1) - 1)) (bits + f) (Nat.le_refl _)
    obtain ⟨out, acc', bits', e, hb', hbits, hout⟩ := convertLoop_spec f t hf ht0 ht data
      (((acc <<< f) ||| value.toNat) &&& (2 ^ (f + t - 1) - 1))
      (drainBits t (bits + f) (((acc <<< f) ||| value.toNat) &&& (2 ^ (f + t - 1) - 1))
        (bits + f)).2 d2 (fun v hv => hd v (by simp [hv]))
    rw [e]
    refine ⟨_, acc', bits', rfl, hb', ?_, ?_⟩
    · rw [bitsAll_append, List.append_assoc, hbits, ← List.append_assoc, d1,
        bitsOf_mask _ _ _ (by omega), bitsOf_push _ _ _ _ hv]
      simp
    · intro v hv
      rw [List.mem_append] at hv
      rcases hv with hv | hv
      · exact d3 v hv
      · exact hout v hv

/-- Regrouping with padding keeps the bit string, followed by fewer than `t` zero bits. -/
theorem convertBits_spec (f t : Nat) (hf : 0 < f) (ht0 : 0 < t) (ht : t ≤ 8) (data : Bytes)
    (hd : ∀ v ∈ data, v.toNat < 2 ^ f) :
    ∃ out k, convertBits data f t true = some out ∧ k < t ∧
      bitsAll t out = bitsAll f data ++ List.replicate k false ∧ ∀ v ∈ out, v.toNat < 2 ^ t := by
  obtain ⟨out, acc, bits, e, hb, hbits, hout⟩ :=
    convertLoop_spec f t hf ht0 ht data 0 0 ht0 hd
  simp only [bitsOf, List.nil_append] at hbits
  unfold convertBits
  rw [e]
  dsimp only
  rw [if_pos rfl]
  by_cases h0 : bits = 0
  · rw [if_neg (by simp [h0])]
    subst h0
    refine ⟨out, 0, rfl, ht0, ?_, hout⟩
    simpa [bitsOf] using hbits
  · rw [if_pos h0]
    refine ⟨_, t - bits, rfl, by omega, ?_, ?_⟩
    · rw [bitsAll_append, bitsAll_cons, bitsAll_nil, List.append_nil, mask_toNat _ _ ht,
        bitsOf_mod _ _ _ (Nat.le_refl _), ← hbits, List.append_assoc]
      congr 1
      have := bitsOf_shiftLeft bits (t - bits) acc
      rw [show bits + (t - bits) = t by omega] at this
      exact this
    · intro v hv
      rw [List.mem_append] at hv
      rcases hv with hv | hv
      · exact hout v hv
      · simp only [List.mem_singleton] at hv
        rw [hv, mask_toNat _ _ ht]
        exact Nat.mod_lt _ (Nat.two_pow_pos t)

theorem convertBits_length {f t : Nat} (hf : 0 < f) (ht0 : 0 < t) (ht : t ≤ 8) {data out : Bytes}
    (hd : ∀ v ∈ data, v.toNat < 2 ^ f) (h : convertBits data f t true = some out) :
    f * data.length ≤ t * out.length ∧ t * out.length < f * data.length + t := by
  obtain ⟨out', k, e, hk, hb, _⟩ := convertBits_spec f t hf ht0 ht data hd
  rw [h] at e; injection e with e; subst e
  have := congrArg List.length hb
  simp at this
  omega

end BCash
