import Verif.Proofs.ScriptNum
import Verif.Spec.Vm

/-! # Facts about minimal number encodings of the script machine -/

namespace BCash
open Spec Spec.Vm

namespace NumProofs

/-- Encoding of sign and magnitude in `j + 1` bytes. -/
theorem signMag (a j : Nat) (neg : Bool) (ha : a < 128 * 256 ^ j) :
    leBytes (j + 1) (a + if neg then 128 * 256 ^ j else 0) =
      leBytes j a ++ [UInt8.ofNat (a / 256 ^ j + if neg then 128 else 0)] ∧
    a / 256 ^ j < 128 := by
  have hp : 0 < 256 ^ j := Nat.pow_pos (by decide)
  have hd : a / 256 ^ j < 128 := Nat.div_lt_of_lt_mul (by rw [Nat.mul_comm]; exact ha)
  refine ⟨?_, hd⟩
  rw [leBytes_succ_snoc]
  have h1 : leBytes j (a + if neg then 128 * 256 ^ j else 0) = leBytes j a := by
    have : ∀ x y, x % 256 ^ j = y % 256 ^ j → leBytes j x = leBytes j y := by
      intro x y h
      apply leVal_inj (by simp)
      rw [leVal_leBytes, leVal_leBytes, h]
    apply this
    cases neg <;> simp
  have h2 : (a + if neg then 128 * 256 ^ j else 0) / 256 ^ j = a / 256 ^ j + if neg then 128 else 0 := by
    cases neg
    · simp
    · simp only [if_true]
      rw [Nat.add_mul_div_right _ _ hp]
  rw [h1, h2]

theorem log2_bounds (a : Nat) (ha : a ≠ 0) : 2 ^ a.log2 ≤ a ∧ a < 2 ^ (a.log2 + 1) :=
  ⟨Nat.log2_self_le ha, Nat.lt_log2_self⟩

theorem numBytes_spec (n : Int) :
    scriptNum (numBytes n) = n ∧ IsMinimalNum (numBytes n) := by
  unfold numBytes
  by_cases h0 : n = 0
  · rw [if_pos h0]
    exact ⟨h0.symm ▸ rfl, isMinimal_nil⟩
  rw [if_neg h0]
  dsimp only
  have ha0 : n.natAbs ≠ 0 := by omega
  obtain ⟨l1, l2⟩ := log2_bounds n.natAbs ha0
  obtain ⟨j, hj⟩ : ∃ j, (n.natAbs.log2 + 9) / 8 = j + 1 := ⟨(n.natAbs.log2 + 9) / 8 - 1, by omega⟩
  rw [hj]
  have e1 : 2 ^ (8 * (j + 1) - 1) = 128 * 256 ^ j := by
    have : 8 * (j + 1) - 1 = 7 + 8 * j := by omega
    rw [this, Nat.pow_add, Nat.pow_mul]
  have e2 : (if n < 0 then 2 ^ (8 * (j + 1) - 1) else 0) =
      if decide (n < 0) then 128 * 256 ^ j else 0 := by rw [e1]; simp
  have ha : n.natAbs < 128 * 256 ^ j := by
    refine Nat.lt_of_lt_of_le l2 ?_
    rw [← e1]
    exact Nat.pow_le_pow_right (by decide) (by omega)
  rw [e2]
  obtain ⟨hs, hd⟩ := signMag n.natAbs j (decide (n < 0)) ha
  rw [hs]
  have hlast : (UInt8.ofNat (n.natAbs / 256 ^ j + if decide (n < 0) then 128 else 0)).toNat =
      n.natAbs / 256 ^ j + if decide (n < 0) then 128 else 0 := by
    rw [UInt8.toNat_ofNat']
    apply Nat.mod_eq_of_lt
    split <;> omega
  have hdm := Nat.div_add_mod n.natAbs (256 ^ j)
  constructor
  · rw [scriptNum_snoc, hlast, leVal_leBytes, leBytes_length]
    have hc : (256 : Int) ^ j = ((256 ^ j : Nat) : Int) := by rw [Int.natCast_pow]; rfl
    rw [hc]
    generalize 256 ^ j = P at hd hdm
    generalize n.natAbs / P = q at hd hdm
    generalize n.natAbs % P = r at hdm
    have h : (r : Int) + P * q = n.natAbs := by rw [Int.add_comm]; exact_mod_cast hdm
    by_cases hn : n < 0
    · simp only [hn, decide_true, if_true]
      rw [if_neg (by omega)]
      have : ((q + 128 : Nat) : Int) - 128 = (q : Nat) := by omega
      rw [this, h]; omega
    · simp only [hn, decide_false, Bool.false_eq_true, if_false, Nat.add_zero]
      rw [if_pos (by omega), h]; omega
  · by_cases hz : n.natAbs / 256 ^ j = 0
    · -- the sign byte is needed
      have hlt : n.natAbs < 256 ^ j := (Nat.div_eq_zero_iff_lt (Nat.pow_pos (by decide))).mp hz
      obtain ⟨i, rfl⟩ : ∃ i, j = i + 1 := by
        cases j with
        | zero => simp at hlt; omega
        | succ i => exact ⟨i, rfl⟩
      have hge : 128 * 256 ^ i ≤ n.natAbs := by
        refine Nat.le_trans ?_ l1
        have : 128 * 256 ^ i = 2 ^ (7 + 8 * i) := by rw [Nat.pow_add, Nat.pow_mul]
        rw [this]
        exact Nat.pow_le_pow_right (by decide) (by omega)
      rw [leBytes_succ_snoc, List.append_assoc]
      simp only [List.singleton_append]
      rw [isMinimal_snoc2]
      right
      rw [UInt8.toNat_ofNat']
      have h1 : 128 ≤ n.natAbs / 256 ^ i := (Nat.le_div_iff_mul_le (Nat.pow_pos (by decide))).mpr hge
      have h2 : n.natAbs / 256 ^ i < 256 := by
        apply Nat.div_lt_of_lt_mul
        rw [Nat.pow_succ] at hlt; exact hlt
      rw [Nat.mod_eq_of_lt h2]; exact h1
    · apply isMinimal_snoc_of
      rw [hlast]
      generalize n.natAbs / 256 ^ j = q at hd hz
      by_cases hn : n < 0 <;> simp only [hn, decide_true, decide_false, if_true, if_false, Bool.false_eq_true] <;> omega

theorem numBytes_eq_iff (n : Int) (bs : Bytes) :
    bs = numBytes n ↔ scriptNum bs = n ∧ IsMinimalNum bs := by
  obtain ⟨h1, h2⟩ := numBytes_spec n
  constructor
  · rintro rfl; exact ⟨h1, h2⟩
  · rintro ⟨g1, g2⟩
    exact minimal_unique _ _ g2 h2 (by rw [g1, h1])

theorem numBytes_inj {a b : Int} (h : numBytes a = numBytes b) : a = b := by
  rw [← (numBytes_spec a).1, h, (numBytes_spec b).1]

/-- Numbers of at most 31 bits take at most 4 bytes. -/
theorem numBytes_length_le4 (n : Int) (h : -2 ^ 31 < n ∧ n < 2 ^ 31) : (numBytes n).length ≤ 4 := by
  unfold numBytes
  split
  · simp
  · next h0 =>
    simp only [leBytes_length]
    have : n.natAbs.log2 < 31 := (Nat.log2_lt (by omega)).mpr (by omega)
    omega

theorem num?_numBytes (k : Nat) (n : Int) (h : (numBytes n).length ≤ k) : num? k (numBytes n) = some n := by
  unfold num?
  rw [(numBytes_spec n).1, if_pos ⟨h, rfl⟩]

theorem num?_small (n : Int) (h : -2 ^ 31 < n ∧ n < 2 ^ 31) : num? 4 (numBytes n) = some n :=
  num?_numBytes 4 n (numBytes_length_le4 n h)

theorem num?_some {k : Nat} {bs : Bytes} {n : Int} (h : num? k bs = some n) :
    bs = numBytes n ∧ bs.length ≤ k := by
  unfold num? at h
  split at h
  · next h1 => cases h; exact ⟨h1.2.symm, h1.1⟩
  · cases h

end NumProofs
end BCash
