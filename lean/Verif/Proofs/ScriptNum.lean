import Verif.Model.ScriptNum
import Verif.Spec.ScriptNum
import Verif.Proofs.LE
import Verif.Proofs.Byte

/-! Lemmas about script numbers. -/

namespace BCash
open Spec

theorem scriptNum_nil : scriptNum [] = 0 := rfl

theorem scriptNum_snoc (p : Bytes) (l : UInt8) :
    scriptNum (p ++ [l]) =
      if l.toNat < 128 then (leVal p + 256 ^ p.length * l.toNat : Int)
      else -(leVal p + 256 ^ p.length * ((l.toNat : Int) - 128)) := by
  unfold scriptNum
  simp only [List.getLast?_append, List.getLast?_singleton, Option.some_or, leVal_append, leVal,
    List.length_append, List.length_singleton]
  split
  · simp
  · simp only [Nat.mul_zero, Nat.add_zero, Nat.add_sub_cancel]
    have hM : (256 : Int) ^ p.length = ((256 ^ p.length : Nat) : Int) := by
      rw [Int.natCast_pow]; rfl
    rw [Int.mul_sub, hM, Int.natCast_add, Int.natCast_mul]
    omega

theorem exists_snoc {α} (l : List α) (h : l ≠ []) : ∃ p x, l = p ++ [x] :=
  ⟨l.dropLast, l.getLast h, (List.dropLast_concat_getLast h).symm⟩

theorem isMinimal_nil : IsMinimalNum [] := by
  intro last h; simp at h

theorem isMinimal_single (b : UInt8) : IsMinimalNum [b] ↔ b.toNat % 128 ≠ 0 := by
  constructor
  · intro h hb
    obtain ⟨_, _, h2, _⟩ := h b (by simp) hb
    simp at h2
  · intro hb last hl hm
    simp at hl; subst hl; exact absurd hm hb

theorem isMinimal_snoc2 (q : Bytes) (a b : UInt8) :
    IsMinimalNum (q ++ [a, b]) ↔ (b.toNat % 128 ≠ 0 ∨ 128 ≤ a.toNat) := by
  have e : (q ++ [a, b])[(q ++ [a, b]).length - 2]? = some a := by simp
  have hl : (q ++ [a, b]).getLast? = some b := by simp
  constructor
  · intro h
    by_cases hb : b.toNat % 128 = 0
    · obtain ⟨prev, h1, _, h3⟩ := h b hl hb
      rw [e] at h1
      simp at h1
      right; rw [h1]; exact h3
    · exact .inl hb
  · rintro h last hl' hm
    rw [hl] at hl'
    simp at hl'; subst hl'
    rcases h with h | h
    · exact absurd hm h
    · exact ⟨a, e, by simp, h⟩

theorem isMinimal_snoc_of (q : Bytes) (b : UInt8) (h : b.toNat % 128 ≠ 0) :
    IsMinimalNum (q ++ [b]) := by
  intro last hl hm
  simp at hl; subst hl; exact absurd hm h

theorem reverse_rec {α : Type} {P : List α → Prop} (nil : P [])
    (snoc : ∀ q x, P q → P (q ++ [x])) (l : List α) : P l := by
  have : ∀ r : List α, P r.reverse := by
    intro r
    induction r with
    | nil => simpa
    | cons a r ih => simpa using snoc _ a ih
  simpa using this l.reverse

theorem minimalLoop_spec (last : UInt8) (hlast : last.toNat % 128 = 0) (p : Bytes) :
    ∀ (c : UInt8) (s : Bytes),
      scriptNum (minimalLoop (p ++ c :: s) last p.length)
          = (if last.toNat < 128 then (leVal p : Int) else -(leVal p : Int)) ∧
      IsMinimalNum (minimalLoop (p ++ c :: s) last p.length) ∧
      (minimalLoop (p ++ c :: s) last p.length).length ≤ p.length + 1 := by
  induction p using reverse_rec with
  | nil =>
    intro c s
    simp [minimalLoop, scriptNum_nil, isMinimal_nil, leVal]
  | snoc q b ih =>
    intro c s
    have hlen : (q ++ [b]).length = q.length + 1 := by simp
    have hget : (q ++ [b] ++ c :: s).getD q.length 0 = b := by simp
    have hlv : leVal (q ++ [b]) = leVal q + 256 ^ q.length * b.toNat := by
      simp [leVal_append, leVal]
    rw [hlen, minimalLoop]
    simp only [hget]
    by_cases hb0 : b = 0
    · rw [if_neg (by simp [hb0])]
      obtain ⟨h1, h2, h3⟩ := ih b (c :: s)
      have e : q ++ [b] ++ c :: s = q ++ b :: (c :: s) := by simp
      rw [e]
      refine ⟨?_, h2, by omega⟩
      rw [h1, hlv, hb0]; simp
    · rw [if_pos hb0]
      have hbn : b.toNat ≠ 0 := (ne_zero_toNat b).mp hb0
      have hb := toNat_lt256 b
      by_cases hb8 : b &&& 0x80 ≠ 0
      · rw [if_pos hb8]
        have hb8' := (and80_ne b).mp hb8
        have e : ((q ++ [b] ++ c :: s).set (q.length + 1) last).take (q.length + 2)
            = q ++ [b, last] := by
          simp [List.take_append, List.take_of_length_le]
        rw [e]
        refine ⟨?_, (isMinimal_snoc2 _ _ _).mpr (.inr hb8'), by simp⟩
        have e2 : q ++ [b, last] = (q ++ [b]) ++ [last] := by simp
        rw [e2, scriptNum_snoc]
        rcases mod128_cases last hlast with h | h <;> subst h <;> simp
      · rw [if_neg hb8]
        have hb8' := (and80_eq b).mp (by simpa using hb8)
        have e : ((q ++ [b] ++ c :: s).set q.length (b ||| last)).take (q.length + 1)
            = q ++ [b ||| last] := by
          simp [List.take_append, List.take_of_length_le]
        rw [e]
        rcases mod128_cases last hlast with h | h <;> subst h
        · rw [or0]
          refine ⟨?_, isMinimal_snoc_of _ _ (by omega), by simp⟩
          rw [scriptNum_snoc, hlv]
          simp [hb8']
        · have ho := or80_toNat b hb8'
          refine ⟨?_, isMinimal_snoc_of _ _ (by omega), by simp⟩
          rw [scriptNum_snoc, hlv]
          rw [ho]
          rw [if_neg (by omega), if_neg (by decide)]
          have hM : (256 : Int) ^ q.length = ((256 ^ q.length : Nat) : Int) := by
            rw [Int.natCast_pow]; rfl
          rw [hM, Int.natCast_add, Int.natCast_add, Int.natCast_mul]
          simp only [Int.cast_ofNat_Int, Int.add_sub_cancel]

theorem encodeMinimally_spec (vec : Bytes) :
    scriptNum (encodeMinimally vec) = scriptNum vec ∧ IsMinimalNum (encodeMinimally vec) ∧
      (encodeMinimally vec).length ≤ vec.length := by
  by_cases hv : vec = []
  · subst hv; simp [encodeMinimally, isMinimal_nil]
  obtain ⟨p, last, rfl⟩ := exists_snoc vec hv
  have hgl : (p ++ [last]).getLast? = some last := by simp
  unfold encodeMinimally
  rw [hgl]
  simp only
  by_cases h1 : last &&& 0x7f ≠ 0
  · rw [if_pos h1]
    exact ⟨rfl, isMinimal_snoc_of _ _ ((and7f_ne last).mp h1), Nat.le_refl _⟩
  rw [if_neg h1]
  have hm : last.toNat % 128 = 0 := by
    have := mt (and7f_ne last).mpr h1; omega
  by_cases hp : p = []
  · subst hp
    simp only [List.nil_append, List.length_singleton, if_true]
    refine ⟨?_, isMinimal_nil, by simp⟩
    rcases mod128_cases last hm with h | h <;> subst h <;> decide
  obtain ⟨q, b, rfl⟩ := exists_snoc p hp
  rw [if_neg (by simp)]
  have hg : (q ++ [b] ++ [last]).getD ((q ++ [b] ++ [last]).length - 2) 0 = b := by
    simp
  rw [hg]
  by_cases h2 : b &&& 0x80 ≠ 0
  · rw [if_pos h2]
    refine ⟨rfl, ?_, Nat.le_refl _⟩
    have e2 : q ++ [b] ++ [last] = q ++ [b, last] := by simp
    rw [e2]
    exact (isMinimal_snoc2 _ _ _).mpr (.inr ((and80_ne b).mp h2))
  rw [if_neg h2]
  have hlen : (q ++ [b] ++ [last]).length - 1 = (q ++ [b]).length := by simp
  rw [hlen]
  obtain ⟨s1, s2, s3⟩ := minimalLoop_spec last hm (q ++ [b]) last []
  refine ⟨?_, s2, ?_⟩
  · rw [s1, scriptNum_snoc]
    rcases mod128_cases last hm with h | h <;> subst h <;> simp
  · simpa using s3

theorem encodeMinimally_of_minimal (vec : Bytes) (h : IsMinimalNum vec) :
    encodeMinimally vec = vec := by
  by_cases hv : vec = []
  · subst hv; rfl
  obtain ⟨p, last, rfl⟩ := exists_snoc vec hv
  have hgl : (p ++ [last]).getLast? = some last := by simp
  unfold encodeMinimally
  rw [hgl]
  simp only
  by_cases h1 : last &&& 0x7f ≠ 0
  · rw [if_pos h1]
  rw [if_neg h1]
  have hm : last.toNat % 128 = 0 := by
    have := mt (and7f_ne last).mpr h1; omega
  obtain ⟨prev, e1, e2, e3⟩ := h last hgl hm
  have : ¬ (p ++ [last]).length = 1 := by omega
  rw [if_neg this]
  have hg : (p ++ [last]).getD ((p ++ [last]).length - 2) 0 = prev := by
    rw [List.getD_eq_getElem?_getD, e1]; rfl
  rw [hg, if_pos ((and80_ne prev).mpr e3)]

/-- Magnitude bound from the length. -/
theorem scriptNum_natAbs_lt (bs : Bytes) (h : bs ≠ []) :
    (scriptNum bs).natAbs < 128 * 256 ^ (bs.length - 1) := by
  obtain ⟨p, l, rfl⟩ := exists_snoc bs h
  rw [scriptNum_snoc]
  have hp := leVal_lt p
  have hl := toNat_lt256 l
  simp only [List.length_append, List.length_singleton, Nat.add_sub_cancel]
  have hM : (256 : Int) ^ p.length = ((256 ^ p.length : Nat) : Int) := by rw [Int.natCast_pow]; rfl
  rw [hM]
  generalize 256 ^ p.length = M at *
  split
  · next h1 =>
    have : M * l.toNat ≤ M * 127 := Nat.mul_le_mul_left _ (by omega)
    have e : ((leVal p : Int) + (M : Int) * (l.toNat : Int)).natAbs = leVal p + M * l.toNat := by
      rw [← Int.natCast_mul, ← Int.natCast_add, Int.natAbs_natCast]
    rw [e]; omega
  · next h1 =>
    have : M * (l.toNat - 128) ≤ M * 127 := Nat.mul_le_mul_left _ (by omega)
    have e : (-((leVal p : Int) + (M : Int) * ((l.toNat : Int) - 128))).natAbs
        = leVal p + M * (l.toNat - 128) := by
      rw [Int.natAbs_neg, show ((l.toNat : Int) - 128) = ((l.toNat - 128 : Nat) : Int) by omega,
        ← Int.natCast_mul, ← Int.natCast_add, Int.natAbs_natCast]
    rw [e]; omega

/-- A minimal encoding of `n ≥ 2` bytes has magnitude at least `2^(8(n-1)-1)`; one byte: nonzero. -/
theorem scriptNum_natAbs_ge (bs : Bytes) (h : bs ≠ []) (hm : IsMinimalNum bs) :
    256 ^ (bs.length - 1) ≤ 2 * (scriptNum bs).natAbs ∧ scriptNum bs ≠ 0 := by
  obtain ⟨p, l, rfl⟩ := exists_snoc bs h
  have hl := toNat_lt256 l
  simp only [List.length_append, List.length_singleton, Nat.add_sub_cancel]
  -- magnitude
  have key : (scriptNum (p ++ [l])).natAbs = leVal p + 256 ^ p.length * (l.toNat % 128) := by
    rw [scriptNum_snoc]
    have hM : (256 : Int) ^ p.length = ((256 ^ p.length : Nat) : Int) := by rw [Int.natCast_pow]; rfl
    rw [hM]
    generalize 256 ^ p.length = M at *
    split
    · next h1 =>
      rw [← Int.natCast_mul, ← Int.natCast_add, Int.natAbs_natCast, Nat.mod_eq_of_lt h1]
    · next h1 =>
      rw [Int.natAbs_neg, show ((l.toNat : Int) - 128) = ((l.toNat % 128 : Nat) : Int) by omega,
        ← Int.natCast_mul, ← Int.natCast_add, Int.natAbs_natCast]
  have hpos : 0 < 256 ^ p.length := Nat.pow_pos (by decide)
  suffices hs : 256 ^ p.length ≤ 2 * (scriptNum (p ++ [l])).natAbs by
    refine ⟨hs, ?_⟩
    intro h0; rw [h0] at hs; simp at hs
  rw [key]
  by_cases hz : l.toNat % 128 = 0
  · obtain ⟨prev, e1, e2, e3⟩ := hm l (by simp) hz
    have hp : p ≠ [] := by intro hp; subst hp; simp at e2
    obtain ⟨q, b, rfl⟩ := exists_snoc p hp
    have : b = prev := by simpa using e1
    subst this
    have hlv : leVal (q ++ [b]) = leVal q + 256 ^ q.length * b.toNat := by
      simp [leVal_append, leVal]
    rw [hlv, hz]
    simp only [List.length_append, List.length_singleton, Nat.pow_succ]
    have : 256 ^ q.length * 128 ≤ 256 ^ q.length * b.toNat := Nat.mul_le_mul_left _ e3
    omega
  · have : 256 ^ p.length * 1 ≤ 256 ^ p.length * (l.toNat % 128) :=
      Nat.mul_le_mul_left _ (by omega)
    omega

/-- A minimal encoding is no longer than any encoding of the same value. -/
theorem minimal_length_le (a b : Bytes) (hm : IsMinimalNum a) (h : scriptNum a = scriptNum b) :
    a.length ≤ b.length := by
  by_cases ha : a = []
  · simp [ha]
  obtain ⟨h1, h2⟩ := scriptNum_natAbs_ge a ha hm
  by_cases hb : b = []
  · subst hb; rw [scriptNum_nil] at h; exact absurd h h2
  have h3 := scriptNum_natAbs_lt b hb
  rw [← h] at h3
  have h4 : 256 ^ (a.length - 1) < 256 ^ ((b.length - 1) + 1) := by
    rw [Nat.pow_succ]; omega
  have := (Nat.pow_lt_pow_iff_right (by decide : 1 < 256)).mp h4
  have : 0 < b.length := List.length_pos_iff.mpr hb
  omega

/-- Values of equal-length strings determine them, unless the value is zero. -/
theorem scriptNum_inj_of_length (a b : Bytes) (hl : a.length = b.length)
    (h : scriptNum a = scriptNum b) (h0 : scriptNum a ≠ 0) : a = b := by
  by_cases ha : a = []
  · subst ha; exact (List.eq_nil_of_length_eq_zero hl.symm).symm
  have hb : b ≠ [] := by intro hb; subst hb; exact ha (List.eq_nil_of_length_eq_zero hl)
  obtain ⟨p, x, rfl⟩ := exists_snoc a ha
  obtain ⟨q, y, rfl⟩ := exists_snoc b hb
  have hpq : p.length = q.length := by simpa using hl
  rw [scriptNum_snoc] at h h0
  rw [scriptNum_snoc, ← hpq] at h
  have hp := leVal_lt p
  have hq := leVal_lt q
  rw [← hpq] at hq
  have hx := toNat_lt256 x
  have hy := toNat_lt256 y
  have hM : (256 : Int) ^ p.length = ((256 ^ p.length : Nat) : Int) := by rw [Int.natCast_pow]; rfl
  rw [hM] at h h0
  generalize 256 ^ p.length = M at *
  have hdm : ∀ (u v s t : Nat), u < M → v < M → u + M * s = v + M * t → u = v ∧ s = t := by
    intro u v s t hu hv he
    have hMp : 0 < M := by omega
    have e1 : (u + M * s) % M = u := by rw [Nat.add_mul_mod_self_left, Nat.mod_eq_of_lt hu]
    have e2 : (v + M * t) % M = v := by rw [Nat.add_mul_mod_self_left, Nat.mod_eq_of_lt hv]
    have e3 : (u + M * s) / M = s := by
      rw [Nat.add_mul_div_left _ _ hMp, Nat.div_eq_of_lt hu, Nat.zero_add]
    have e4 : (v + M * t) / M = t := by
      rw [Nat.add_mul_div_left _ _ hMp, Nat.div_eq_of_lt hv, Nat.zero_add]
    exact ⟨by rw [← e1, ← e2, he], by rw [← e3, ← e4, he]⟩
  have fin : leVal p = leVal q ∧ x.toNat = y.toNat := by
    by_cases cx : x.toNat < 128
    · rw [if_pos cx] at h h0
      by_cases cy : y.toNat < 128
      · rw [if_pos cy] at h
        exact hdm _ _ _ _ hp hq (by exact_mod_cast h)
      · exfalso
        rw [if_neg cy] at h
        have e : ((y.toNat : Int) - 128) = ((y.toNat - 128 : Nat) : Int) := by omega
        rw [e, ← Int.natCast_mul, ← Int.natCast_mul] at h
        rw [← Int.natCast_mul] at h0
        omega
    · rw [if_neg cx] at h h0
      have ex : ((x.toNat : Int) - 128) = ((x.toNat - 128 : Nat) : Int) := by omega
      rw [ex] at h h0
      rw [← Int.natCast_mul] at h h0
      by_cases cy : y.toNat < 128
      · exfalso
        rw [if_pos cy] at h
        rw [← Int.natCast_mul] at h
        omega
      · rw [if_neg cy] at h
        have ey : ((y.toNat : Int) - 128) = ((y.toNat - 128 : Nat) : Int) := by omega
        rw [ey, ← Int.natCast_mul] at h
        obtain ⟨r1, r2⟩ := hdm (leVal p) (leVal q) (x.toNat - 128) (y.toNat - 128) hp hq (by omega)
        exact ⟨r1, by omega⟩
  rw [leVal_inj hpq fin.1, UInt8.toNat_inj.mp fin.2]

theorem minimal_unique (a b : Bytes) (ha : IsMinimalNum a) (hb : IsMinimalNum b)
    (h : scriptNum a = scriptNum b) : a = b := by
  have hl : a.length = b.length :=
    Nat.le_antisymm (minimal_length_le a b ha h) (minimal_length_le b a hb h.symm)
  by_cases ha0 : a = []
  · subst ha0; exact (List.eq_nil_of_length_eq_zero hl.symm).symm
  exact scriptNum_inj_of_length a b hl h (scriptNum_natAbs_ge a ha0 ha).2

end BCash
