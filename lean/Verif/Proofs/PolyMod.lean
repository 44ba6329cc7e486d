import Verif.Model.Address
import Verif.Proofs.Script

/-! # The checksum polynomial: linearity and injectivity of one step -/

namespace BCash

theorem ite_xor (p : Prop) [Decidable p] (x k : UInt64) :
    (if p then x ^^^ k else x) = x ^^^ (if p then k else 0) := by
  split <;> simp

/-- The reduction term: what is XORed in for the top five bits. -/
def polyTab (c0 : UInt8) : UInt64 :=
  (if c0 &&& 0x01 ≠ 0 then 0x98f2bc8e61 else 0) ^^^
  ((if c0 &&& 0x02 ≠ 0 then 0x79b76d99e2 else 0) ^^^
  ((if c0 &&& 0x04 ≠ 0 then 0xf33e5fb3c4 else 0) ^^^
  ((if c0 &&& 0x08 ≠ 0 then 0xae2eabe2a8 else 0) ^^^
  (if c0 &&& 0x10 ≠ 0 then 0x1e4f43e470 else 0))))

/-- The linear part of a step. -/
def polyLin (c : UInt64) : UInt64 :=
  ((c &&& 0x07ffffffff) <<< 5) ^^^ polyTab (c >>> 35).toUInt8

theorem polyStep_eq (c : UInt64) (v : UInt8) : polyStep c v = polyLin c ^^^ v.toUInt64 := by
  unfold polyStep polyLin polyTab
  simp only [ite_xor]
  simp only [UInt64.xor_assoc]
  congr 1
  rw [UInt64.xor_comm]
  simp only [UInt64.xor_assoc]

theorem bit_lin (m : UInt8) (K : UInt64) (hm : ∀ a : UInt8, a &&& m = 0 ∨ a &&& m = m)
    (a b : UInt8) :
    (if (a ^^^ b) &&& m ≠ 0 then K else 0) =
      (if a &&& m ≠ 0 then K else 0) ^^^ (if b &&& m ≠ 0 then K else 0) := by
  have hd : (a ^^^ b) &&& m = (a &&& m) ^^^ (b &&& m) := by
    apply UInt8.toBitVec_inj.1
    simp only [UInt8.toBitVec_and, UInt8.toBitVec_xor]
    ext i
    simp only [BitVec.getElem_and, BitVec.getElem_xor]
    cases a.toBitVec[i] <;> cases b.toBitVec[i] <;> cases m.toBitVec[i] <;> rfl
  rw [hd]
  by_cases h0 : m = 0
  · have ha : a &&& m = 0 := by simp [h0]
    have hb : b &&& m = 0 := by simp [h0]
    simp [ha, hb]
  · rcases hm a with ha | ha <;> rcases hm b with hb | hb <;> simp [ha, hb, h0]

set_option maxRecDepth 100000 in
theorem polyTab_xor (a b : UInt8) : polyTab (a ^^^ b) = polyTab a ^^^ polyTab b := by
  unfold polyTab
  rw [bit_lin 0x01 _ (forall_u8 (by decide)), bit_lin 0x02 _ (forall_u8 (by decide)),
    bit_lin 0x04 _ (forall_u8 (by decide)), bit_lin 0x08 _ (forall_u8 (by decide)),
    bit_lin 0x10 _ (forall_u8 (by decide))]
  ac_rfl

theorem polyLin_xor (a b : UInt64) : polyLin (a ^^^ b) = polyLin a ^^^ polyLin b := by
  unfold polyLin
  have hd : (a ^^^ b) &&& 0x07ffffffff = (a &&& 0x07ffffffff) ^^^ (b &&& 0x07ffffffff) := by
    apply UInt64.toBitVec_inj.1
    simp only [UInt64.toBitVec_and, UInt64.toBitVec_xor]
    ext i
    simp only [BitVec.getElem_and, BitVec.getElem_xor]
    cases a.toBitVec[i] <;> cases b.toBitVec[i] <;> simp
  rw [hd, UInt64.shiftLeft_xor, UInt64.shiftRight_xor, UInt64.toUInt8_xor, polyTab_xor]
  ac_rfl

theorem mask_toNat64 (c : UInt64) : ((c &&& 0x07ffffffff) <<< 5).toNat = 32 * (c.toNat % 2 ^ 35) := by
  rw [UInt64.toNat_shiftLeft, UInt64.toNat_and]
  rw [show (0x07ffffffff : UInt64).toNat = 2 ^ 35 - 1 by rfl, Nat.and_two_pow_sub_one_eq_mod,
    show (5 : UInt64).toNat % 64 = 5 by rfl, Nat.shiftLeft_eq]
  have : c.toNat % 2 ^ 35 < 2 ^ 35 := Nat.mod_lt _ (by omega)
  omega

theorem top_toNat (c : UInt64) (h : c.toNat < 2 ^ 40) :
    (c >>> 35).toUInt8.toNat = c.toNat / 2 ^ 35 := by
  rw [UInt64.toNat_toUInt8, UInt64.toNat_shiftRight, show (35 : UInt64).toNat % 64 = 35 by rfl,
    Nat.shiftRight_eq_div_pow]
  omega

set_option maxRecDepth 100000 in
theorem polyTab_low : ∀ c0 : Fin 32, (polyTab (UInt8.ofNat c0.val)).toNat % 32 = c0.val ∧
    (polyTab (UInt8.ofNat c0.val)).toNat < 2 ^ 40 := by decide

theorem polyLin_lt (c : UInt64) (h : c.toNat < 2 ^ 40) : (polyLin c).toNat < 2 ^ 40 := by
  unfold polyLin
  rw [UInt64.toNat_xor]
  apply Nat.xor_lt_two_pow
  · rw [mask_toNat64]
    have : c.toNat % 2 ^ 35 < 2 ^ 35 := Nat.mod_lt _ (by omega)
    omega
  · have h2 := top_toNat c h
    have h3 := (polyTab_low ⟨c.toNat / 2 ^ 35, by omega⟩).2
    have : UInt8.ofNat (c.toNat / 2 ^ 35) = (c >>> 35).toUInt8 := by
      apply UInt8.toNat_inj.mp; rw [h2, ofNat_toNat_lt (by omega)]
    rw [← this]; exact h3

theorem polyLin_zero {c : UInt64} (h : c.toNat < 2 ^ 40) (h0 : polyLin c = 0) : c = 0 := by
  unfold polyLin at h0
  have h2 := top_toNat c h
  have e : UInt8.ofNat (c.toNat / 2 ^ 35) = (c >>> 35).toUInt8 := by
    apply UInt8.toNat_inj.mp; rw [h2, ofNat_toNat_lt (by omega)]
  have h3 := (polyTab_low ⟨c.toNat / 2 ^ 35, by omega⟩).1
  dsimp only at h3
  rw [e] at h3
  have h4 := UInt64.xor_eq_zero_iff.mp h0
  have h5 := congrArg UInt64.toNat h4
  rw [mask_toNat64] at h5
  rw [← h5] at h3
  have hz : c.toNat / 2 ^ 35 = 0 := by omega
  have e0 : (c >>> 35).toUInt8 = 0 := by
    apply UInt8.toNat_inj.mp; rw [h2, hz]; rfl
  rw [e0] at h5
  rw [show (polyTab 0).toNat = 0 by decide] at h5
  apply UInt64.toNat_inj.mp
  rw [UInt64.toNat_zero]
  omega

theorem polyLin_inj {a b : UInt64} (ha : a.toNat < 2 ^ 40) (hb : b.toNat < 2 ^ 40)
    (h : polyLin a = polyLin b) : a = b := by
  have h1 : polyLin (a ^^^ b) = 0 := by rw [polyLin_xor, h, UInt64.xor_self]
  have h2 := polyLin_zero (by rw [UInt64.toNat_xor]; exact Nat.xor_lt_two_pow ha hb) h1
  exact UInt64.xor_eq_zero_iff.mp h2

theorem polyStep_lt (c : UInt64) (v : UInt8) (h : c.toNat < 2 ^ 40) :
    (polyStep c v).toNat < 2 ^ 40 := by
  rw [polyStep_eq, UInt64.toNat_xor]
  apply Nat.xor_lt_two_pow (polyLin_lt c h)
  rw [UInt8.toNat_toUInt64]
  have := v.toNat_lt
  omega

theorem polyFold_lt (vs : Bytes) : ∀ (c : UInt64), c.toNat < 2 ^ 40 →
    (vs.foldl polyStep c).toNat < 2 ^ 40 := by
  induction vs with
  | nil => intro c h; exact h
  | cons v vs ih => intro c h; exact ih _ (polyStep_lt c v h)

/-- Reading the same values from different states leaves different states. -/
theorem polyFold_inj (vs : Bytes) : ∀ (a b : UInt64), a.toNat < 2 ^ 40 → b.toNat < 2 ^ 40 →
    vs.foldl polyStep a = vs.foldl polyStep b → a = b := by
  induction vs with
  | nil => intro a b _ _ h; exact h
  | cons v vs ih =>
    intro a b ha hb h
    have := ih _ _ (polyStep_lt a v ha) (polyStep_lt b v hb) h
    rw [polyStep_eq, polyStep_eq, UInt64.xor_left_inj] at this
    exact polyLin_inj ha hb this

/-- Base-32 value, most significant digit first. -/
def b32Val (vs : Bytes) : Nat := vs.foldl (fun n v => 32 * n + v.toNat) 0

theorem b32Val_snoc (vs : Bytes) (v : UInt8) : b32Val (vs ++ [v]) = 32 * b32Val vs + v.toNat := by
  simp [b32Val]

theorem b32Val_lt : ∀ (n : Nat) (vs : Bytes), vs.length = n → (∀ v ∈ vs, v.toNat < 32) →
    b32Val vs < 32 ^ n := by
  intro n
  induction n with
  | zero => intro vs h _; rw [List.length_eq_zero_iff.mp h]; decide
  | succ n ih =>
    intro vs h hv
    obtain ⟨init, l, rfl⟩ : ∃ init l, vs = init ++ [l] := by
      cases List.eq_nil_or_concat vs with
      | inl h' => subst h'; simp at h
      | inr h' => obtain ⟨i, l, h'⟩ := h'; exact ⟨i, l, by simpa using h'⟩
    have h1 := ih init (by simpa using h) (fun v hv' => hv v (by simp [hv']))
    have h2 := hv l (by simp)
    rw [b32Val_snoc, Nat.pow_succ]
    omega

theorem b32Val_inj : ∀ (n : Nat) (a b : Bytes), a.length = n → b.length = n →
    (∀ v ∈ a, v.toNat < 32) → (∀ v ∈ b, v.toNat < 32) → b32Val a = b32Val b → a = b := by
  intro n
  induction n with
  | zero =>
    intro a b ha hb _ _ _
    rw [List.length_eq_zero_iff.mp ha, List.length_eq_zero_iff.mp hb]
  | succ n ih =>
    intro a b ha hb hva hvb h
    have dec : ∀ l : Bytes, l.length = n + 1 → ∃ init x, l = init ++ [x] := by
      intro l hl
      cases List.eq_nil_or_concat l with
      | inl h' => subst h'; simp at hl
      | inr h' => obtain ⟨i, l, h'⟩ := h'; exact ⟨i, l, by simpa using h'⟩
    obtain ⟨a', x, rfl⟩ := dec a ha
    obtain ⟨b', y, rfl⟩ := dec b hb
    have hx := hva x (by simp)
    have hy := hvb y (by simp)
    rw [b32Val_snoc, b32Val_snoc] at h
    have e1 := ih a' b' (by simpa using ha) (by simpa using hb) (fun v hv => hva v (by simp [hv]))
      (fun v hv => hvb v (by simp [hv])) (by omega)
    have e2 : x = y := UInt8.toNat_inj.mp (by omega)
    rw [e1, e2]

theorem polyLin_small (c : UInt64) (h : c.toNat < 2 ^ 35) : (polyLin c).toNat = 32 * c.toNat := by
  have h2 := top_toNat c (by omega)
  have e0 : (c >>> 35).toUInt8 = 0 := by
    apply UInt8.toNat_inj.mp; rw [h2, Nat.div_eq_of_lt h]; rfl
  unfold polyLin
  rw [e0, show polyTab 0 = 0 by decide, UInt64.xor_zero, mask_toNat64, Nat.mod_eq_of_lt h]

theorem polyStep_small (c : UInt64) (v : UInt8) (h : c.toNat < 2 ^ 35) (hv : v.toNat < 32) :
    (polyStep c v).toNat = 32 * c.toNat + v.toNat := by
  rw [polyStep_eq, UInt64.toNat_xor, polyLin_small c h, UInt8.toNat_toUInt64]
  have : 32 * c.toNat = c.toNat <<< 5 := by rw [Nat.shiftLeft_eq]; omega
  rw [this]
  rw [Nat.shiftLeft_add_eq_or_of_lt (show v.toNat < 2 ^ 5 by omega)]
  apply Nat.eq_of_testBit_eq
  intro i
  rw [Nat.testBit_xor, Nat.testBit_or, Nat.testBit_shiftLeft]
  by_cases hi : i < 5
  · simp [show ¬ 5 ≤ i by omega]
  · rw [Nat.testBit_lt_two_pow (Nat.lt_of_lt_of_le (show v.toNat < 2 ^ 5 by omega)
      (Nat.pow_le_pow_right (by omega) (by omega)))]
    simp

/-- From state 0, at most eight values are simply collected as base-32 digits. -/
theorem polyFold_zero (vs : Bytes) (h : vs.length ≤ 8) (hv : ∀ v ∈ vs, v.toNat < 32) :
    (vs.foldl polyStep 0).toNat = b32Val vs := by
  induction hn : vs.length generalizing vs with
  | zero => rw [List.length_eq_zero_iff.mp hn]; decide
  | succ n ih =>
    obtain ⟨init, x, rfl⟩ : ∃ init x, vs = init ++ [x] := by
      cases List.eq_nil_or_concat vs with
      | inl h' => subst h'; simp at hn
      | inr h' => obtain ⟨i, l, h'⟩ := h'; exact ⟨i, l, by simpa using h'⟩
    have hl : init.length = n := by simpa using hn
    have hn7 : n ≤ 7 := by simp at h; omega
    have e := ih init (by omega) (fun v hv' => hv v (by simp [hv'])) hl
    rw [List.foldl_append, List.foldl_cons, List.foldl_nil, b32Val_snoc]
    rw [polyStep_small _ _ _ (hv x (by simp)), e]
    rw [e]
    have h1 := b32Val_lt n init hl (fun v hv' => hv v (by simp [hv']))
    have h2 : 32 ^ n ≤ 32 ^ 7 := Nat.pow_le_pow_right (by omega) hn7
    have h3 : (32 : Nat) ^ 7 = 2 ^ 35 := by rfl
    omega

/-- Superposition: reading values `vs` from state `c` is reading zeros from `c`, XOR reading `vs`
from 0. -/
theorem polyFold_superpose (vs : Bytes) : ∀ (a b : UInt64),
    vs.foldl polyStep (a ^^^ b) =
      (List.replicate vs.length 0).foldl polyStep a ^^^ vs.foldl polyStep b := by
  induction vs with
  | nil => intro a b; rfl
  | cons v vs ih =>
    intro a b
    rw [List.foldl_cons, List.length_cons, List.replicate_succ, List.foldl_cons, List.foldl_cons,
      ← ih]
    congr 1
    rw [polyStep_eq, polyStep_eq, polyStep_eq, polyLin_xor]
    rw [show (0 : UInt8).toUInt64 = 0 by rfl, UInt64.xor_zero]
    ac_rfl

theorem polyFold_split (vs : Bytes) (c : UInt64) :
    vs.foldl polyStep c =
      (List.replicate vs.length 0).foldl polyStep c ^^^ vs.foldl polyStep 0 := by
  have := polyFold_superpose vs c 0
  rwa [UInt64.xor_zero] at this

/-- The eight base-32 digits of a 40-bit state. -/
def digits8 (p : UInt64) : Bytes :=
  (List.range 8).map fun i => ((p >>> (5 * (7 - UInt64.ofNat i))) &&& 0x1f).toUInt8

theorem digit_toNat (p : UInt64) (s : UInt64) (hs : s.toNat < 64) :
    ((p >>> s) &&& 0x1f).toUInt8.toNat = p.toNat / 2 ^ s.toNat % 32 := by
  rw [UInt64.toNat_toUInt8, UInt64.toNat_and, UInt64.toNat_shiftRight, Nat.mod_eq_of_lt hs,
    show (0x1f : UInt64).toNat = 2 ^ 5 - 1 by rfl, Nat.and_two_pow_sub_one_eq_mod,
    Nat.shiftRight_eq_div_pow]
  omega

theorem digits8_eq (p : UInt64) : digits8 p =
    [((p >>> 35) &&& 0x1f).toUInt8, ((p >>> 30) &&& 0x1f).toUInt8, ((p >>> 25) &&& 0x1f).toUInt8,
     ((p >>> 20) &&& 0x1f).toUInt8, ((p >>> 15) &&& 0x1f).toUInt8, ((p >>> 10) &&& 0x1f).toUInt8,
     ((p >>> 5) &&& 0x1f).toUInt8, ((p >>> 0) &&& 0x1f).toUInt8] := rfl

theorem digits8_length (p : UInt64) : (digits8 p).length = 8 := by simp [digits8]

theorem digits8_lt (p : UInt64) : ∀ v ∈ digits8 p, v.toNat < 32 := by
  intro v hv
  rw [digits8_eq] at hv
  simp only [List.mem_cons, List.not_mem_nil, or_false] at hv
  rcases hv with h | h | h | h | h | h | h | h <;> rw [h, digit_toNat _ _ (by decide)] <;>
    exact Nat.mod_lt _ (by omega)

theorem b32Val_digits8 (p : UInt64) (hp : p.toNat < 2 ^ 40) : b32Val (digits8 p) = p.toNat := by
  rw [digits8_eq]
  simp only [b32Val, List.foldl_cons, List.foldl_nil]
  rw [digit_toNat _ 35 (by decide), digit_toNat _ 30 (by decide), digit_toNat _ 25 (by decide),
    digit_toNat _ 20 (by decide), digit_toNat _ 15 (by decide), digit_toNat _ 10 (by decide),
    digit_toNat _ 5 (by decide), digit_toNat _ 0 (by decide)]
  rw [show (35 : UInt64).toNat = 35 by rfl, show (30 : UInt64).toNat = 30 by rfl,
    show (25 : UInt64).toNat = 25 by rfl, show (20 : UInt64).toNat = 20 by rfl,
    show (15 : UInt64).toNat = 15 by rfl, show (10 : UInt64).toNat = 10 by rfl,
    show (5 : UInt64).toNat = 5 by rfl, show (0 : UInt64).toNat = 0 by rfl]
  omega

/-- Eight digits after a state give the state 1 (a valid checksum) exactly when they are the digits
of the state after eight zeros, XOR 1. -/
theorem polyFold_checksum (c : UInt64) (hc : c.toNat < 2 ^ 40) (cs : Bytes) (hl : cs.length = 8)
    (hv : ∀ v ∈ cs, v.toNat < 32) :
    (cs.foldl polyStep c ^^^ 1 = 0) ↔
      cs = digits8 ((List.replicate 8 0).foldl polyStep c ^^^ 1) := by
  have hP := polyFold_lt (List.replicate 8 0) c hc
  have hP1 : ((List.replicate 8 (0 : UInt8)).foldl polyStep c ^^^ 1).toNat < 2 ^ 40 := by
    rw [UInt64.toNat_xor]; exact Nat.xor_lt_two_pow hP (by decide)
  rw [polyFold_split, hl]
  have hz := polyFold_zero cs (by omega) hv
  constructor
  · intro h
    apply b32Val_inj 8 _ _ hl (digits8_length _) hv (digits8_lt _)
    rw [b32Val_digits8 _ hP1, ← hz]
    congr 1
    rw [UInt64.xor_eq_zero_iff] at h
    have := congrArg (fun x => ((List.replicate 8 (0 : UInt8)).foldl polyStep c) ^^^ x) h
    simp only [← UInt64.xor_assoc, UInt64.xor_self, UInt64.zero_xor] at this
    exact this
  · intro h
    have e : cs.foldl polyStep 0 = (List.replicate 8 0).foldl polyStep c ^^^ 1 := by
      apply UInt64.toNat_inj.mp
      rw [hz, h, b32Val_digits8 _ hP1]
    rw [e, ← UInt64.xor_assoc, UInt64.xor_self, UInt64.zero_xor, UInt64.xor_self]

/-- Replacing at most eight consecutive values by different ones changes the final state. -/
theorem polyFold_burst (a w w' b : Bytes) (c : UInt64) (hc : c.toNat < 2 ^ 40)
    (hl : w.length = w'.length) (h8 : w.length ≤ 8) (hv : ∀ v ∈ w, v.toNat < 32)
    (hv' : ∀ v ∈ w', v.toNat < 32)
    (h : (a ++ w ++ b).foldl polyStep c = (a ++ w' ++ b).foldl polyStep c) : w = w' := by
  simp only [List.foldl_append] at h
  have hs := polyFold_lt a c hc
  have h1 := polyFold_inj b _ _ (polyFold_lt w _ hs) (polyFold_lt w' _ hs) h
  rw [polyFold_split w, polyFold_split w', hl, UInt64.xor_right_inj] at h1
  apply b32Val_inj _ _ _ rfl hl.symm hv hv'
  rw [← polyFold_zero w h8 hv, ← polyFold_zero w' (by omega) hv', h1]

end BCash
