import Verif.Proofs.ScriptNum
import Verif.Spec.Vm

/-! # C03, C04, C05: script numbers -/

namespace BCash
open Spec

/-! ### `vec_to_int` -/

theorem wrap32_small (x : Int) (h : InI32 x) : wrap32 x = x := by
  unfold wrap32 InI32 at *; omega

theorem tryShl_byte (b : UInt8) (k : Nat) (hk : k ≤ 2) :
    tryShl (b.toNat : Int) (8 * k) = .ok ((b.toNat * 256 ^ k : Nat) : Int) := by
  have hb := toNat_lt256 b
  unfold tryShl
  rw [if_neg (by omega)]
  have : k = 0 ∨ k = 1 ∨ k = 2 := by omega
  rcases this with h | h | h <;> subst h <;> simp [wrap32] <;> omega

/-- Value of a fully in-range scan: up to four bytes. -/
theorem vecToInt_le4 (bs : Bytes) (h : bs.length ≤ 4) : vecToInt bs = .ok (scriptNum bs) := by
  have step : ∀ b : UInt8, ∀ k : Nat, k ≤ 3 → ∀ acc : Int, 0 ≤ acc → acc < 256 ^ k →
      (b.toNat < 128 ∨ k ≤ 2) →
      (if b ≠ 0 then (tryShl (b.toNat : Int) (8 * k)).bind (fun d => checkI32 (acc + d))
        else Res.ok acc) = .ok (acc + b.toNat * 256 ^ k) := by
    intro b k hk acc h0 h1 h2
    have hb := toNat_lt256 b
    have hk' : k = 0 ∨ k = 1 ∨ k = 2 ∨ k = 3 := by omega
    by_cases hz : b = 0
    · subst hz; simp
    · rw [if_pos hz]
      rcases hk' with e | e | e | e <;> subst e <;>
        simp only [tryShl, checkI32, InI32, wrap32] <;> rw [if_neg (by omega)] <;>
        simp only [Res.bind_ok] <;> rw [if_pos (by omega)] <;> refine congrArg Res.ok ?_ <;> omega
  have neg : ∀ b : UInt8, ∀ k : Nat, k ≤ 3 → ∀ acc : Int, 0 ≤ acc → acc < 256 ^ k →
      128 ≤ b.toNat →
      ((tryShl ((b ^^^ 0x80).toNat : Int) (8 * k)).bind fun d =>
        (checkI32 (acc + d)).bind fun acc => checkI32 (acc * (-1)))
        = .ok (-(acc + ((b.toNat : Int) - 128) * 256 ^ k)) := by
    intro b k hk acc h0 h1 h2
    have hb := toNat_lt256 b
    rw [xor80_toNat b h2]
    have hk' : k = 0 ∨ k = 1 ∨ k = 2 ∨ k = 3 := by omega
    rcases hk' with e | e | e | e <;> subst e <;>
      simp only [tryShl, checkI32, InI32, wrap32] <;> rw [if_neg (by omega)] <;>
      simp only [Res.bind_ok] <;> rw [if_pos (by omega)] <;> simp only [Res.bind_ok] <;>
      rw [if_pos (by omega)] <;> refine congrArg Res.ok ?_ <;> omega
  -- scanning the last byte
  have last : ∀ b : UInt8, ∀ k : Nat, k ≤ 3 → ∀ acc : Int, 0 ≤ acc → acc < 256 ^ k →
      vecToIntLoop [b] (8 * k) acc = .ok (if b.toNat < 128 then acc + b.toNat * 256 ^ k
        else -(acc + ((b.toNat : Int) - 128) * 256 ^ k)) := by
    intro b k hk acc h0 h1
    by_cases hb : b &&& 0x80 ≠ 0
    · have hb' := (and80_ne b).mp hb
      simp only [vecToIntLoop, Res.monad_bind]
      rw [if_pos hb, neg b k hk acc h0 h1 hb', if_neg (by omega)]
    · have hb' := (and80_eq b).mp (by simpa using hb)
      simp only [vecToIntLoop, Res.monad_bind]
      rw [if_neg hb, step b k hk acc h0 h1 (.inl hb'), if_pos hb']
      simp only [Res.bind_ok]
      rw [if_neg (by omega)]
  -- scanning an inner byte
  have inner : ∀ b b' : UInt8, ∀ rest, ∀ k : Nat, k ≤ 2 → ∀ acc : Int, 0 ≤ acc → acc < 256 ^ k →
      vecToIntLoop (b :: b' :: rest) (8 * k) acc
        = vecToIntLoop (b' :: rest) (8 * (k + 1)) (acc + b.toNat * 256 ^ k) := by
    intro b b' rest k hk acc h0 h1
    simp only [vecToIntLoop, Res.monad_bind]
    rw [step b k (by omega) acc h0 h1 (.inr hk)]
    simp only [Res.bind_ok]
    rw [if_neg (by omega)]
    rfl
  match bs, h with
  | [], _ => rfl
  | [a], _ =>
    have ha := toNat_lt256 a
    have e := last a 0 (by omega) 0 (by omega) (by omega)
    simp only [vecToInt, List.isEmpty_cons, Bool.false_eq_true, if_false]
    rw [show (0:Nat) = 8 * 0 from rfl, e, show [a] = [] ++ [a] from rfl, scriptNum_snoc]
    simp [leVal]
  | [a, b], _ =>
    have ha := toNat_lt256 a
    have e := inner a b [] 0 (by omega) 0 (by omega) (by omega)
    simp only [vecToInt, List.isEmpty_cons, Bool.false_eq_true, if_false]
    rw [show (0:Nat) = 8 * 0 from rfl, e, last b 1 (by omega) _ (by omega) (by omega),
      show [a, b] = [a] ++ [b] from rfl, scriptNum_snoc]
    simp only [leVal, List.length_singleton]
    refine congrArg Res.ok ?_; split <;> omega
  | [a, b, c], _ =>
    have ha := toNat_lt256 a
    have hb := toNat_lt256 b
    have e := inner a b [c] 0 (by omega) 0 (by omega) (by omega)
    simp only [vecToInt, List.isEmpty_cons, Bool.false_eq_true, if_false]
    rw [show (0:Nat) = 8 * 0 from rfl, e, inner b c [] 1 (by omega) _ (by omega) (by omega),
      last c 2 (by omega) _ (by omega) (by omega),
      show [a, b, c] = [a, b] ++ [c] from rfl, scriptNum_snoc]
    simp only [leVal, List.length_nil, List.length_cons, Nat.zero_add, Nat.reduceAdd]
    refine congrArg Res.ok ?_; split <;> omega
  | [a, b, c, d], _ =>
    have ha := toNat_lt256 a
    have hb := toNat_lt256 b
    have hc := toNat_lt256 c
    have e := inner a b [c, d] 0 (by omega) 0 (by omega) (by omega)
    simp only [vecToInt, List.isEmpty_cons, Bool.false_eq_true, if_false]
    rw [show (0:Nat) = 8 * 0 from rfl, e, inner b c [d] 1 (by omega) _ (by omega) (by omega),
      inner c d [] 2 (by omega) _ (by omega) (by omega),
      last d 3 (by omega) _ (by omega) (by omega),
      show [a, b, c, d] = [a, b, c] ++ [d] from rfl, scriptNum_snoc]
    simp only [leVal, List.length_nil, List.length_cons, Nat.zero_add, Nat.reduceAdd]
    refine congrArg Res.ok ?_; split <;> omega

/-- Scanning bytes at shift 32 and above: zero bytes are skipped, anything else is an error. -/
theorem vecToIntLoop_high (bs : Bytes) (hne : bs ≠ []) (shift : Nat) (acc : Int)
    (h32 : 32 ≤ shift) (hlen : shift + 8 * bs.length < 2 ^ 32) :
    vecToIntLoop bs shift acc = if ∀ b ∈ bs, b = 0 then .ok acc else .err .overflow := by
  induction bs generalizing shift with
  | nil => exact absurd rfl hne
  | cons b rest ih =>
    cases rest with
    | nil =>
      simp only [List.length_cons, List.length_nil] at hlen
      by_cases hz : b = 0
      · subst hz
        simp [vecToIntLoop]; omega
      · have : ¬ ∀ x ∈ [b], x = 0 := by simpa using hz
        rw [if_neg this]
        simp only [vecToIntLoop, tryShl, Res.monad_bind, if_pos h32, Res.bind_err, if_pos hz]
        split <;> rfl
    | cons b' rest =>
      simp only [List.length_cons] at hlen
      by_cases hz : b = 0
      · subst hz
        simp only [vecToIntLoop, ne_eq, not_true, if_false, Res.monad_bind, Res.bind_ok]
        rw [if_neg (by omega), ih (by simp) (shift + 8) (by omega)
          (by simp only [List.length_cons]; omega)]
        simp
      · have : ¬ ∀ x ∈ b :: b' :: rest, x = 0 := by
          intro h; exact hz (h b (by simp))
        rw [if_neg this]
        simp only [vecToIntLoop, tryShl, Res.monad_bind, if_pos h32, Res.bind_err, if_pos hz]

/-- Exact behaviour on five and more bytes. -/
theorem vecToInt_ge5 (a b c d e : UInt8) (rest : Bytes)
    (hlen : 8 * (rest.length + 5) < 2 ^ 32) :
    vecToInt (a :: b :: c :: d :: e :: rest) =
      if ∀ x ∈ e :: rest, x = 0 then .ok (wrap32 (leVal [a, b, c, d])) else .err .overflow := by
  have ha := toNat_lt256 a
  have hb := toNat_lt256 b
  have hc := toNat_lt256 c
  have hd := toNat_lt256 d
  have stp : ∀ (x y : UInt8) (r : Bytes) (s : Nat) (acc r' : Int), s ≤ 24 → s % 8 = 0 →
      (x ≠ 0 → (tryShl (x.toNat : Int) s).bind (fun t => checkI32 (acc + t)) = .ok r') →
      (x = 0 → acc = r') →
      vecToIntLoop (x :: y :: r) s acc = vecToIntLoop (y :: r) (s + 8) r' := by
    intro x y r s acc r' hs _ h1 h2
    simp only [vecToIntLoop, Res.monad_bind]
    by_cases hx : x = 0
    · rw [if_neg (by simpa using hx)]
      simp only [Res.bind_ok]
      rw [if_neg (by omega), h2 hx]
    · rw [if_pos hx, h1 hx]
      simp only [Res.bind_ok]
      rw [if_neg (by omega)]
  simp only [vecToInt, List.isEmpty_cons, Bool.false_eq_true, if_false]
  have fin : ∀ (x : UInt8) (s : Nat) (acc r' : Int), s < 32 →
      InI32 (acc + wrap32 (x.toNat * 2 ^ s)) → acc + wrap32 (x.toNat * 2 ^ s) = r' →
      (tryShl (x.toNat : Int) s).bind (fun t => checkI32 (acc + t)) = .ok r' := by
    intro x s acc r' hs h1 h2
    simp only [tryShl, checkI32]
    rw [if_neg (by omega)]
    simp only [Res.bind_ok]
    rw [if_pos h1, h2]
  have s1 := stp a b (c :: d :: e :: rest) 0 0 a.toNat (by omega) (by omega)
    (fun _ => fin a 0 0 _ (by omega) (by simp only [InI32, wrap32]; omega)
      (by simp only [wrap32]; omega)) (by intro h; subst h; rfl)
  have s2 := stp b c (d :: e :: rest) 8 a.toNat (a.toNat + b.toNat * 256) (by omega) (by omega)
    (fun _ => fin b 8 _ _ (by omega) (by simp only [InI32, wrap32]; omega)
      (by simp only [wrap32]; omega)) (by intro h; subst h; simp)
  have s3 := stp c d (e :: rest) 16 (a.toNat + b.toNat * 256)
    (a.toNat + b.toNat * 256 + c.toNat * 65536) (by omega) (by omega)
    (fun _ => fin c 16 _ _ (by omega) (by simp only [InI32, wrap32]; omega)
      (by simp only [wrap32]; omega)) (by intro h; subst h; simp)
  have s4 := stp d e rest 24 (a.toNat + b.toNat * 256 + c.toNat * 65536)
    (wrap32 (leVal [a, b, c, d])) (by omega) (by omega)
    (fun _ => fin d 24 _ _ (by omega) (by simp only [InI32, wrap32]; omega)
      (by simp only [wrap32, leVal]; omega))
    (by intro h; have : d.toNat = 0 := by rw [h]; rfl
        simp only [wrap32, leVal]; omega)
  rw [s1, s2, s3, s4]
  rw [vecToIntLoop_high (e :: rest) (by simp) _ _ (by omega)
    (by simp only [List.length_cons]; omega)]

theorem leVal_zeros (bs : Bytes) (h : ∀ b ∈ bs, b = 0) : leVal bs = 0 := by
  induction bs with
  | nil => rfl
  | cons b bs ih =>
    rw [leVal, h b (by simp), ih (fun x hx => h x (by simp [hx]))]; simp

/-! ### C03 -/

theorem encodeInt_spec (x : Int) (h : -2 ^ 31 < x ∧ x < 2 ^ 31) :
    ∃ bs, encodeInt x = .ok bs ∧ scriptNum bs = x ∧ IsMinimalNum bs ∧ bs.length ≤ 4 := by
  unfold encodeInt
  rw [if_neg (by omega)]
  refine ⟨_, rfl, ?_⟩
  obtain ⟨h1, h2, _⟩ := encodeMinimally_spec (leBytes 4 x.natAbs ++ if x < 0 then [0x80] else [])
  have hv : scriptNum (leBytes 4 x.natAbs ++ if x < 0 then [0x80] else []) = x := by
    by_cases hx : x < 0
    · rw [if_pos hx, scriptNum_snoc, if_neg (by decide), leVal_leBytes_of_lt (by omega)]
      simp; omega
    · rw [if_neg hx, List.append_nil]
      have hl : (leBytes 4 x.natAbs).getLast? = some (UInt8.ofNat (x.natAbs / 256 / 256 / 256)) := by
        simp [leBytes]
      unfold scriptNum
      rw [hl]
      simp only
      rw [UInt8.toNat_ofNat', if_pos (by omega), leVal_leBytes_of_lt (by omega)]
      omega
  rw [hv] at h1
  refine ⟨h1, h2, ?_⟩
  generalize encodeMinimally _ = bs at *
  by_cases hb : bs = []
  · simp [hb]
  · obtain ⟨g, _⟩ := scriptNum_natAbs_ge bs hb h2
    rw [h1] at g
    have : 256 ^ (bs.length - 1) < 256 ^ 4 := by omega
    have := (Nat.pow_lt_pow_iff_right (by decide : 1 < 256)).mp this
    omega

/-- **C03**: for every `i32` except `i32::MIN`, encoding as a script number succeeds, decoding the
bytes gives the integer back, the bytes denote that integer as a sign-magnitude script number,
are minimally encoded, and there are at most four of them. -/
theorem C03_script_int_roundtrip (x : Int) (h : -2 ^ 31 < x ∧ x < 2 ^ 31) :
    ∃ bs, encodeInt x = .ok bs ∧ vecToInt bs = .ok x ∧ scriptNum bs = x ∧
      IsMinimalNum bs ∧ bs.length ≤ 4 := by
  obtain ⟨bs, h1, h2, h3, h4⟩ := encodeInt_spec x h
  exact ⟨bs, h1, by rw [vecToInt_le4 bs h4, h2], h2, h3, h4⟩

example : encodeInt (-32768) = .ok [0x00, 0x80, 0x80] ∧ vecToInt [0x00, 0x80, 0x80] = .ok (-32768) := by
  decide

/-- **C03** (boundary): `i32::MIN` is the only `i32` for which encoding panics. -/
theorem C03_encode_panics_only_at_min (x : Int) :
    encodeInt x = .panic ↔ x = -2 ^ 31 := by
  unfold encodeInt
  split <;> simp_all

/-! ### C04 -/

/-- **C04 fails**: a five-byte operand whose value is 4294967295 is decoded as -1. -/
theorem C04_decode_value_fails :
    ∃ bs v, vecToInt bs = .ok v ∧ v ≠ scriptNum bs :=
  ⟨[0xff, 0xff, 0xff, 0xff, 0x00], -1, by decide, by decide⟩

/-- **C04** (partial; missing: byte strings of five or more bytes whose fourth byte has its top
bit set and whose remaining bytes are all zero, for which `C04_decode_value_fails` shows the
property is false, and operands of 2^29-1 bytes and more, where the shift counter overflows).
On all others decoding returns the script number value or an error, and never panics. -/
theorem C04_decode_value_partial (bs : Bytes) (hlen : 8 * bs.length < 2 ^ 32) :
    (vecToInt bs = .err .overflow ∧ 5 ≤ bs.length) ∨
    (vecToInt bs = .ok (scriptNum bs)) ∨
    (5 ≤ bs.length ∧ 128 ≤ (bs.getD 3 0).toNat ∧ (∀ b ∈ bs.drop 4, b = 0) ∧
      vecToInt bs = .ok (scriptNum bs - 2 ^ 32)) := by
  by_cases h4 : bs.length ≤ 4
  · exact .inr (.inl (vecToInt_le4 bs h4))
  match bs, h4, hlen with
  | [], h4, _ => exact absurd (by simp) h4
  | [_], h4, _ => exact absurd (by simp) h4
  | [_, _], h4, _ => exact absurd (by simp) h4
  | [_, _, _], h4, _ => exact absurd (by simp) h4
  | [_, _, _, _], h4, _ => exact absurd (by simp) h4
  | a :: b :: c :: d :: e :: rest, _, hlen =>
    have hlen' : 8 * (rest.length + 5) < 2 ^ 32 := by simpa using hlen
    rw [vecToInt_ge5 a b c d e rest hlen']
    have ha := toNat_lt256 a
    have hb := toNat_lt256 b
    have hc := toNat_lt256 c
    have hd := toNat_lt256 d
    by_cases hz : ∀ x ∈ e :: rest, x = 0
    · right
      rw [if_pos hz]
      have hne : (e :: rest) ≠ [] := by simp
      have hs : scriptNum (a :: b :: c :: d :: e :: rest) = (leVal [a, b, c, d] : Int) := by
        have hl : (a :: b :: c :: d :: e :: rest).getLast? = some 0 := by
          have : (a :: b :: c :: d :: e :: rest).getLast? = (e :: rest).getLast? := by
            simp [List.getLast?_cons_cons]
          rw [this]
          obtain ⟨p, l, hpl⟩ := exists_snoc (e :: rest) hne
          rw [hpl]
          have : l = 0 := hz l (by rw [hpl]; simp)
          simp [this]
        unfold scriptNum
        rw [hl]
        simp only
        rw [if_pos (by decide), show a :: b :: c :: d :: e :: rest = [a, b, c, d] ++ (e :: rest) from rfl,
          leVal_append, leVal_zeros _ hz]
        simp
      rw [hs]
      have hw : wrap32 (leVal [a, b, c, d]) =
          if d.toNat < 128 then (leVal [a, b, c, d] : Int) else (leVal [a, b, c, d] : Int) - 2 ^ 32 := by
        simp only [wrap32, leVal]
        split <;> omega
      rw [hw]
      by_cases hd8 : d.toNat < 128
      · left; rw [if_pos hd8]
      · right
        rw [if_neg hd8]
        exact ⟨by simp, by simp; omega, by simpa using hz, rfl⟩
    · left
      rw [if_neg hz]
      exact ⟨rfl, by simp⟩

example : vecToInt [1, 2, 3, 4, 0] = .ok 0x04030201 ∧
    vecToInt [1, 2, 3, 4, 5] = .err .overflow := by decide

/-- **C04** on the operand sizes script arithmetic allows (at most four bytes): decoding always
succeeds with the script number value. -/
theorem C04_decode_le4 (bs : Bytes) (h : bs.length ≤ 4) : vecToInt bs = .ok (scriptNum bs) :=
  vecToInt_le4 bs h

/-! ### C05 -/

/-- **C05**: minimal re-encoding preserves the value, never lengthens, yields a string satisfying
the MINIMALDATA rule, is idempotent, and no other string of the same value is shorter. -/
theorem C05_encode_minimally (vec : Bytes) :
    scriptNum (encodeMinimally vec) = scriptNum vec ∧
    IsMinimalNum (encodeMinimally vec) ∧
    (encodeMinimally vec).length ≤ vec.length ∧
    encodeMinimally (encodeMinimally vec) = encodeMinimally vec ∧
    (∀ other, scriptNum other = scriptNum vec → (encodeMinimally vec).length ≤ other.length) := by
  obtain ⟨h1, h2, h3⟩ := encodeMinimally_spec vec
  exact ⟨h1, h2, h3, encodeMinimally_of_minimal _ h2,
    fun other ho => minimal_length_le _ _ h2 (by rw [h1, ho])⟩

/-- **C05** (canonicity): minimal encodings are unique, so two operands denote the same number
exactly when their minimal re-encodings are identical. -/
theorem C05_minimal_unique (a b : Bytes) :
    scriptNum a = scriptNum b ↔ encodeMinimally a = encodeMinimally b := by
  obtain ⟨h1, h2, _⟩ := encodeMinimally_spec a
  obtain ⟨g1, g2, _⟩ := encodeMinimally_spec b
  constructor
  · intro h; exact minimal_unique _ _ h2 g2 (by rw [h1, g1, h])
  · intro h; rw [← h1, ← g1, h]

example : encodeMinimally [0x01, 0x00, 0x80] = [0x81] ∧ encodeMinimally [0xff, 0x00, 0x00] = [0xff, 0x00]
    ∧ encodeMinimally [0x00, 0x80] = [] := by decide

/-- **C05** (truth values): a truth value is encoded as the minimal script number 1 or 0, which every branch or
verification of the script machine takes as that truth value, and so does decoding. -/
theorem C05_bool (b : Bool) :
    scriptNum (encodeBool b) = (if b then 1 else 0) ∧ IsMinimalNum (encodeBool b) ∧
    Vm.truthy (encodeBool b) = b ∧ vecToInt (encodeBool b) = .ok (if b then 1 else 0) := by
  cases b
  · refine ⟨by decide, ?_, by decide, C04_decode_le4 [] (by decide)⟩
    intro last h; cases h
  · refine ⟨by decide, ?_, by decide, C04_decode_le4 [1] (by decide)⟩
    intro last h h2; cases h; exact absurd h2 (by decide)

end BCash
