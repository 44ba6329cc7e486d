import Verif.Proofs.Bits
import Verif.Proofs.PolyMod

/-! # Cash addresses: the code's checksum is the specified one; parsing by parts -/

namespace BCash
open Spec

/-! ## The checksum -/

theorem digits8_xor (a b : UInt64) :
    (digits8 (a ^^^ b)).map UInt8.toNat =
      List.zipWith (· ^^^ ·) ((digits8 a).map UInt8.toNat) ((digits8 b).map UInt8.toNat) := by
  have h : ∀ s : UInt64, (((a ^^^ b) >>> s) &&& 0x1f).toUInt8.toNat =
      ((a >>> s) &&& 0x1f).toUInt8.toNat ^^^ ((b >>> s) &&& 0x1f).toUInt8.toNat := by
    intro s
    rw [← UInt8.toNat_xor, ← UInt64.toUInt8_xor, UInt64.shiftRight_xor]
    congr 2
    apply UInt64.toBitVec_inj.1
    simp only [UInt64.toBitVec_and, UInt64.toBitVec_xor]
    ext i
    simp only [BitVec.getElem_and, BitVec.getElem_xor]
    cases (a >>> s).toBitVec[i] <;> cases (b >>> s).toBitVec[i] <;> simp
  simp only [digits8_eq, List.map_cons, List.map_nil, List.zipWith_cons_cons, List.zipWith_nil_left,
    h]

set_option maxRecDepth 100000 in
theorem polyTab_generator : ∀ d : Fin 32, (digits8 (polyTab (UInt8.ofNat d.val))).map UInt8.toNat =
    cashGenerator.map (gfMul d.val) := by decide

/-- The digits of a 40-bit number. -/
theorem digits8_toNat (p : UInt64) : (digits8 p).map UInt8.toNat =
    [p.toNat / 2 ^ 35 % 32, p.toNat / 2 ^ 30 % 32, p.toNat / 2 ^ 25 % 32, p.toNat / 2 ^ 20 % 32,
     p.toNat / 2 ^ 15 % 32, p.toNat / 2 ^ 10 % 32, p.toNat / 2 ^ 5 % 32, p.toNat / 2 ^ 0 % 32] := by
  rw [digits8_eq]
  simp only [List.map_cons, List.map_nil]
  rw [digit_toNat _ 35 (by decide), digit_toNat _ 30 (by decide), digit_toNat _ 25 (by decide),
    digit_toNat _ 20 (by decide), digit_toNat _ 15 (by decide), digit_toNat _ 10 (by decide),
    digit_toNat _ 5 (by decide), digit_toNat _ 0 (by decide)]
  rfl

theorem digits8_polyStep (c : UInt64) (v : UInt8) (hc : c.toNat < 2 ^ 40) (hv : v.toNat < 32) :
    (digits8 (polyStep c v)).map UInt8.toNat = remStep ((digits8 c).map UInt8.toNat) v.toNat := by
  have h2 := top_toNat c hc
  have e : UInt8.ofNat (c.toNat / 2 ^ 35) = (c >>> 35).toUInt8 := by
    apply UInt8.toNat_inj.mp; rw [h2, ofNat_toNat_lt (by omega)]
  have hg := polyTab_generator ⟨c.toNat / 2 ^ 35, by omega⟩
  dsimp only at hg
  rw [e] at hg
  have hx : polyStep c v =
      (((c &&& 0x07ffffffff) <<< 5) ^^^ v.toUInt64) ^^^ polyTab (c >>> 35).toUInt8 := by
    rw [polyStep_eq, polyLin]; ac_rfl
  have hn : (((c &&& 0x07ffffffff) <<< 5) ^^^ v.toUInt64).toNat = 32 * (c.toNat % 2 ^ 35) + v.toNat := by
    rw [UInt64.toNat_xor, mask_toNat64, UInt8.toNat_toUInt64]
    rw [show 32 * (c.toNat % 2 ^ 35) = (c.toNat % 2 ^ 35) <<< 5 by rw [Nat.shiftLeft_eq]; omega]
    rw [Nat.shiftLeft_add_eq_or_of_lt (show v.toNat < 2 ^ 5 by omega)]
    apply Nat.eq_of_testBit_eq
    intro i
    rw [Nat.testBit_xor, Nat.testBit_or, Nat.testBit_shiftLeft]
    by_cases hi : i < 5
    · simp [show ¬ 5 ≤ i by omega]
    · rw [Nat.testBit_lt_two_pow (Nat.lt_of_lt_of_le (show v.toNat < 2 ^ 5 by omega)
        (Nat.pow_le_pow_right (by omega) (by omega)))]
      simp
  rw [hx, digits8_xor, hg, digits8_toNat, digits8_toNat, hn]
  simp only [remStep]
  rw [show c.toNat / 2 ^ 35 % 32 = c.toNat / 2 ^ 35 by omega]
  congr 1
  simp only [List.cons_append, List.nil_append, List.cons.injEq, and_true]
  refine ⟨?_, ?_, ?_, ?_, ?_, ?_, ?_, ?_⟩ <;> omega

theorem digits8_fold (vs : Bytes) : ∀ (c : UInt64), c.toNat < 2 ^ 40 → (∀ v ∈ vs, v.toNat < 32) →
    (digits8 (vs.foldl polyStep c)).map UInt8.toNat =
      (vs.map UInt8.toNat).foldl remStep ((digits8 c).map UInt8.toNat) := by
  induction vs with
  | nil => intro c _ _; rfl
  | cons v vs ih =>
    intro c hc hv
    rw [List.foldl_cons, ih _ (polyStep_lt c v hc) (fun x hx => hv x (by simp [hx])),
      digits8_polyStep c v hc (hv v (by simp)), List.map_cons, List.foldl_cons]

theorem and1f_toNat (b : UInt8) : (b &&& 0x1f).toNat = b.toNat % 32 := by
  rw [UInt8.toNat_and, show (0x1f : UInt8).toNat = 2 ^ 5 - 1 by rfl, Nat.and_two_pow_sub_one_eq_mod]

theorem prefixValues_lt (pre : Bytes) : ∀ v ∈ prefixValues pre, v.toNat < 32 := by
  intro v hv
  simp only [prefixValues, List.mem_append, List.mem_map, List.mem_singleton] at hv
  rcases hv with ⟨a, _, h⟩ | h
  · rw [← h, and1f_toNat]; exact Nat.mod_lt _ (by omega)
  · rw [h]; decide

theorem digits8_inj {a b : UInt64} (ha : a.toNat < 2 ^ 40) (hb : b.toNat < 2 ^ 40)
    (h : (digits8 a).map UInt8.toNat = (digits8 b).map UInt8.toNat) : a = b := by
  have h1 : digits8 a = digits8 b :=
    (List.map_inj_right (fun x y hxy => UInt8.toNat_inj.mp hxy)).mp h
  apply UInt64.toNat_inj.mp
  rw [← b32Val_digits8 a ha, ← b32Val_digits8 b hb, h1]

/-- `_verify_checksum` decides the specified checksum condition. -/
theorem verifyChecksum_iff (pre vs : Bytes) (hv : ∀ v ∈ vs, v.toNat < 32) :
    verifyChecksum pre vs = true ↔ ChecksumOk pre vs := by
  have hall : ∀ v ∈ prefixValues pre ++ vs, v.toNat < 32 := by
    intro v h
    rw [List.mem_append] at h
    rcases h with h | h
    · exact prefixValues_lt pre v h
    · exact hv v h
  have hf := digits8_fold (prefixValues pre ++ vs) 1 (by decide) hall
  have hlt := polyFold_lt (prefixValues pre ++ vs) 1 (by decide)
  have hcov : (prefixValues pre ++ vs).map UInt8.toNat = cashCovered pre vs := by
    simp only [prefixValues, cashCovered, List.map_append, List.map_map, List.map_cons, List.map_nil]
    congr 2
    apply List.map_congr_left
    intro a _
    exact and1f_toNat a
  rw [hcov] at hf
  have h1 : (digits8 1).map UInt8.toNat = [0, 0, 0, 0, 0, 0, 0, 1] := by decide
  unfold verifyChecksum polyMod ChecksumOk cashRemainder
  rw [beq_iff_eq, UInt64.xor_eq_zero_iff]
  rw [h1] at hf
  rw [← hf]
  constructor
  · intro h; rw [h]; exact h1
  · intro h; exact digits8_inj hlt (by decide) (by rw [h, h1])

/-! ## The alphabet -/

theorem charset_eq : CHARSET = cashAlphabet := by decide

theorem lower_eq (c : UInt8) : asciiLower c = asciiLowerSpec c := by
  unfold asciiLower asciiLowerSpec
  rw [show 'A'.toNat = 65 by rfl, show 'Z'.toNat = 90 by rfl]
  split
  · apply UInt8.toNat_inj.mp
    rw [UInt8.toNat_add, UInt8.toNat_ofNat']
    rfl
  · rfl

set_option maxRecDepth 100000 in
theorem letter_facts : ∀ n : Fin 32,
    CHARSET[n.val]? = some (cashLetter (UInt8.ofNat n.val)) ∧
    CHARSET.findIdx? (fun c => cashLetter (UInt8.ofNat n.val) == c) = some n.val ∧
    asciiLower (cashLetter (UInt8.ofNat n.val)) = cashLetter (UInt8.ofNat n.val) ∧
    cashLetter (UInt8.ofNat n.val) ≠ 0x3a := by decide

theorem letter_fact (v : UInt8) (h : v.toNat < 32) :
    CHARSET[v.toNat]? = some (cashLetter v) ∧
    CHARSET.findIdx? (fun c => cashLetter v == c) = some v.toNat ∧
    asciiLower (cashLetter v) = cashLetter v ∧ cashLetter v ≠ 0x3a := by
  have := letter_facts ⟨v.toNat, h⟩
  simpa using this

set_option maxRecDepth 100000 in
theorem letter_of_find : ∀ b : UInt8, ∀ n : Fin 32,
    CHARSET.findIdx? (fun c => b == c) = some n.val → b = cashLetter (UInt8.ofNat n.val) :=
  forall_u8 (by decide)

theorem find_lt {b : UInt8} {p : Nat} (h : CHARSET.findIdx? (fun c => b == c) = some p) :
    p < 32 := by
  have := List.findIdx?_eq_some_iff_findIdx_eq.mp h
  exact this.1

theorem mapToB32_letters (vs : Bytes) (h : ∀ v ∈ vs, v.toNat < 32) :
    mapToB32 vs = some (vs.map cashLetter) := by
  induction vs with
  | nil => rfl
  | cons v vs ih =>
    simp only [mapToB32, (letter_fact v (h v (by simp))).1, ih (fun x hx => h x (by simp [hx])),
      List.map_cons]

theorem mapFromB32_letters (vs : Bytes) (h : ∀ v ∈ vs, v.toNat < 32) : ∀ i,
    mapFromB32 i (vs.map cashLetter) = .ok vs := by
  induction vs with
  | nil => intro i; rfl
  | cons v vs ih =>
    intro i
    simp only [List.map_cons, mapFromB32, (letter_fact v (h v (by simp))).2.1,
      ih (fun x hx => h x (by simp [hx]))]
    simp

theorem mapFromB32_ok : ∀ (s : Bytes) (i : Nat) (vs : Bytes), mapFromB32 i s = .ok vs →
    s = vs.map cashLetter ∧ ∀ v ∈ vs, v.toNat < 32
  | [], i, vs, h => by
    simp only [mapFromB32, Except.ok.injEq] at h
    subst h; simp
  | x :: xs, i, vs, h => by
    simp only [mapFromB32] at h
    split at h
    · cases h
    · next p hp =>
      split at h
      · cases h
      · next ps hps =>
        injection h with h
        subst h
        have hp32 := find_lt hp
        obtain ⟨e, hl⟩ := mapFromB32_ok xs (i + 1) ps hps
        refine ⟨?_, ?_⟩
        · rw [List.map_cons, ← e, ← letter_of_find x ⟨p, hp32⟩ hp]
        · intro v hv
          simp only [List.mem_cons] at hv
          rcases hv with hv | hv
          · rw [hv, ofNat_toNat_lt (by omega)]; exact hp32
          · exact hl v hv

theorem mapFromB32_err : ∀ (s : Bytes) (i : Nat) (e : CashAddrError), mapFromB32 i s = .error e →
    ∃ a x b, s = a ++ [x] ++ b ∧ e = .invalidBase32Letter (i + a.length) x ∧
      x ∉ cashAlphabet ∧ ∀ c ∈ a, c ∈ cashAlphabet
  | [], i, e, h => by simp [mapFromB32] at h
  | x :: xs, i, e, h => by
    simp only [mapFromB32] at h
    split at h
    · next hn =>
      injection h with h
      refine ⟨[], x, xs, by simp, by simp [← h], ?_, by simp⟩
      rw [List.findIdx?_eq_none_iff] at hn
      intro hx
      rw [← charset_eq] at hx
      have := hn x hx
      simp at this
    · next p hp =>
      split at h
      · next e' he =>
        injection h with h
        subst h
        obtain ⟨a, y, b, h1, h2, h3, h4⟩ := mapFromB32_err xs (i + 1) _ he
        refine ⟨x :: a, y, b, by simp [h1], by rw [h2]; simp; omega, h3, ?_⟩
        intro c hc
        simp only [List.mem_cons] at hc
        rcases hc with hc | hc
        · rw [hc, ← charset_eq]
          obtain ⟨h5, h6⟩ := List.findIdx?_eq_some_iff_findIdx_eq.mp hp
          have h7 : CHARSET.findIdx (fun c => x == c) < CHARSET.length := by rw [h6]; exact h5
          have := List.findIdx_getElem (w := h7)
          simp only [beq_iff_eq] at this
          rw [this]
          exact List.getElem_mem _
        · exact h4 c hc
      · cases h

/-! ## Parsing by parts -/

/-- The end of `_from_cash_addr`: from the regrouped bytes. -/
def finishParts (pre converted : Bytes) : Res CashAddrError (Hash160 × AddressType × Bytes) :=
  if converted.length < 7 then .panic
  else
    let slice := (converted.take (converted.length - 6)).drop 1
    if h : slice.length = 20 then
      match converted with
      | [] => .panic
      | v :: _ =>
        if v = 0 then .ok (⟨slice, h⟩, .P2PKH, pre)
        else if v = 8 then .ok (⟨slice, h⟩, .P2SH, pre)
        else .err (.invalidAddressType v)
    else .panic

/-- `_from_cash_addr` after lower-casing and splitting off the prefix. -/
def parseParts (pre payload : Bytes) : Res CashAddrError (Hash160 × AddressType × Bytes) :=
  (Res.ofExcept id (mapFromB32 0 payload)).bind fun decoded =>
    if !verifyChecksum pre decoded then .err .invalidChecksum
    else match convertBits decoded 5 8 true with
      | none => .panic
      | some converted => finishParts pre converted

set_option maxRecDepth 100000 in
theorem lower_colon : ∀ c : UInt8, asciiLower c = 0x3a ↔ c = 0x3a := forall_u8 (by decide)

theorem findIdx_colon_none (s : Bytes) (h : (0x3a : UInt8) ∉ s) :
    s.findIdx? (· == 0x3a) = none := by
  rw [List.findIdx?_eq_none_iff]
  intro x hx
  simp only [beq_eq_false_iff_ne]
  intro e; subst e; exact h hx

theorem findIdx_colon (pre payload : Bytes) (h : (0x3a : UInt8) ∉ pre) :
    (pre ++ [0x3a] ++ payload).findIdx? (· == 0x3a) = some pre.length := by
  induction pre with
  | nil => rfl
  | cons c pre ih =>
    simp only [List.mem_cons, not_or] at h
    have hc : (c == 0x3a) = false := by
      simp only [beq_eq_false_iff_ne]; exact fun e => h.1 e.symm
    simp only [List.cons_append, List.findIdx?_cons, hc, Bool.false_eq_true, if_false, ih h.2,
      List.length_cons, Option.map_some]

theorem not_mem_lower {s : Bytes} (h : (0x3a : UInt8) ∉ s) : (0x3a : UInt8) ∉ s.map asciiLower := by
  intro hm
  rw [List.mem_map] at hm
  obtain ⟨c, hc, e⟩ := hm
  rw [lower_colon] at e
  subst e; exact h hc

theorem raw_parts {s pre payload : Bytes} (h : CashParts s pre payload) :
    fromCashAddrRaw s (Prefix.str .bitcoinCash) =
      parseParts (pre.map asciiLower) (payload.map asciiLower) := by
  have key : splitPrefix (s.map asciiLower) (Prefix.str .bitcoinCash) =
      (pre.map asciiLower, payload.map asciiLower) := by
    cases h with
    | colon _ _ hc =>
      simp only [List.map_append, List.map_cons, List.map_nil]
      rw [show asciiLower 0x3a = 0x3a by decide]
      unfold splitPrefix
      rw [findIdx_colon _ _ (not_mem_lower hc)]
      dsimp only
      rw [List.drop_left' (by simp)]
      simp
    | default_ _ hc =>
      unfold splitPrefix
      rw [findIdx_colon_none _ (not_mem_lower hc)]
      have : Prefix.str .bitcoinCash = List.map asciiLower
        (['b', 'i', 't', 'c', 'o', 'i', 'n', 'c', 'a', 's', 'h'].map fun c => UInt8.ofNat c.toNat) := by
        decide
      rw [this]
  unfold fromCashAddrRaw
  dsimp only
  rw [key]
  rfl

theorem bitsAll_take (w : Nat) (a b : Bytes) (k : Nat) (h : a.length = k) :
    (bitsAll w (a ++ b)).take (w * k) = bitsAll w a := by
  rw [bitsAll_append, List.take_append_of_le_length (by simp [h])]
  rw [List.take_of_length_le (by simp [h])]

/-- The hash part of the decoded payload. -/
theorem converted_prefix {vs out : Bytes} (hv : ∀ v ∈ vs, v.toNat < 32)
    (h : convertBits vs 5 8 true = some out) (k : Nat) (hk : k ≤ out.length)
    (h8 : 8 * k ≤ 5 * vs.length) :
    bitsAll 8 (out.take k) = (bitsAll 5 vs).take (8 * k) := by
  obtain ⟨out', z, e, _, hb, _⟩ := convertBits_spec 5 8 (by omega) (by omega) (by omega) vs
    (fun v hv' => by have := hv v hv'; omega)
  rw [h] at e; injection e with e; subst e
  have h1 := bitsAll_take 8 (out.take k) (out.drop k) k (by simp; omega)
  rw [List.take_append_drop] at h1
  rw [← h1, hb, List.take_append_of_le_length (by simp; omega)]

end BCash
