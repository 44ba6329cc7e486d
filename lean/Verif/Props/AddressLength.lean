import Verif.Props.AddressErrors

/-! # C98: letters missing from an address, or too many, or exchanged -/

namespace BCash
open Spec CashErr

/-! ## What the checksum says about a letter inserted -/

theorem checksum_fold {pre vs : Bytes} (hv : ∀ v ∈ vs, v.toNat < 32) :
    ChecksumOk pre vs ↔ (prefixValues pre ++ vs).foldl polyStep 1 = 1 := by
  rw [← verifyChecksum_iff pre vs hv]
  unfold verifyChecksum polyMod
  rw [beq_iff_eq, UInt64.xor_eq_zero_iff]

/-- The state of the checksum after the prefix and some values. -/
def checksumState (pre x : Bytes) : UInt64 := (prefixValues pre ++ x).foldl polyStep 1

theorem checksumState_lt (pre x : Bytes) : (checksumState pre x).toNat < 2 ^ 40 :=
  polyFold_lt _ 1 (by decide)

/-- A value inserted after `x` goes undetected exactly if it leaves the state after `x` as it was. -/
theorem inserted_iff {pre x y : Bytes} {v : UInt8} (hv : v.toNat < 32)
    (hx : ∀ v ∈ x, v.toNat < 32) (hy : ∀ v ∈ y, v.toNat < 32) (hok : ChecksumOk pre (x ++ y)) :
    ChecksumOk pre (x ++ v :: y) ↔ polyStep (checksumState pre x) v = checksumState pre x := by
  have hxy : ∀ w ∈ x ++ y, w.toNat < 32 := by
    intro w h
    rcases List.mem_append.mp h with h | h
    · exact hx w h
    · exact hy w h
  have hxvy : ∀ w ∈ x ++ v :: y, w.toNat < 32 := by
    intro w h
    rcases List.mem_append.mp h with h | h
    · exact hx w h
    rcases List.mem_cons.mp h with h | h
    · rw [h]; exact hv
    · exact hy w h
  rw [checksum_fold hxy, ← List.append_assoc, List.foldl_append] at hok
  rw [checksum_fold hxvy, ← List.append_assoc, List.foldl_append, List.foldl_cons]
  constructor
  · intro h
    exact polyFold_inj y _ _ (polyStep_lt _ _ (checksumState_lt pre x)) (checksumState_lt pre x)
      (h.trans hok.symm)
  · intro h
    show y.foldl polyStep (polyStep (checksumState pre x) v) = 1
    rw [h]
    exact hok

/-- At most one value can be inserted undetected at a place. -/
theorem inserted_unique {A : UInt64} {v w : UInt8} (h : polyStep A v = A) (h' : polyStep A w = A) :
    v = w := by
  rw [polyStep_eq] at h h'
  have := h.trans h'.symm
  rw [UInt64.xor_right_inj] at this
  apply UInt8.toNat_inj.mp
  have e := congrArg UInt64.toNat this
  rwa [UInt8.toNat_toUInt64, UInt8.toNat_toUInt64] at e

theorem b32Val_xor_lt {n : Nat} {a b c : Nat} (ha : a < 2 ^ n) (hb : b < 2 ^ n) (hc : c < 2 ^ n) :
    a ^^^ b ^^^ c < 2 ^ n := Nat.xor_lt_two_pow (Nat.xor_lt_two_pow ha hb) hc

/-- Where the state after the prefix is not close to a fixed point, nothing inserted among the first
seven values goes undetected. -/
theorem inserted_early {S : UInt64}
    (hfar : ∀ n : Fin 7, 2 ^ (5 * (n.val + 1)) ≤
      ((List.replicate (n.val + 1) (0 : UInt8)).foldl polyStep S ^^^
        (List.replicate n.val (0 : UInt8)).foldl polyStep S).toNat)
    {x : Bytes} (hx : ∀ v ∈ x, v.toNat < 32) (hl : x.length ≤ 6) {v : UInt8} (hv : v.toNat < 32) :
    polyStep (x.foldl polyStep S) v ≠ x.foldl polyStep S := by
  intro h
  have hxv : ∀ w ∈ x ++ [v], w.toNat < 32 := by
    intro w hw
    rcases List.mem_append.mp hw with hw | hw
    · exact hx w hw
    · rw [List.mem_singleton.mp hw]; exact hv
  have e1 : (x ++ [v]).foldl polyStep S = polyStep (x.foldl polyStep S) v := by
    rw [List.foldl_append]; rfl
  rw [← e1, polyFold_split (x ++ [v]) S, polyFold_split x S] at h
  have hlen : (x ++ [v]).length = x.length + 1 := by simp
  rw [hlen] at h
  have hP : ((List.replicate (x.length + 1) (0 : UInt8)).foldl polyStep S ^^^
      (List.replicate x.length (0 : UInt8)).foldl polyStep S) =
      (x ++ [v]).foldl polyStep 0 ^^^ x.foldl polyStep 0 := by
    have h2 := congrArg (fun t => t ^^^ (x ++ [v]).foldl polyStep 0 ^^^
      (List.replicate x.length (0 : UInt8)).foldl polyStep S) h
    have e3 : ∀ a b c : UInt64, a ^^^ b ^^^ b ^^^ c = a ^^^ c := by
      intro a b c; rw [UInt64.xor_assoc a b b, UInt64.xor_self, UInt64.xor_zero]
    rw [e3] at h2
    rw [h2]
    have e4 : ∀ p q r : UInt64, p ^^^ q ^^^ r ^^^ p = r ^^^ q := by
      intro p q r
      have : p ^^^ q ^^^ r ^^^ p = (r ^^^ q) ^^^ (p ^^^ p) := by ac_rfl
      rw [this, UInt64.xor_self, UInt64.xor_zero]
    rw [e4]
  have hfar' := hfar ⟨x.length, by omega⟩
  dsimp only at hfar'
  rw [hP, UInt64.toNat_xor, polyFold_zero _ (by rw [hlen]; omega) hxv,
    polyFold_zero _ (by omega) hx] at hfar'
  have b1 := b32Val_lt (x.length + 1) (x ++ [v]) hlen hxv
  have b2 := b32Val_lt x.length x rfl hx
  have p1 : (32 : Nat) ^ (x.length + 1) = 2 ^ (5 * (x.length + 1)) := by
    rw [Nat.pow_mul]
  have p2 : (32 : Nat) ^ x.length ≤ 2 ^ (5 * (x.length + 1)) := by
    rw [← p1]; exact Nat.pow_le_pow_right (by omega) (by omega)
  rw [p1] at b1
  have := Nat.xor_lt_two_pow b1 (Nat.lt_of_lt_of_le b2 p2)
  omega

/-! ## Strings -/

/-- The values of an accepted payload given in two parts. -/
theorem accepted_parts {s pre x y : Bytes} {a : Address} (hs : CashParts s pre (x ++ y))
    (hok : Address.fromCashAddr s = .ok a) : ∃ vx vy : Bytes,
      x.map asciiLower = vx.map cashLetter ∧ y.map asciiLower = vy.map cashLetter ∧
      (∀ v ∈ vx, v.toNat < 32) ∧ (∀ v ∈ vy, v.toNat < 32) ∧ ChecksumOk (pre.map asciiLower) (vx ++ vy) := by
  obtain ⟨vs, h1, hv, hc⟩ := accepted_values hs hok
  rw [List.map_append] at h1
  obtain ⟨vx, vy, e, h2, h3⟩ := List.map_eq_append_iff.mp h1.symm
  subst e
  exact ⟨vx, vy, h2.symm, h3.symm, fun v h => hv v (by simp [h]), fun v h => hv v (by simp [h]), hc⟩

/-- A string which does not give an error has letters of the alphabet and a valid checksum. -/
theorem not_error_values {s pre payload : Bytes} (hs : CashParts s pre payload)
    (hne : ∀ e, Address.fromCashAddr s ≠ .err e)  :
    (∃ vs : Bytes, payload.map asciiLower = vs.map cashLetter ∧ (∀ v ∈ vs, v.toNat < 32) ∧
      ChecksumOk (pre.map asciiLower) vs) := by
  rcases parseParts_cases (pre.map asciiLower) (payload.map asciiLower) with
    ⟨_, _, _, _, _, _, h⟩ | ⟨_, _, _, _, h⟩ | ⟨vs, h1, hv, hc⟩
  · exact absurd (fromCashAddr_err (by rw [raw_parts hs, h])) (hne _)
  · exact absurd (fromCashAddr_err (by rw [raw_parts hs, h])) (hne _)
  · exact ⟨vs, h1, hv, hc⟩

/-- A letter inserted into an accepted payload without an error. -/
theorem inserted_letter {s s' pre x y : Bytes} {c : UInt8} {a : Address}
    (hs : CashParts s pre (x ++ y)) (hok : Address.fromCashAddr s = .ok a)
    (hs' : CashParts s' pre (x ++ c :: y)) (hne : ∀ e, Address.fromCashAddr s' ≠ .err e) :
    ∃ (vx : Bytes) (v : UInt8), x.map asciiLower = vx.map cashLetter ∧ asciiLower c = cashLetter v ∧
      (∀ v ∈ vx, v.toNat < 32) ∧ v.toNat < 32 ∧
      polyStep (checksumState (pre.map asciiLower) vx) v = checksumState (pre.map asciiLower) vx := by
  obtain ⟨vx, vy, hx, hy, hvx, hvy, hc⟩ := accepted_parts hs hok
  obtain ⟨vs, h1, hv, hc'⟩ := not_error_values hs' hne
  rw [List.map_append, List.map_cons] at h1
  obtain ⟨ux, ur, e, h2, h3⟩ := List.map_eq_append_iff.mp h1.symm
  subst e
  obtain ⟨v, uy, e, h4, h5⟩ := List.map_eq_cons_iff.mp h3
  subst e
  have e1 : ux = vx := letters_inj ux vx (fun v h => hv v (by simp [h])) hvx (h2.trans hx)
  have e2 : uy = vy := letters_inj uy vy (fun v h => hv v (by simp [h])) hvy (h5.trans hy)
  subst e1 e2
  have hv32 : v.toNat < 32 := hv v (by simp)
  exact ⟨ux, v, hx, h4.symm, hvx, hv32, (inserted_iff hv32 hvx hvy hc).mp hc'⟩

/-- **C98 fails** (a letter too many): both strings are accepted, the second is the first with one letter
inserted (a `p` after the thirtieth letter), and they denote different hashes. -/
theorem C98_detected_fails :
    ∃ a b, Address.fromCashAddr
        (asciiBytes "bitcoincash:qqqqqqqqqqqqqqqqqqqqqqtgg60llyr8fsk0gaeyev".toList) = .ok a ∧
      Address.fromCashAddr
        (asciiBytes "bitcoincash:qqqqqqqqqqqqqqqqqqqqqqtgg60llypr8fsk0gaeyev".toList) = .ok b ∧
      a.hash ≠ b.hash := by
  set_option maxRecDepth 100000 in exact ⟨_, _, rfl, rfl, by decide⟩

/-- **C98 fails** (a letter missing): the first string is accepted; dropping its last letter but one makes
parsing panic. -/
theorem C98_no_panic_fails :
    (∃ a, Address.fromCashAddr
      (asciiBytes "bitcoincash:qqqqqqqqqqqqqqqqqqqqqqqqqqqqqqqf2qsr339pqp".toList) = .ok a) ∧
    Address.fromCashAddr
      (asciiBytes "bitcoincash:qqqqqqqqqqqqqqqqqqqqqqqqqqqqqqqf2qsr339pp".toList) = .panic := by
  set_option maxRecDepth 100000 in exact ⟨⟨_, rfl⟩, by decide⟩

/-- **C98 fails** (for every address ending in `p`): inserting a `q` before that `p` is not detected. An
accepted string of 42 letters is accepted with it, as the same hash and type; one of 43 letters makes
parsing panic. -/
theorem C98_q_before_p_fails (pre w s s' : Bytes) (c d : UInt8) (a : Address)
    (hs : CashParts s pre (w ++ [c])) (hs' : CashParts s' pre (w ++ [d, c]))
    (hc : asciiLowerSpec c = UInt8.ofNat 'p'.toNat) (hd : asciiLowerSpec d = UInt8.ofNat 'q'.toNat)
    (hok : Address.fromCashAddr s = .ok a) :
    ((w ++ [c]).length = 42 ∧ ∃ a', Address.fromCashAddr s' = .ok a' ∧ a'.hash = a.hash ∧
      a'.addrType = a.addrType ∧ a'.prefixStr = a.prefixStr) ∨
    ((w ++ [c]).length = 43 ∧ Address.fromCashAddr s' = .panic) := by
  have hlow : asciiLowerSpec = asciiLower := by funext c; rw [lower_eq]
  rw [hlow] at hc hd
  obtain ⟨vx, vy, hx, hy, hvx, hvy, hck⟩ := accepted_parts hs hok
  have h42 := (C31_canonical_partial s pre _ a hs hok).2.1
  obtain ⟨v, rfl⟩ : ∃ v, vy = [v] := by
    cases vy with
    | nil => simp at hy
    | cons v vy =>
      cases vy with
      | nil => exact ⟨v, rfl⟩
      | cons _ _ => simp at hy
  have hv1 : v = 1 := by
    simp only [List.map_cons, List.map_nil, List.cons.injEq, and_true] at hy
    rw [hc] at hy
    exact (cashLetter_inj (by decide) (hvy v (by simp)) (hy ▸ by decide : cashLetter 1 = cashLetter v)).symm
  subst hv1
  have hd0 : asciiLower d = cashLetter 0 := by rw [hd]; decide
  have hc1 : asciiLower c = cashLetter 1 := by rw [hc]; decide
  -- the state before the last letter is 0
  have hall : ∀ u ∈ vx ++ [1], u.toNat < 32 := by
    intro u h
    rcases List.mem_append.mp h with h | h
    · exact hvx u h
    · exact hvy u h
  have hst : checksumState (pre.map asciiLower) vx = 0 := by
    have := (checksum_fold hall).mp hck
    rw [← List.append_assoc, List.foldl_append, List.foldl_cons, List.foldl_nil] at this
    change polyStep (checksumState (pre.map asciiLower) vx) 1 = 1 at this
    rw [polyStep_eq] at this
    apply polyLin_zero (checksumState_lt _ _)
    have h2 := congrArg (fun t => t ^^^ (1 : UInt8).toUInt64) this
    rw [UInt64.xor_assoc, UInt64.xor_self, UInt64.xor_zero] at h2
    rw [h2]; decide
  have hck' : ChecksumOk (pre.map asciiLower) (vx ++ 0 :: [1]) := by
    rw [inserted_iff (by decide) hvx hvy hck, hst]; decide
  have hall' : ∀ u ∈ vx ++ 0 :: [1], u.toNat < 32 := by
    intro u h
    rcases List.mem_append.mp h with h | h
    · exact hvx u h
    rcases List.mem_cons.mp h with h | h
    · rw [h]; decide
    · exact hvy u h
  have hpay' : (w ++ [d, c]).map asciiLower = (vx ++ 0 :: [1]).map cashLetter := by
    simp only [List.map_append, List.map_cons, List.map_nil, hx, hd0, hc1]
  have hpay : (w ++ [c]).map asciiLower = (vx ++ [1]).map cashLetter := by
    simp only [List.map_append, List.map_cons, List.map_nil, hx, hc1]
  have hwl : vx.length = w.length := by
    have := congrArg List.length hx
    simp only [List.length_map] at this
    exact this.symm
  rw [fromCashAddr_ok] at hok
  have hok := hok.1
  rw [raw_parts hs, hpay] at hok
  rcases parseParts_values _ _ hall hck with ⟨_, _, h2⟩ | ⟨h2, version, hash, hb, h3⟩
  · rw [h2] at hok; cases hok
  rcases parseParts_values _ _ hall' hck' with ⟨h4, h5, h6⟩ | ⟨h4, version', hash', hb', h6⟩
  · right
    refine ⟨?_, ?_⟩
    · simp only [List.length_append, List.length_cons, List.length_nil] at h4 h5 h42 ⊢
      omega
    · rw [fromCashAddr_panic, raw_parts hs', hpay', h6]
  · left
    have hl42 : (w ++ [c]).length = 42 := by
      simp only [List.length_append, List.length_cons, List.length_nil] at h4 h42 ⊢
      omega
    refine ⟨hl42, ?_⟩
    have hsame : bitsAll 8 (version :: hash.1) = bitsAll 8 (version' :: hash'.1) := by
      rw [hb, hb']
      have hvl : vx.length = 41 := by
        simp only [List.length_append, List.length_cons, List.length_nil] at hl42
        omega
      rw [bitsAll_append, bitsAll_append, List.take_append_of_le_length (by simp [hvl]),
        List.take_append_of_le_length (by simp [hvl])]
    have hlist : version :: hash.1 = version' :: hash'.1 := 
      bitsAll_inj 8 (by omega) _ _ (fun v _ => v.toNat_lt) (fun v _ => v.toNat_lt) hsame
    injection hlist with hver hhash
    have hhash : hash = hash' := Subtype.ext hhash
    subst hver hhash
    rw [h3] at hok
    refine ⟨⟨a.addrType, a.hash, s', a.prefixStr, Prefix.fromStr a.prefixStr⟩, ?_, rfl, rfl, rfl⟩
    rw [fromCashAddr_ok]
    refine ⟨?_, rfl, rfl⟩
    rw [raw_parts hs', hpay', h6]
    exact hok

/-- An address ending in `p`: with a `q` inserted, it is the same address. -/
example :
    CashParts (asciiBytes "bitcoincash:qqqqqqqqqqqqqqqqqqqqqqqqqqqqqqqf2qsr339pqp".toList)
      (asciiBytes "bitcoincash".toList)
      (asciiBytes "qqqqqqqqqqqqqqqqqqqqqqqqqqqqqqqf2qsr339pq".toList ++ [UInt8.ofNat 'p'.toNat]) ∧
    (∃ a, Address.fromCashAddr
      (asciiBytes "bitcoincash:qqqqqqqqqqqqqqqqqqqqqqqqqqqqqqqf2qsr339pqp".toList) = .ok a) ∧
    (∃ a, Address.fromCashAddr
      (asciiBytes "bitcoincash:qqqqqqqqqqqqqqqqqqqqqqqqqqqqqqqf2qsr339pqqp".toList) = .ok a) :=
  ⟨.colon (asciiBytes "bitcoincash".toList) _ (by decide), ⟨_, by set_option maxRecDepth 100000 in rfl⟩,
    ⟨_, by set_option maxRecDepth 100000 in rfl⟩⟩

/-- **C98**, the part that holds (one letter too many): at every place of an accepted payload there is at
most one letter which, inserted there, does not give an error. -/
theorem C98_one_letter_partial (pre x y s s₁ s₂ : Bytes) (c₁ c₂ : UInt8) (a : Address)
    (hs : CashParts s pre (x ++ y)) (hok : Address.fromCashAddr s = .ok a)
    (h₁ : CashParts s₁ pre (x ++ c₁ :: y)) (h₂ : CashParts s₂ pre (x ++ c₂ :: y))
    (hne₁ : ∀ e, Address.fromCashAddr s₁ ≠ .err e) (hne₂ : ∀ e, Address.fromCashAddr s₂ ≠ .err e) :
    asciiLowerSpec c₁ = asciiLowerSpec c₂ := by
  have hlow : asciiLowerSpec = asciiLower := by funext c; rw [lower_eq]
  rw [hlow]
  obtain ⟨vx, v, hx, hc, hvx, hv, hst⟩ := inserted_letter hs hok h₁ hne₁
  obtain ⟨vx', v', hx', hc', hvx', hv', hst'⟩ := inserted_letter hs hok h₂ hne₂
  have : vx' = vx := letters_inj _ _ hvx' hvx (hx'.symm.trans hx)
  subst this
  rw [hc, hc', inserted_unique hst hst']

/-- The state after a prefix. -/
theorem checksumState_append (pre x : Bytes) :
    checksumState pre x = x.foldl polyStep (checksumState pre []) := by
  unfold checksumState
  rw [List.append_nil, List.foldl_append]

/-- **C98**, the part that holds (at the beginning): a letter inserted before any of the first seven letters
of the payload of an accepted address with one of the two known prefixes always gives an error. -/
theorem C98_beginning_partial (p : Prefix) (x y s s' : Bytes) (c : UInt8) (a : Address)
    (hs : CashParts s p.str (x ++ y)) (hok : Address.fromCashAddr s = .ok a)
    (hs' : CashParts s' p.str (x ++ c :: y)) (hl : x.length ≤ 6) :
    ∃ e, Address.fromCashAddr s' = .err e := by
  cases hr : Address.fromCashAddr s' with
  | err e => exact ⟨e, rfl⟩
  | ok b =>
    exfalso
    obtain ⟨vx, v, hx, -, hvx, hv, hst⟩ := inserted_letter hs hok hs' (by rw [hr]; intro e h; cases h)
    rw [checksumState_append] at hst
    refine inserted_early ?_ hvx ?_ hv hst
    · cases p <;> decide +kernel
    · have := congrArg List.length hx
      simp only [List.length_map] at this
      omega
  | panic =>
    exfalso
    obtain ⟨vx, v, hx, -, hvx, hv, hst⟩ := inserted_letter hs hok hs' (by rw [hr]; intro e h; cases h)
    rw [checksumState_append] at hst
    refine inserted_early ?_ hvx ?_ hv hst
    · cases p <;> decide +kernel
    · have := congrArg List.length hx
      simp only [List.length_map] at this
      omega

/-- The zero address with a letter inserted before the third. -/
example :
    (∃ a, Address.fromCashAddr
      (asciiBytes "bitcoincash:qqqqqqqqqqqqqqqqqqqqqqqqqqqqqqqqqqfnhks603".toList) = .ok a) ∧
    Address.fromCashAddr
      (asciiBytes "bitcoincash:qqzqqqqqqqqqqqqqqqqqqqqqqqqqqqqqqqqfnhks603".toList) =
      .err (.invalidCashAddr .invalidChecksum) := by
  set_option maxRecDepth 100000 in exact ⟨⟨_, rfl⟩, by decide⟩

/-- **C98**, the part that holds (other lengths): no string with less than 42 or more than 43 letters is
accepted. So a string made from a generated address (which has 42, `C54_total`) by dropping letters, or by
adding more than one, is never taken for an address. -/
theorem C98_lengths_partial (pre payload s : Bytes) (hs : CashParts s pre payload)
    (hl : payload.length < 42 ∨ 43 < payload.length) (a : Address) : Address.fromCashAddr s ≠ .ok a := by
  intro hok
  have h := (C31_canonical_partial s pre payload a hs hok).2.1
  omega

/-- The zero address without its last letter. -/
example : CashParts (asciiBytes "bitcoincash:qqqqqqqqqqqqqqqqqqqqqqqqqqqqqqqqqqfnhks60".toList)
      (asciiBytes "bitcoincash".toList) (asciiBytes "qqqqqqqqqqqqqqqqqqqqqqqqqqqqqqqqqqfnhks60".toList) ∧
    (asciiBytes "qqqqqqqqqqqqqqqqqqqqqqqqqqqqqqqqqqfnhks60".toList).length < 42 :=
  ⟨.colon (asciiBytes "bitcoincash".toList) _ (by decide), by decide⟩

theorem letter_mem {v : UInt8} (h : v.toNat < 32) : cashLetter v ∈ cashAlphabet := by
  have : ∀ n : Fin 32, cashLetter (UInt8.ofNat n.val) ∈ cashAlphabet := by decide
  have e := this ⟨v.toNat, h⟩
  rwa [UInt8.ofNat_toNat] at e

/-- **C98** (exchanged letters): exchanging two neighbouring letters of the payload of an accepted address
gives a checksum error, unless they are the same letter. -/
theorem C98_exchanged (pre x y s s' : Bytes) (c d : UInt8) (a : Address)
    (hs : CashParts s pre (x ++ [c, d] ++ y)) (hs' : CashParts s' pre (x ++ [d, c] ++ y))
    (hok : Address.fromCashAddr s = .ok a) (hne : asciiLowerSpec c ≠ asciiLowerSpec d) :
    Address.fromCashAddr s' = .err (.invalidCashAddr .invalidChecksum) := by
  have hlow : asciiLowerSpec = asciiLower := by funext c; rw [lower_eq]
  refine C29_burst pre x [c, d] [d, c] y s s' a hs hs' hok rfl (by simp) ?_ ?_
  · obtain ⟨vs, h1, hv, -⟩ := accepted_values hs hok
    have hmem : ∀ b ∈ [c, d], asciiLower b ∈ cashAlphabet := by
      intro b hb
      have : asciiLower b ∈ (x ++ [c, d] ++ y).map asciiLower :=
        List.mem_map_of_mem (by simp only [List.mem_append]; exact .inl (.inr hb))
      rw [h1, List.mem_map] at this
      obtain ⟨v, hv', e⟩ := this
      rw [← e]
      exact letter_mem (hv v hv')
    intro b hb
    rw [hlow]
    apply hmem
    simp only [List.mem_cons, List.not_mem_nil, or_false] at hb ⊢
    exact hb.symm
  · simp only [List.map_cons, List.map_nil, ne_eq, List.cons.injEq, and_true]
    intro h
    exact hne h.2

/-- Two neighbouring letters exchanged. -/
example :
    CashParts (asciiBytes "bitcoincash:qqqqqqqqqqqqqqqqqqqqqqqqqqqqqqqqqqfnhks603".toList)
      (asciiBytes "bitcoincash".toList)
      (asciiBytes "qqqqqqqqqqqqqqqqqqqqqqqqqqqqqqqqqq".toList ++
        [UInt8.ofNat 'f'.toNat, UInt8.ofNat 'n'.toNat] ++ asciiBytes "hks603".toList) ∧
    Address.fromCashAddr
      (asciiBytes "bitcoincash:qqqqqqqqqqqqqqqqqqqqqqqqqqqqqqqqqqnfhks603".toList) =
      .err (.invalidCashAddr .invalidChecksum) := by
  refine ⟨.colon (asciiBytes "bitcoincash".toList) _ (by decide), ?_⟩
  set_option maxRecDepth 100000 in decide

end BCash
