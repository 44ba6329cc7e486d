import Verif.Proofs.CashAddr

/-! # C28–C31, C54: cash addresses -/

namespace BCash
open Spec

/-! ## What parsing does, value by value -/

/-- Parsing letters with a valid checksum: wrong lengths panic, otherwise the first 168 bits are the
version byte and the hash. -/
theorem parseParts_values (pre vs : Bytes) (hv : ∀ v ∈ vs, v.toNat < 32) (hc : ChecksumOk pre vs) :
    (vs.length ≠ 42 ∧ vs.length ≠ 43 ∧ parseParts pre (vs.map cashLetter) = .panic) ∨
    ((vs.length = 42 ∨ vs.length = 43) ∧ ∃ (version : UInt8) (hash : Hash160),
      bitsAll 8 (version :: hash.1) = (bitsAll 5 vs).take 168 ∧
      parseParts pre (vs.map cashLetter) =
        if version = 0 then .ok (hash, .P2PKH, pre)
        else if version = 8 then .ok (hash, .P2SH, pre)
        else .err (.invalidAddressType version)) := by
  obtain ⟨out, k, e, hk, hb, hout⟩ := convertBits_spec 5 8 (by omega) (by omega) (by omega) vs
    (fun v h => by have := hv v h; omega)
  have hlen := congrArg List.length hb
  simp only [bitsAll_length, List.length_append, List.length_replicate] at hlen
  have hcheck := (verifyChecksum_iff pre vs hv).mpr hc
  have hp : parseParts pre (vs.map cashLetter) = finishParts pre out := by
    unfold parseParts
    rw [mapFromB32_letters vs hv 0]
    simp only [Res.ofExcept_ok, Res.bind_ok, hcheck, Bool.not_true, Bool.false_eq_true, if_false, e]
  by_cases h27 : out.length = 27
  · right
    refine ⟨by omega, ?_⟩
    have hpre := converted_prefix hv e 21 (by omega) (by omega)
    rw [hp]; unfold finishParts; rw [if_neg (by omega)]
    dsimp only
    have hsl : ((out.take (out.length - 6)).drop 1).length = 20 := by simp; omega
    rw [dif_pos hsl]
    cases out with
    | nil => simp at h27
    | cons version rest =>
      refine ⟨version, ⟨_, hsl⟩, ?_, ?_⟩
      · rw [← hpre]
        congr 1
        simp only [List.length_cons] at h27
        simp [h27]
      · rfl
  · left
    refine ⟨by omega, by omega, ?_⟩
    rw [hp]; unfold finishParts
    by_cases h7 : out.length < 7
    · rw [if_pos h7]
    · rw [if_neg h7]
      dsimp only
      rw [dif_neg]
      simp
      omega

/-- Parsing a payload: a letter outside the alphabet, an invalid checksum, or letters of values with
a valid checksum. -/
theorem parseParts_cases (pre payload : Bytes) :
    (∃ a x b, payload = a ++ [x] ++ b ∧ x ∉ cashAlphabet ∧ (∀ c ∈ a, c ∈ cashAlphabet) ∧
      parseParts pre payload = .err (.invalidBase32Letter a.length x)) ∨
    (∃ vs, payload = vs.map cashLetter ∧ (∀ v ∈ vs, v.toNat < 32) ∧ ¬ ChecksumOk pre vs ∧
      parseParts pre payload = .err .invalidChecksum) ∨
    (∃ vs, payload = vs.map cashLetter ∧ (∀ v ∈ vs, v.toNat < 32) ∧ ChecksumOk pre vs) := by
  cases hm : mapFromB32 0 payload with
  | error e =>
    left
    obtain ⟨a, x, b, h1, h2, h3, h4⟩ := mapFromB32_err payload 0 e hm
    refine ⟨a, x, b, h1, h3, h4, ?_⟩
    unfold parseParts
    rw [hm, h2]
    simp
  | ok vs =>
    right
    obtain ⟨h1, h2⟩ := mapFromB32_ok payload 0 vs hm
    by_cases hc : ChecksumOk pre vs
    · exact .inr ⟨vs, h1, h2, hc⟩
    · left
      refine ⟨vs, h1, h2, hc, ?_⟩
      unfold parseParts
      rw [hm]
      have : verifyChecksum pre vs = false := by
        rw [← Bool.not_eq_true, verifyChecksum_iff pre vs h2]; exact hc
      simp [this]

theorem cashLetter_inj {v w : UInt8} (hv : v.toNat < 32) (hw : w.toNat < 32)
    (h : cashLetter v = cashLetter w) : v = w := by
  have h1 := (letter_fact v hv).2.1
  rw [h, (letter_fact w hw).2.1] at h1
  exact UInt8.toNat_inj.mp (Option.some.inj h1).symm

theorem letters_inj : ∀ (a b : Bytes), (∀ v ∈ a, v.toNat < 32) → (∀ v ∈ b, v.toNat < 32) →
    a.map cashLetter = b.map cashLetter → a = b
  | [], [], _, _, _ => rfl
  | [], _ :: _, _, _, h => by simp at h
  | _ :: _, [], _, _, h => by simp at h
  | x :: a, y :: b, ha, hb, h => by
    simp only [List.map_cons, List.cons.injEq] at h
    rw [cashLetter_inj (ha x (by simp)) (hb y (by simp)) h.1,
      letters_inj a b (fun v hv => ha v (by simp [hv])) (fun v hv => hb v (by simp [hv])) h.2]

theorem mem_alphabet {c : UInt8} (h : c ∈ cashAlphabet) : ∃ v : UInt8, v.toNat < 32 ∧
    c = cashLetter v := by
  rw [← charset_eq] at h
  have h1 : (CHARSET.findIdx? (fun d => c == d)).isSome := by
    rw [List.findIdx?_isSome]
    simp only [List.any_eq_true]
    exact ⟨c, h, by simp⟩
  obtain ⟨p, hp⟩ := Option.isSome_iff_exists.mp h1
  have hp32 := find_lt hp
  exact ⟨UInt8.ofNat p, by rw [ofNat_toNat_lt (by omega)]; exact hp32, letter_of_find c ⟨p, hp32⟩ hp⟩

theorem letters_of_alphabet : ∀ (s : Bytes), (∀ c ∈ s, c ∈ cashAlphabet) →
    ∃ vs : Bytes, (∀ v ∈ vs, v.toNat < 32) ∧ s = vs.map cashLetter
  | [], _ => ⟨[], by simp, rfl⟩
  | c :: s, h => by
    obtain ⟨v, hv, hc⟩ := mem_alphabet (h c (by simp))
    obtain ⟨vs, hvs, hs⟩ := letters_of_alphabet s (fun x hx => h x (by simp [hx]))
    refine ⟨v :: vs, ?_, by rw [hc, hs]; rfl⟩
    intro w hw
    simp only [List.mem_cons] at hw
    rcases hw with hw | hw
    · rw [hw]; exact hv
    · exact hvs w hw

theorem letters_lower (vs : Bytes) (h : ∀ v ∈ vs, v.toNat < 32) :
    (vs.map cashLetter).map asciiLower = vs.map cashLetter := by
  rw [List.map_map]
  apply List.map_congr_left
  intro v hv
  exact (letter_fact v (h v hv)).2.2.1

theorem letters_no_colon (vs : Bytes) (h : ∀ v ∈ vs, v.toNat < 32) :
    (0x3a : UInt8) ∉ vs.map cashLetter := by
  intro hm
  rw [List.mem_map] at hm
  obtain ⟨v, hv, e⟩ := hm
  exact (letter_fact v (h v hv)).2.2.2 e

theorem fromCashAddr_ok {s : Bytes} {a : Address} :
    Address.fromCashAddr s = .ok a ↔
      fromCashAddrRaw s (Prefix.str .bitcoinCash) = .ok (a.hash, a.addrType, a.prefixStr) ∧
      a.cashAddr = s ∧ a.prefixKind = Prefix.fromStr a.prefixStr := by
  unfold Address.fromCashAddr
  cases h : fromCashAddrRaw s (Prefix.str .bitcoinCash) with
  | ok r =>
    obtain ⟨hash, t, pre⟩ := r
    simp only [Res.mapErr, Res.map_ok, Res.ok.injEq, Prod.mk.injEq]
    constructor
    · intro e; subst e; exact ⟨⟨rfl, rfl, rfl⟩, rfl, rfl⟩
    · rintro ⟨⟨e1, e2, e3⟩, e4, e5⟩
      cases a
      simp only at e1 e2 e3 e4 e5
      subst e1 e2 e3 e4 e5
      rfl
  | err e => simp [Res.mapErr]
  | panic => simp [Res.mapErr]

theorem fromCashAddr_err {s : Bytes} {e : CashAddrError}
    (h : fromCashAddrRaw s (Prefix.str .bitcoinCash) = .err e) :
    Address.fromCashAddr s = .err (.invalidCashAddr e) := by
  unfold Address.fromCashAddr
  rw [h]; rfl

theorem fromCashAddr_panic {s : Bytes} :
    Address.fromCashAddr s = .panic ↔ fromCashAddrRaw s (Prefix.str .bitcoinCash) = .panic := by
  unfold Address.fromCashAddr
  cases fromCashAddrRaw s (Prefix.str .bitcoinCash) <;> simp [Res.mapErr]

/-! ## C54: address strings follow the specification -/

theorem checksumOk_iff (pre payload cs : Bytes) (hp : ∀ v ∈ payload, v.toNat < 32)
    (hcs : ∀ v ∈ cs, v.toNat < 32) (hl : cs.length = 8) :
    ChecksumOk pre (payload ++ cs) ↔ cs = calculateChecksum pre payload := by
  rw [← verifyChecksum_iff pre _ (by
    intro v hv
    rw [List.mem_append] at hv
    rcases hv with hv | hv
    · exact hp v hv
    · exact hcs v hv)]
  unfold verifyChecksum calculateChecksum polyMod
  dsimp only
  rw [beq_iff_eq, ← List.append_assoc, List.foldl_append, List.foldl_append]
  rw [polyFold_checksum _ (polyFold_lt _ _ (polyFold_lt _ _ (by decide))) cs hl hcs]
  rw [List.foldl_append (l := prefixValues pre ++ payload), List.foldl_append]
  rfl

theorem calculateChecksum_lt (pre payload : Bytes) :
    (calculateChecksum pre payload).length = 8 ∧
    ∀ v ∈ calculateChecksum pre payload, v.toNat < 32 :=
  ⟨digits8_length _, digits8_lt _⟩

/-- **C54**: the address string generated for any prefix, type and hash is the one string the
CashAddr specification assigns to them. -/
theorem C54_conforms (pre : Bytes) (t : AddressType) (h : Hash160) (s : Bytes) :
    IsCashAddr pre t.toByte h.1 s ↔
      ∃ a, Address.fromHash pre t h = some a ∧ a.cashAddr = s ∧ a.hash = h ∧ a.addrType = t ∧
        a.prefixStr = pre := by
  obtain ⟨out, k, e, hk, hb, hout⟩ := convertBits_spec 8 5 (by omega) (by omega) (by omega)
    (t.toByte :: h.1) (fun v _ => v.toNat_lt)
  have hlen := congrArg List.length hb
  simp only [bitsAll_length, List.length_append, List.length_replicate, List.length_cons, h.2] at hlen
  have hol : out.length = 34 := by omega
  have hk2 : k = 2 := by omega
  subst hk2
  have hcc := calculateChecksum_lt pre out
  have hall : ∀ v ∈ out ++ calculateChecksum pre out, v.toNat < 32 := by
    intro v hv
    rw [List.mem_append] at hv
    rcases hv with hv | hv
    · exact hout v hv
    · exact hcc.2 v hv
  have hto : toCashAddr pre t h.1 =
      some (pre ++ [0x3a] ++ (out ++ calculateChecksum pre out).map cashLetter) := by
    unfold toCashAddr
    rw [e, Option.bind_some, mapToB32_letters _ hall]
    rfl
  constructor
  · rintro ⟨payload, cs, hv, hl1, hl2, hbits, hck, hs⟩
    have hvp : ∀ v ∈ payload, v.toNat < 32 := fun v h => hv v (by simp [h])
    have hvc : ∀ v ∈ cs, v.toNat < 32 := fun v h => hv v (by simp [h])
    have e1 : payload = out := by
      apply bitsAll_inj 5 (by omega) _ _ hvp hout
      rw [hbits, hb]; rfl
    rw [checksumOk_iff pre payload cs hvp hvc hl2] at hck
    subst e1 hck
    refine ⟨⟨t, h, s, pre, Prefix.fromStr pre⟩, ?_, rfl, rfl, rfl, rfl⟩
    unfold Address.fromHash
    rw [hto, hs]
    rfl
  · rintro ⟨a, ha, hs, -, -, -⟩
    unfold Address.fromHash at ha
    rw [hto] at ha
    injection ha with ha
    subst ha
    refine ⟨out, calculateChecksum pre out, hall, hol, hcc.1, by rw [hb]; rfl, ?_, hs.symm⟩
    rw [checksumOk_iff pre out _ hout hcc.2 hcc.1]

/-- **C54** (existence): generating an address never panics. -/
theorem C54_total (pre : Bytes) (t : AddressType) (h : Hash160) :
    ∃ a, Address.fromHash pre t h = some a ∧ IsCashAddr pre t.toByte h.1 a.cashAddr := by
  obtain ⟨out, k, e, hk, hb, hout⟩ := convertBits_spec 8 5 (by omega) (by omega) (by omega)
    (t.toByte :: h.1) (fun v _ => v.toNat_lt)
  have hcc := calculateChecksum_lt pre out
  have hall : ∀ v ∈ out ++ calculateChecksum pre out, v.toNat < 32 := by
    intro v hv
    rw [List.mem_append] at hv
    rcases hv with hv | hv
    · exact hout v hv
    · exact hcc.2 v hv
  have hf : Address.fromHash pre t h =
      some ⟨t, h, pre ++ [0x3a] ++ (out ++ calculateChecksum pre out).map cashLetter, pre,
        Prefix.fromStr pre⟩ := by
    unfold Address.fromHash toCashAddr
    rw [e, Option.bind_some, mapToB32_letters _ hall]
    rfl
  exact ⟨_, hf, (C54_conforms pre t h _).mpr ⟨_, hf, rfl, rfl, rfl, rfl⟩⟩

/-- "bitcoincash:qqqqqqqqqqqqqqqqqqqqqqqqqqqqqqqqqqfnhks603" is the address of the zero hash. -/
example : (Address.fromHash (Prefix.str .bitcoinCash) .P2PKH ⟨List.replicate 20 0, rfl⟩).map
    (·.cashAddr) = some ("bitcoincash:qqqqqqqqqqqqqqqqqqqqqqqqqqqqqqqqqqfnhks603".toList.map
      fun c => UInt8.ofNat c.toNat) := by
  set_option maxRecDepth 100000 in decide

/-- Bytes of an ASCII string. -/
def asciiBytes (s : List Char) : Bytes := s.map fun c => UInt8.ofNat c.toNat

/-! ## C28: round trip -/

theorem parse_canonical {pre s : Bytes} {t : AddressType} {h : Hash160} {s' pre' payload' : Bytes}
    (hs : IsCashAddr pre t.toByte h.1 s) (hp : CashParts s' pre' payload')
    (hpre : pre'.map asciiLower = pre)
    (hpay : ∀ pl, s = pre ++ [0x3a] ++ pl → payload'.map asciiLower = pl) :
    fromCashAddrRaw s' (Prefix.str .bitcoinCash) = .ok (h, t, pre) := by
  obtain ⟨payload, cs, hv, hl1, hl2, hbits, hck, hs⟩ := hs
  rw [raw_parts hp, hpre, hpay _ hs]
  rcases parseParts_values pre _ hv hck with h1 | ⟨hl, version, hash, hb, h1⟩
  · exfalso; simp only [List.length_append] at h1; omega
  · rw [h1]
    have e1 : (bitsAll 5 (payload ++ cs)).take 168 = bitsAll 8 (t.toByte :: h.1) := by
      rw [bitsAll_append, hbits]
      rw [List.append_assoc, List.take_append_of_le_length (by simp [h.2])]
      rw [List.take_of_length_le (by simp [h.2])]
    rw [e1] at hb
    have e2 := bitsAll_inj 8 (by omega) _ _ (fun v _ => v.toNat_lt) (fun v _ => v.toNat_lt) hb
    injection e2 with e3 e4
    have e5 : hash = h := Subtype.ext e4
    subst e3 e5
    cases t
    · rfl
    · rfl

/-- **C28**: for every hash, type and prefix without colons and upper-case letters, parsing the
generated string gives back the same address. -/
theorem C28_roundtrip (pre : Bytes) (t : AddressType) (h : Hash160)
    (hcolon : (0x3a : UInt8) ∉ pre) (hlower : ∀ c ∈ pre, asciiLowerSpec c = c) :
    ∃ a, Address.fromHash pre t h = some a ∧ a.hash = h ∧ a.addrType = t ∧ a.prefixStr = pre ∧
      Address.fromCashAddr a.cashAddr = .ok a := by
  obtain ⟨a, ha, hs⟩ := C54_total pre t h
  obtain ⟨a', ha', -, e1, e2, e3⟩ := (C54_conforms pre t h a.cashAddr).mp hs
  rw [ha] at ha'
  injection ha' with ha'
  subst ha'
  refine ⟨a, ha, e1, e2, e3, ?_⟩
  have hkind : a.prefixKind = Prefix.fromStr a.prefixStr := by
    unfold Address.fromHash at ha
    rw [Option.map_eq_some_iff] at ha
    obtain ⟨s, _, rfl⟩ := ha
    rfl
  rw [fromCashAddr_ok]
  refine ⟨?_, rfl, hkind⟩
  rw [e1, e2, e3]
  obtain ⟨payload, cs, hv, -, -, -, -, hs'⟩ := id hs
  have hprelow : pre.map asciiLower = pre := by
    have : pre.map asciiLower = pre.map id :=
      List.map_congr_left (fun c hc => by rw [lower_eq, hlower c hc]; rfl)
    rw [this, List.map_id]
  refine parse_canonical hs (hs' ▸ CashParts.colon pre _ hcolon) hprelow ?_
  intro pl hpl
  rw [hs'] at hpl
  have := List.append_cancel_left hpl
  rw [← this]
  exact letters_lower _ hv

/-- **C28** (other accepted forms): changing the case of any letters, and (for the prefix
"bitcoincash") omitting the prefix and colon, does not change what is parsed. -/
theorem C28_case_and_default_prefix (t : AddressType) (h : Hash160) (pre : Bytes)
    (hcolon : (0x3a : UInt8) ∉ pre) (a : Address) (ha : Address.fromHash pre t h = some a) (s : Bytes)
    (hs : s.map asciiLowerSpec = a.cashAddr ∨
      pre = Prefix.str .bitcoinCash ∧ pre ++ [0x3a] ++ s.map asciiLowerSpec = a.cashAddr) :
    ∃ a', Address.fromCashAddr s = .ok a' ∧ a'.hash = h ∧ a'.addrType = t ∧ a'.prefixStr = pre := by
  have hlow : asciiLowerSpec = asciiLower := by funext c; rw [lower_eq]
  rw [hlow] at hs
  have hic : IsCashAddr pre t.toByte h.1 a.cashAddr := by
    rw [C54_conforms]
    have : a.hash = h ∧ a.addrType = t ∧ a.prefixStr = pre := by
      unfold Address.fromHash at ha
      rw [Option.map_eq_some_iff] at ha
      obtain ⟨s, _, rfl⟩ := ha
      exact ⟨rfl, rfl, rfl⟩
    exact ⟨a, ha, rfl, this⟩
  obtain ⟨payload, cs, hv, -, -, -, -, hs'⟩ := id hic
  have hraw : fromCashAddrRaw s (Prefix.str .bitcoinCash) = .ok (h, t, pre) := by
    rcases hs with hs | ⟨hpre, hs⟩
    · -- split `s` at the same position
      rw [hs'] at hs
      have hlen := congrArg List.length hs
      simp only [List.length_map, List.length_append, List.length_singleton] at hlen
      have hsplit : s = s.take pre.length ++ [0x3a] ++ s.drop (pre.length + 1) := by
        have hc : s[pre.length]? = some 0x3a := by
          have h1 := congrArg (fun l => l[pre.length]?) hs
          simp only [List.getElem?_map] at h1
          rw [List.append_assoc, List.getElem?_append_right (Nat.le_refl _)] at h1
          simp only [Nat.sub_self, List.cons_append, List.getElem?_cons_zero] at h1
          rw [Option.map_eq_some_iff] at h1
          obtain ⟨c, hc, e⟩ := h1
          rw [lower_colon] at e
          rw [hc, e]
        have hlt : pre.length < s.length := by omega
        rw [List.getElem?_eq_getElem hlt] at hc
        injection hc with hc
        rw [← hc, List.append_assoc, List.cons_append, List.nil_append,
          List.getElem_cons_drop, List.take_append_drop]
      have htake : (s.take pre.length).map asciiLower = pre := by
        rw [List.map_take, hs, List.append_assoc, List.take_left']
        rfl
      have hdrop : (s.drop (pre.length + 1)).map asciiLower = (payload ++ cs).map cashLetter := by
        rw [List.map_drop, hs, List.drop_left']
        simp
      have hnc : (0x3a : UInt8) ∉ s.take pre.length := by
        intro hm
        have : asciiLower 0x3a ∈ (s.take pre.length).map asciiLower := List.mem_map_of_mem hm
        rw [htake] at this
        exact hcolon this
      have hparts : CashParts s (s.take pre.length) (s.drop (pre.length + 1)) := by
        have := CashParts.colon _ (s.drop (pre.length + 1)) hnc
        rwa [← hsplit] at this
      refine parse_canonical hic hparts htake ?_
      intro pl hpl
      rw [hs'] at hpl
      rw [← List.append_cancel_left hpl]
      exact hdrop
    · rw [hs'] at hs
      have hdrop := List.append_cancel_left hs
      have hnc : (0x3a : UInt8) ∉ s := by
        intro hm
        have : asciiLower 0x3a ∈ s.map asciiLower := List.mem_map_of_mem hm
        rw [hdrop] at this
        exact letters_no_colon _ hv this
      refine parse_canonical hic (CashParts.default_ s hnc) ?_ ?_
      · rw [hpre]; decide
      · intro pl hpl
        rw [hs'] at hpl
        rw [← List.append_cancel_left hpl]
        exact hdrop
  unfold Address.fromCashAddr
  rw [hraw]
  exact ⟨_, rfl, rfl, rfl, rfl⟩

/-- In upper case, and without the prefix. -/
example : (∃ a', Address.fromCashAddr (asciiBytes "BITCOINCASH:QQQQQQQQQQQQQQQQQQQQQQQQQQQQQQQQQQFNHKS603".toList) =
      .ok a' ∧ a'.hash = ⟨List.replicate 20 0, rfl⟩ ∧ a'.addrType = .P2PKH ∧ a'.prefixStr = Prefix.str .bitcoinCash) ∧
    (∃ a', Address.fromCashAddr (asciiBytes "qqqqqqqqqqqqQQQqqqqqqqqqqqqqqqqqqqfnhks603".toList) =
      .ok a' ∧ a'.hash = ⟨List.replicate 20 0, rfl⟩ ∧ a'.addrType = .P2PKH ∧ a'.prefixStr = Prefix.str .bitcoinCash) := by
  have ha : Address.fromHash (Prefix.str .bitcoinCash) .P2PKH ⟨List.replicate 20 0, rfl⟩ =
      some ⟨.P2PKH, ⟨List.replicate 20 0, rfl⟩,
        asciiBytes "bitcoincash:qqqqqqqqqqqqqqqqqqqqqqqqqqqqqqqqqqfnhks603".toList,
        Prefix.str .bitcoinCash, some .bitcoinCash⟩ := by decide +kernel
  exact ⟨C28_case_and_default_prefix _ _ _ (by decide) _ ha _ (.inl (by decide +kernel)),
    C28_case_and_default_prefix _ _ _ (by decide) _ ha _ (.inr ⟨rfl, by decide +kernel⟩)⟩

example : ∃ a, Address.fromHash (Prefix.str .simpleLedger) .P2SH ⟨List.replicate 20 7, rfl⟩ = some a ∧
    a.hash = ⟨List.replicate 20 7, rfl⟩ ∧ a.addrType = .P2SH ∧
    a.prefixStr = Prefix.str .simpleLedger ∧ Address.fromCashAddr a.cashAddr = .ok a :=
  C28_roundtrip _ _ _ (by decide) (by decide)

/-! ## C29: corruption -/

/-- **C29**: take any accepted address string, with payload `x ++ w ++ y`. Replacing the at most
eight consecutive characters `w` by letters of the alphabet (of either case) which differ from `w`
other than in case makes parsing fail with a checksum error. -/
theorem C29_burst (pre x w w' y s s' : Bytes) (a : Address)
    (hs : CashParts s pre (x ++ w ++ y)) (hs' : CashParts s' pre (x ++ w' ++ y))
    (hok : Address.fromCashAddr s = .ok a)
    (hlen : w'.length = w.length) (h8 : w.length ≤ 8)
    (halpha : ∀ c ∈ w', asciiLowerSpec c ∈ cashAlphabet)
    (hne : w'.map asciiLowerSpec ≠ w.map asciiLowerSpec) :
    Address.fromCashAddr s' = .err (.invalidCashAddr .invalidChecksum) := by
  have hlow : asciiLowerSpec = asciiLower := by funext c; rw [lower_eq]
  rw [hlow] at hne
  simp only [hlow] at halpha
  rw [fromCashAddr_ok] at hok
  have hok := hok.1
  rw [raw_parts hs] at hok
  apply fromCashAddr_err
  rw [raw_parts hs']
  rcases parseParts_cases (pre.map asciiLower) ((x ++ w ++ y).map asciiLower) with
    ⟨_, _, _, _, _, _, h⟩ | ⟨_, _, _, _, h⟩ | ⟨vs, h1, hv, hc⟩
  · rw [h] at hok; cases hok
  · rw [h] at hok; cases hok
  · simp only [List.map_append] at h1 ⊢
    -- the values of the three parts
    obtain ⟨vxw, vy, e1, hxw, hy⟩ := List.map_eq_append_iff.mp h1.symm
    obtain ⟨vx, vw, e2, hx, hw⟩ := List.map_eq_append_iff.mp hxw
    subst e1 e2
    obtain ⟨vw', hv', hw'⟩ := letters_of_alphabet (w'.map asciiLower) (by
      intro c hc
      rw [List.mem_map] at hc
      obtain ⟨d, hd, e⟩ := hc
      rw [← e]; exact halpha d hd)
    have hvw : ∀ v ∈ vw, v.toNat < 32 := fun v h => hv v (by simp [h])
    have hl' : vw'.length = vw.length := by
      have h2 := congrArg List.length hw'
      have h3 := congrArg List.length hw
      simp only [List.length_map] at h2 h3
      omega
    have hl8 : vw.length ≤ 8 := by
      have h3 := congrArg List.length hw
      simp only [List.length_map] at h3
      omega
    have hall : ∀ v ∈ vx ++ vw' ++ vy, v.toNat < 32 := by
      intro v h
      simp only [List.mem_append] at h
      rcases h with (h | h) | h
      · exact hv v (by simp [h])
      · exact hv' v h
      · exact hv v (by simp [h])
    have hbad : ¬ ChecksumOk (pre.map asciiLower) (vx ++ vw' ++ vy) := by
      intro hc'
      rw [← verifyChecksum_iff _ _ hall] at hc'
      rw [← verifyChecksum_iff _ _ hv] at hc
      unfold verifyChecksum polyMod at hc hc'
      rw [beq_iff_eq, UInt64.xor_eq_zero_iff] at hc hc'
      have hfold : (prefixValues (pre.map asciiLower) ++ vx ++ vw ++ vy).foldl polyStep 1 =
          (prefixValues (pre.map asciiLower) ++ vx ++ vw' ++ vy).foldl polyStep 1 := by
        have e1 : prefixValues (pre.map asciiLower) ++ vx ++ vw ++ vy =
          prefixValues (pre.map asciiLower) ++ (vx ++ vw ++ vy) := by simp
        have e2 : prefixValues (pre.map asciiLower) ++ vx ++ vw' ++ vy =
          prefixValues (pre.map asciiLower) ++ (vx ++ vw' ++ vy) := by simp
        rw [e1, e2, hc, hc']
      have := polyFold_burst _ vw vw' vy 1 (by decide) hl'.symm hl8 hvw hv' hfold
      subst this
      exact hne (by rw [hw', hw])
    have hpay : x.map asciiLower ++ w'.map asciiLower ++ y.map asciiLower =
        (vx ++ vw' ++ vy).map cashLetter := by
      simp only [List.map_append, hx, hy, ← hw']
    rw [hpay]
    unfold parseParts
    rw [mapFromB32_letters _ hall 0]
    have hb : verifyChecksum (pre.map asciiLower) (vx ++ vw' ++ vy) = false := by
      rw [← Bool.not_eq_true, verifyChecksum_iff _ _ hall]; exact hbad
    simp only [Res.ofExcept_ok, Res.bind_ok, hb, Bool.not_false, if_true]

/-- Eight wrong letters in a row. -/
example : Address.fromCashAddr
    (asciiBytes "bitcoincash:qqqqqqqqqqpzry9x8gqqqqqqqqqqqqqqqqfnhks603".toList) =
      .err (.invalidCashAddr .invalidChecksum) := by
  set_option maxRecDepth 100000 in
  exact C29_burst (asciiBytes "bitcoincash".toList) (asciiBytes "qqqqqqqqqq".toList) (asciiBytes "qqqqqqqq".toList)
    (asciiBytes "pzry9x8g".toList) (asciiBytes "qqqqqqqqqqqqqqqqfnhks603".toList)
    (asciiBytes "bitcoincash:qqqqqqqqqqqqqqqqqqqqqqqqqqqqqqqqqqfnhks603".toList) _ _
    (.colon (asciiBytes "bitcoincash".toList) _ (by decide))
    (.colon (asciiBytes "bitcoincash".toList) _ (by decide)) rfl (by decide) (by decide) (by decide) (by decide)

/-- **C29** (letters outside the alphabet): such a letter is reported with its position. -/
theorem C29_alphabet (pre payload s : Bytes) (hs : CashParts s pre payload)
    (hbad : ∃ c ∈ payload, asciiLowerSpec c ∉ cashAlphabet) :
    ∃ i c, (payload.map asciiLowerSpec)[i]? = some c ∧ c ∉ cashAlphabet ∧
      Address.fromCashAddr s = .err (.invalidCashAddr (.invalidBase32Letter i c)) := by
  have hlow : asciiLowerSpec = asciiLower := by funext c; rw [lower_eq]
  rw [hlow] at hbad ⊢
  have contra : ∀ vs : Bytes, payload.map asciiLower = vs.map cashLetter → ¬ ∀ v ∈ vs, v.toNat < 32 := by
    intro vs h1 hv
    obtain ⟨c, hc, hn⟩ := hbad
    have : asciiLower c ∈ payload.map asciiLower := List.mem_map_of_mem hc
    rw [h1, List.mem_map] at this
    obtain ⟨v, hvm, e⟩ := this
    apply hn
    rw [← e, ← charset_eq]
    exact List.mem_of_getElem? (letter_fact v (hv v hvm)).1
  rcases parseParts_cases (pre.map asciiLower) (payload.map asciiLower) with
    ⟨a, x, b, h1, h2, h3, h4⟩ | ⟨vs, h1, hv, _, _⟩ | ⟨vs, h1, hv, _⟩
  · refine ⟨a.length, x, ?_, h2, fromCashAddr_err (by rw [raw_parts hs, h4])⟩
    rw [h1]; simp
  · exact absurd hv (contra vs h1)
  · exact absurd hv (contra vs h1)

/-- A `b`, which is no letter of the alphabet. -/
example : ∃ i c, c ∉ cashAlphabet ∧ Address.fromCashAddr (asciiBytes "bitcoincash:qqqbqq".toList) =
    .err (.invalidCashAddr (.invalidBase32Letter i c)) := by
  obtain ⟨i, c, -, h, h'⟩ := C29_alphabet (asciiBytes "bitcoincash".toList) (asciiBytes "qqqbqq".toList)
    (asciiBytes "bitcoincash:qqqbqq".toList) (.colon (asciiBytes "bitcoincash".toList) _ (by decide))
    ⟨0x62, by decide, by decide⟩
  exact ⟨i, c, h, h'⟩

/-- The zero address is accepted; replacing two neighbouring letters is detected. -/
example :
    (∃ a, Address.fromCashAddr
      (asciiBytes "bitcoincash:qqqqqqqqqqqqqqqqqqqqqqqqqqqqqqqqqqfnhks603".toList) = .ok a) ∧
    Address.fromCashAddr
      (asciiBytes "bitcoincash:qqqqqqqqqqpzqqqqqqqqqqqqqqqqqqqqqqfnhks603".toList)
      = .err (.invalidCashAddr .invalidChecksum) := by
  set_option maxRecDepth 100000 in exact ⟨⟨_, rfl⟩, by decide⟩

/-! ## C30: panics -/

/-- **C30 fails**: "a5a8yrhz" (the checksum of an empty payload) makes parsing panic. -/
theorem C30_no_panic_fails :
    Address.fromCashAddr (asciiBytes "bitcoincash:a5a8yrhz".toList) = .panic ∧
    Address.fromCashAddr (asciiBytes "a5a8yrhz".toList) = .panic := by
  set_option maxRecDepth 100000 in decide

/-- **C30**, the part that holds: parsing panics exactly on strings whose payload is in the alphabet,
has a valid checksum, and does not have 42 or 43 letters; every other string gives an address or an
error. -/
theorem C30_panic_iff_partial (s pre payload : Bytes) (hs : CashParts s pre payload) :
    Address.fromCashAddr s = .panic ↔
      payload.length ≠ 42 ∧ payload.length ≠ 43 ∧
      ∃ vs : Bytes, (∀ v ∈ vs, v.toNat < 32) ∧ payload.map asciiLowerSpec = vs.map cashLetter ∧
        ChecksumOk (pre.map asciiLowerSpec) vs := by
  have hlow : asciiLowerSpec = asciiLower := by funext c; rw [lower_eq]
  rw [hlow, fromCashAddr_panic, raw_parts hs]
  constructor
  · intro h
    rcases parseParts_cases (pre.map asciiLower) (payload.map asciiLower) with
      ⟨_, _, _, _, _, _, h1⟩ | ⟨_, _, _, _, h1⟩ | ⟨vs, h1, hv, hc⟩
    · rw [h] at h1; cases h1
    · rw [h] at h1; cases h1
    · have hl := congrArg List.length h1
      simp only [List.length_map] at hl
      rcases parseParts_values _ vs hv hc with ⟨h2, h3, _⟩ | ⟨_, version, hash, _, h2⟩
      · exact ⟨by omega, by omega, vs, hv, h1, hc⟩
      · rw [h1] at h
        rw [h] at h2
        split at h2
        · cases h2
        split at h2
        · cases h2
        · cases h2
  · rintro ⟨h42, h43, vs, hv, h1, hc⟩
    have hl := congrArg List.length h1
    simp only [List.length_map] at hl
    rw [h1]
    rcases parseParts_values _ vs hv hc with ⟨_, _, h2⟩ | ⟨h2, _⟩
    · exact h2
    · omega

/-- A payload with a valid checksum and the wrong length, and one with an invalid checksum. -/
example : Address.fromCashAddr (asciiBytes "bitcoincash:a5a8yrhz".toList) = .panic ∧
    ∃ vs : Bytes, (∀ v ∈ vs, v.toNat < 32) ∧ asciiBytes "a5a8yrhz".toList = vs.map cashLetter ∧
      ChecksumOk (asciiBytes "bitcoincash".toList) vs := by
  have hp : Address.fromCashAddr (asciiBytes "bitcoincash:a5a8yrhz".toList) = .panic := by decide +kernel
  have h := (C30_panic_iff_partial _ _ _
    (.colon (asciiBytes "bitcoincash".toList) (asciiBytes "a5a8yrhz".toList) (by decide))).mp hp
  obtain ⟨-, -, vs, h1, h2, h3⟩ := h
  exact ⟨hp, vs, h1, by rw [← h2]; decide, h3⟩

/-- Every string has a prefix and payload, so the characterisation covers all strings. -/
theorem C30_covers (s : Bytes) : ∃ pre payload, CashParts s pre payload := by
  by_cases h : (0x3a : UInt8) ∈ s
  · obtain ⟨pre, payload, e, hn⟩ := List.eq_append_cons_of_mem h
    refine ⟨pre, payload, ?_⟩
    rw [e, ← List.singleton_append, ← List.append_assoc]
    exact .colon pre payload hn
  · exact ⟨_, s, .default_ s h⟩

/-! ## C31: canonical strings -/

/-- **C31 fails** (padding bits): two different lower-case strings with the same prefix are accepted
as the same address; the second is not the canonical form. -/
theorem C31_canonical_fails_padding :
    ∃ a b, Address.fromCashAddr
        (asciiBytes "bitcoincash:qqqqqqqqqqqqqqqqqqqqqqqqqqqqqqqqqqfnhks603".toList) = .ok a ∧
      Address.fromCashAddr
        (asciiBytes "bitcoincash:qqqqqqqqqqqqqqqqqqqqqqqqqqqqqqqqqp6swafeus".toList) = .ok b ∧
      a.hash = b.hash ∧ a.addrType = b.addrType ∧ a.prefixStr = b.prefixStr := by
  set_option maxRecDepth 100000 in exact ⟨_, _, rfl, rfl, by decide, by decide, by decide⟩

/-- **C31 fails** (length): a string with one letter more is accepted as the same address. -/
theorem C31_canonical_fails_length :
    ∃ a b, Address.fromCashAddr
        (asciiBytes "bitcoincash:qqqqqqqqqqqqqqqqqqqqqqqqqqqqqqqqqqfnhks603".toList) = .ok a ∧
      Address.fromCashAddr
        (asciiBytes "bitcoincash:qqqqqqqqqqqqqqqqqqqqqqqqqqqqqqqqqqq4vc355kg".toList) = .ok b ∧
      a.hash = b.hash ∧ a.addrType = b.addrType ∧ a.prefixStr = b.prefixStr := by
  set_option maxRecDepth 100000 in exact ⟨_, _, rfl, rfl, by decide, by decide, by decide⟩

/-- Standard length and zero padding bits: 42 letters, the 34th of which has a value divisible by
four. -/
def StandardPayload (payload : Bytes) : Prop :=
  payload.length = 42 ∧
  ∃ v : UInt8, v.toNat < 32 ∧ v.toNat % 4 = 0 ∧
    (payload.map asciiLowerSpec)[33]? = some (cashLetter v)

/-- **C31**, the part that holds: an accepted string has 42 or 43 letters; if it has 42 and its
padding bits are zero, regenerating the address from the parsed prefix, type and hash gives the
lower-case form of the string. -/
theorem C31_canonical_partial (s pre payload : Bytes) (a : Address) (hs : CashParts s pre payload)
    (hok : Address.fromCashAddr s = .ok a) :
    a.prefixStr = pre.map asciiLowerSpec ∧
    (payload.length = 42 ∨ payload.length = 43) ∧
    (StandardPayload payload → ∃ a', Address.fromHash a.prefixStr a.addrType a.hash = some a' ∧
      a'.cashAddr = pre.map asciiLowerSpec ++ [0x3a] ++ payload.map asciiLowerSpec) := by
  unfold StandardPayload
  have hlow : asciiLowerSpec = asciiLower := by funext c; rw [lower_eq]
  rw [hlow]
  rw [fromCashAddr_ok] at hok
  have hok := hok.1
  rw [raw_parts hs] at hok
  rcases parseParts_cases (pre.map asciiLower) (payload.map asciiLower) with
    ⟨_, _, _, _, _, _, h⟩ | ⟨_, _, _, _, h⟩ | ⟨vs, h1, hv, hc⟩
  · rw [h] at hok; cases hok
  · rw [h] at hok; cases hok
  · have hl := congrArg List.length h1
    simp only [List.length_map] at hl
    rcases parseParts_values _ vs hv hc with ⟨_, _, h2⟩ | ⟨h2, version, hash, hb, h3⟩
    · rw [h1, h2] at hok; cases hok
    · rw [h1, h3] at hok
      have hres : a.prefixStr = pre.map asciiLower ∧ a.hash = hash ∧ version = a.addrType.toByte := by
        split at hok
        · next hv0 =>
          injection hok with hok
          simp only [Prod.mk.injEq] at hok
          exact ⟨hok.2.2.symm, hok.1.symm, by rw [← hok.2.1]; exact hv0⟩
        split at hok
        · next hv8 =>
          injection hok with hok
          simp only [Prod.mk.injEq] at hok
          exact ⟨hok.2.2.symm, hok.1.symm, by rw [← hok.2.1]; exact hv8⟩
        · cases hok
      obtain ⟨hpre, hhash, hver⟩ := hres
      refine ⟨hpre, by omega, ?_⟩
      rintro ⟨h42, v, hv32, hv4, hv33⟩
      -- split the values
      have hvl : vs.length = 42 := by omega
      have h33 : vs[33]? = some v := by
        rw [h1, List.getElem?_map, Option.map_eq_some_iff] at hv33
        obtain ⟨w, hw, e⟩ := hv33
        rw [hw, cashLetter_inj (hv w (List.mem_of_getElem? hw)) hv32 e]
      have hsplit : vs = vs.take 33 ++ [v] ++ vs.drop 34 := by
        rw [List.getElem?_eq_getElem (by omega)] at h33
        injection h33 with h33
        rw [← h33, List.append_assoc, List.cons_append, List.nil_append,
          List.getElem_cons_drop, List.take_append_drop]
      have hbv : bitsOf 5 v.toNat = bitsOf 3 (v.toNat / 4) ++ [false, false] := by
        have e1 : v.toNat = (v.toNat / 4) <<< 2 := by rw [Nat.shiftLeft_eq]; omega
        rw [e1]
        have := bitsOf_shiftLeft 3 2 (v.toNat / 4)
        rw [show ((v.toNat / 4) <<< 2) / 4 = v.toNat / 4 by rw [Nat.shiftLeft_eq]; omega]
        exact this
      have hb' : bitsAll 5 (vs.take 33 ++ [v]) =
          bitsAll 8 (version :: hash.1) ++ [false, false] := by
        rw [hb]
        rw [hsplit] at hb ⊢
        have htk : (bitsAll 5 (vs.take 33 ++ [v] ++ vs.drop 34)).take 168 =
            bitsAll 5 (vs.take 33) ++ bitsOf 3 (v.toNat / 4) := by
          rw [bitsAll_append, bitsAll_append, bitsAll_cons, bitsAll_nil, List.append_nil, hbv,
            ← List.append_assoc, List.append_assoc]
          exact List.take_left' (by simp; omega)
        rw [← hsplit] at htk ⊢
        rw [htk, bitsAll_append, bitsAll_cons, bitsAll_nil, List.append_nil, hbv,
          List.append_assoc]
      have hic : IsCashAddr a.prefixStr a.addrType.toByte a.hash.1
          (pre.map asciiLower ++ [0x3a] ++ payload.map asciiLower) := by
        refine ⟨vs.take 33 ++ [v], vs.drop 34, ?_, by simp; omega, by simp; omega, ?_, ?_, ?_⟩
        · rw [← hsplit]; exact hv
        · rw [hb', hver, hhash]
        · rw [← hsplit, hpre]; exact hc
        · rw [← hsplit, hpre, h1]
      obtain ⟨a', ha', e, -⟩ := (C54_conforms _ _ _ _).mp hic
      exact ⟨a', ha', e⟩

/-- **C31**, the part that holds (uniqueness): two accepted strings of standard payload which denote
the same hash, type and prefix are equal up to case (and an omitted "bitcoincash" prefix). -/
theorem C31_unique_partial (s s' pre pre' payload payload' : Bytes) (a a' : Address)
    (hs : CashParts s pre payload) (hs' : CashParts s' pre' payload')
    (hok : Address.fromCashAddr s = .ok a) (hok' : Address.fromCashAddr s' = .ok a')
    (hst : StandardPayload payload) (hst' : StandardPayload payload')
    (he : a.hash = a'.hash ∧ a.addrType = a'.addrType ∧ a.prefixStr = a'.prefixStr) :
    pre.map asciiLowerSpec = pre'.map asciiLowerSpec ∧
    payload.map asciiLowerSpec = payload'.map asciiLowerSpec := by
  obtain ⟨h1, -, h2⟩ := C31_canonical_partial s pre payload a hs hok
  obtain ⟨h1', -, h2'⟩ := C31_canonical_partial s' pre' payload' a' hs' hok'
  obtain ⟨b, hb, e⟩ := h2 hst
  obtain ⟨b', hb', e'⟩ := h2' hst'
  rw [← he.1, ← he.2.1, ← he.2.2, hb] at hb'
  injection hb' with hb'
  subst hb'
  have hp : pre.map asciiLowerSpec = pre'.map asciiLowerSpec := by rw [← h1, ← h1', he.2.2]
  refine ⟨hp, ?_⟩
  rw [e, hp] at e'
  exact List.append_cancel_left e'

/-- The hypotheses of `C31_canonical_partial` and `C31_unique_partial` are met by an address in upper case without
prefix, and by it together with any other accepted form. -/
example (s pre payload : Bytes) (a a' : Address) (hs : CashParts s pre payload) (hok : Address.fromCashAddr s = .ok a)
    (hst : StandardPayload payload)
    (hok' : Address.fromCashAddr (asciiBytes "QQQQQQQQQQQQQQQQQQQQQQQQQQQQQQQQQQFNHKS603".toList) = .ok a')
    (he : a.hash = a'.hash ∧ a.addrType = a'.addrType ∧ a.prefixStr = a'.prefixStr) :
    (∃ b, Address.fromHash a'.prefixStr a'.addrType a'.hash = some b ∧
      b.cashAddr = asciiBytes "bitcoincash:qqqqqqqqqqqqqqqqqqqqqqqqqqqqqqqqqqfnhks603".toList) ∧
    payload.map asciiLowerSpec = asciiBytes "qqqqqqqqqqqqqqqqqqqqqqqqqqqqqqqqqqfnhks603".toList := by
  have hst' : StandardPayload (asciiBytes "QQQQQQQQQQQQQQQQQQQQQQQQQQQQQQQQQQFNHKS603".toList) := by
    set_option maxRecDepth 100000 in exact ⟨by decide, 0, by decide, by decide, by decide⟩
  have hs' : CashParts (asciiBytes "QQQQQQQQQQQQQQQQQQQQQQQQQQQQQQQQQQFNHKS603".toList) (Prefix.str .bitcoinCash)
      (asciiBytes "QQQQQQQQQQQQQQQQQQQQQQQQQQQQQQQQQQFNHKS603".toList) := .default_ _ (by decide)
  obtain ⟨b, h1, h2⟩ := (C31_canonical_partial _ _ _ a' hs' hok').2.2 hst'
  exact ⟨⟨b, h1, h2.trans (by decide)⟩,
    (C31_unique_partial _ _ _ _ _ _ a a' hs hs' hok hok' hst hst' he).2.trans (by decide)⟩

/-- The zero address in upper case has a standard payload and is accepted. -/
example : StandardPayload (asciiBytes "QQQQQQQQQQQQQQQQQQQQQQQQQQQQQQQQQQFNHKS603".toList) ∧
    ∃ a, Address.fromCashAddr
      (asciiBytes "BITCOINCASH:QQQQQQQQQQQQQQQQQQQQQQQQQQQQQQQQQQFNHKS603".toList) = .ok a := by
  set_option maxRecDepth 100000 in
  exact ⟨⟨by decide, 0, by decide, by decide, by decide⟩, ⟨_, rfl⟩⟩

end BCash
