import Verif.Props.Address

/-! # Stored addresses -/

namespace BCash
open Spec

/-- The addresses a user gets from the library: built from a hash with a prefix given as string or as
kind, or parsed. -/
inductive Spec.ApiAddress : Address → Prop
  | built (pre : Bytes) (t : AddressType) (h : Hash160) (a : Address) :
      Address.fromHash pre t h = some a → ApiAddress a
  | builtKind (kind : Prefix) (t : AddressType) (h : Hash160) (a : Address) :
      Address.fromHashKind kind t h = some a → ApiAddress a
  | parsed (s : Bytes) (a : Address) : Address.fromCashAddr s = .ok a → ApiAddress a

theorem fromStr_str (k : Prefix) : Prefix.fromStr k.str = some k := by
  cases k <;> decide

theorem fromHash_shape {pre : Bytes} {t : AddressType} {h : Hash160} {a : Address}
    (ha : Address.fromHash pre t h = some a) :
    a.hash = h ∧ a.addrType = t ∧ a.prefixStr = pre ∧ a.prefixKind = Prefix.fromStr pre := by
  unfold Address.fromHash at ha
  rw [Option.map_eq_some_iff] at ha
  obtain ⟨s, _, rfl⟩ := ha
  exact ⟨rfl, rfl, rfl, rfl⟩

theorem fromHashKind_eq (kind : Prefix) (t : AddressType) (h : Hash160) :
    Address.fromHashKind kind t h = Address.fromHash kind.str t h := by
  unfold Address.fromHashKind Address.fromHashPrefix Address.fromHash
  rw [fromStr_str]

theorem api_kind {a : Address} (ha : ApiAddress a) : a.prefixKind = Prefix.fromStr a.prefixStr := by
  cases ha with
  | built pre t h _ ha =>
    obtain ⟨_, _, e, k⟩ := fromHash_shape ha
    rw [k, e]
  | builtKind kind t h _ ha =>
    rw [fromHashKind_eq] at ha
    obtain ⟨_, _, e, k⟩ := fromHash_shape ha
    rw [k, e]
  | parsed s _ ha => exact (fromCashAddr_ok.mp ha).2.2

/-! ## C70: stored addresses -/

/-- **C70** (kind): the kind reported for an address is the one its prefix names. -/
theorem C70_kind (a : Address) (ha : ApiAddress a) :
    (a.prefixKind = some .bitcoinCash ↔ a.prefixStr = asciiBytes "bitcoincash".toList) ∧
    (a.prefixKind = some .simpleLedger ↔ a.prefixStr = asciiBytes "simpleledger".toList) := by
  rw [api_kind ha]
  have e1 : asciiBytes "bitcoincash".toList = Prefix.str .bitcoinCash := by decide
  have e2 : asciiBytes "simpleledger".toList = Prefix.str .simpleLedger := by decide
  rw [e1, e2]
  constructor
  · constructor
    · intro h
      unfold Prefix.fromStr at h
      split at h
      · assumption
      · split at h <;> simp at h
    · intro h; rw [h]; exact fromStr_str _
  · constructor
    · intro h
      unfold Prefix.fromStr at h
      split at h
      · simp at h
      · split at h
        · assumption
        · simp at h
    · intro h; rw [h]; exact fromStr_str _

/-- **C70** (text): a parsed address is read back from its written string unchanged. -/
theorem C70_human_parsed (s : Bytes) (a : Address) (ha : Address.fromCashAddr s = .ok a) :
    Address.ofHuman a.toHuman = .ok a := by
  have h := fromCashAddr_ok.mp ha
  unfold Address.ofHuman Address.toHuman
  rw [h.2.1]
  exact ha

/-- **C70** (text, partial): so is an address built from a hash, if its prefix has no colons and upper-case
letters (without this it is false: `C70_human_fails`). -/
theorem C70_human_built_partial (pre : Bytes) (t : AddressType) (h : Hash160) (a : Address)
    (ha : Address.fromHash pre t h = some a) (hcolon : (0x3a : UInt8) ∉ pre)
    (hlower : ∀ c ∈ pre, asciiLowerSpec c = c) :
    Address.ofHuman a.toHuman = .ok a := by
  obtain ⟨a', ha', _, _, _, h'⟩ := C28_roundtrip pre t h hcolon hlower
  rw [ha] at ha'
  cases ha'
  exact h'

/-- **C70** (binary): any address is read back with the same type, hash, prefix and kind and the canonical
string; it is the same address exactly if its string was canonical. -/
theorem C70_binary (a : Address) (ha : ApiAddress a) :
    ∃ a', Address.ofSer a.toSer = .ok a' ∧ a'.addrType = a.addrType ∧ a'.hash = a.hash ∧
      a'.prefixStr = a.prefixStr ∧ a'.prefixKind = a.prefixKind ∧
      IsCashAddr a.prefixStr a.addrType.toByte a.hash.1 a'.cashAddr ∧
      (a' = a ↔ IsCashAddr a.prefixStr a.addrType.toByte a.hash.1 a.cashAddr) := by
  obtain ⟨a', ha', hc⟩ := C54_total a.prefixStr a.addrType a.hash
  obtain ⟨e1, e2, e3, e4⟩ := fromHash_shape ha'
  refine ⟨a', ?_, e2, e1, e3, by rw [e4, api_kind ha], hc, ?_⟩
  · have hl : (Address.toSer a).hash.length = 20 := a.hash.2
    unfold Address.ofSer
    rw [dif_pos hl]
    have : Address.fromHash (Address.toSer a).pre (Address.toSer a).addrType ⟨(Address.toSer a).hash, hl⟩ = some a' := ha'
    rw [this]
  · constructor
    · rintro rfl
      rw [e1, e2, e3] at *
      exact hc
    · intro h
      obtain ⟨a2, h2, e5, -⟩ := (C54_conforms a.prefixStr a.addrType a.hash _).mp h
      rw [ha'] at h2
      cases h2
      obtain ⟨t, hh, s, p, k⟩ := a
      obtain ⟨t', hh', s', p', k'⟩ := a'
      have hk := api_kind ha
      dsimp only at *
      subst e1 e2 e3 e5
      rw [hk, e4]

/-- **C70** (binary): data whose hash has not 20 bytes is rejected; reading never panics. -/
theorem C70_binary_total (s : SerAddress) :
    (s.hash.length = 20 → ∃ a, Address.ofSer s = .ok a ∧ a.toSer = s) ∧
    (s.hash.length ≠ 20 → ∃ e, Address.ofSer s = .err e) := by
  constructor
  · intro hl
    obtain ⟨a, ha, _⟩ := C54_total s.pre s.addrType ⟨s.hash, hl⟩
    obtain ⟨e1, e2, e3, _⟩ := fromHash_shape ha
    refine ⟨a, ?_, ?_⟩
    · unfold Address.ofSer
      rw [dif_pos hl, ha]
    · unfold Address.toSer
      rw [e1, e2, e3]
  · intro hl
    exact ⟨_, by unfold Address.ofSer; rw [dif_neg hl]⟩

/-- **C70** (other prefix): an address with another prefix has the same type and hash, and the string the
CashAddr specification assigns to them under the new prefix. -/
theorem C70_with_prefix (a : Address) (pre : Bytes) :
    ∃ a', a.withPrefix pre = some a' ∧ a'.addrType = a.addrType ∧ a'.hash = a.hash ∧ a'.prefixStr = pre ∧
      IsCashAddr pre a.addrType.toByte a.hash.1 a'.cashAddr := by
  obtain ⟨a', ha, hc⟩ := C54_total pre a.addrType a.hash
  obtain ⟨e1, e2, e3, _⟩ := fromHash_shape ha
  exact ⟨a', ha, e2, e1, e3, hc⟩

set_option maxRecDepth 100000 in
/-- **C70** fails for text with an upper-case prefix (it comes back in lower case) and with a colon in the
prefix (it does not come back). -/
theorem C70_human_fails :
    (∃ a b, Address.fromHash (asciiBytes "BCH".toList) .P2PKH ⟨List.replicate 20 0, rfl⟩ = some a ∧
      Address.ofHuman a.toHuman = .ok b ∧ b.prefixStr = asciiBytes "bch".toList) ∧
    (∃ a e, Address.fromHash (asciiBytes "a:b".toList) .P2PKH ⟨List.replicate 20 0, rfl⟩ = some a ∧
      Address.ofHuman a.toHuman = .err e) := by
  refine ⟨?_, ?_⟩
  · obtain ⟨a, ha, _⟩ := C54_total (asciiBytes "BCH".toList) .P2PKH ⟨List.replicate 20 0, rfl⟩
    have hb : (match Address.fromHash (asciiBytes "BCH".toList) .P2PKH ⟨List.replicate 20 0, rfl⟩ with
      | some a => (match Address.ofHuman a.toHuman with
        | .ok b => decide (b.prefixStr = asciiBytes "bch".toList)
        | _ => false)
      | none => false) = true := by decide +kernel
    rw [ha] at hb
    dsimp only at hb
    split at hb
    · next b h => exact ⟨a, b, ha, h, by simpa using hb⟩
    · cases hb
  · obtain ⟨a, ha, _⟩ := C54_total (asciiBytes "a:b".toList) .P2PKH ⟨List.replicate 20 0, rfl⟩
    have hb : (match Address.fromHash (asciiBytes "a:b".toList) .P2PKH ⟨List.replicate 20 0, rfl⟩ with
      | some a => (match Address.ofHuman a.toHuman with
        | .err _ => true
        | _ => false)
      | none => false) = true := by decide +kernel
    rw [ha] at hb
    dsimp only at hb
    split at hb
    · next e h => exact ⟨a, e, ha, h⟩
    · cases hb

/-- **C70** fails for a prefix made of a string and a kind that do not belong together: the binary form
loses the kind. -/
theorem C70_binary_fails : ∃ a b,
    Address.fromHashPrefix (asciiBytes "x".toList) (some .bitcoinCash) .P2SH ⟨List.replicate 20 0, rfl⟩ = some a ∧
    Address.ofSer a.toSer = .ok b ∧ a.prefixKind = some .bitcoinCash ∧ b.prefixKind = none := by
  obtain ⟨a, ha, _⟩ := C54_total (asciiBytes "x".toList) .P2SH ⟨List.replicate 20 0, rfl⟩
  have ha' : Address.fromHashPrefix (asciiBytes "x".toList) (some .bitcoinCash) .P2SH ⟨List.replicate 20 0, rfl⟩ =
      some { a with prefixKind := some .bitcoinCash } := by
    unfold Address.fromHash at ha
    unfold Address.fromHashPrefix
    rw [Option.map_eq_some_iff] at ha ⊢
    obtain ⟨s, hs, rfl⟩ := ha
    exact ⟨s, hs, rfl⟩
  obtain ⟨e1, e2, e3, e4⟩ := fromHash_shape ha
  refine ⟨_, a, ha', ?_, rfl, by rw [e4]; decide⟩
  unfold Address.ofSer Address.toSer
  dsimp only
  rw [dif_pos a.hash.2]
  have : Address.fromHash a.prefixStr a.addrType ⟨a.hash.1, a.hash.2⟩ = some a := by
    rw [e1, e2, e3]; exact ha
  rw [this]

set_option maxRecDepth 100000 in
/-- Non-vacuity: an address in upper case is accepted and not canonical; the binary form changes its
string. -/
example : ∃ a, Address.fromCashAddr
      (asciiBytes "BITCOINCASH:QQQQQQQQQQQQQQQQQQQQQQQQQQQQQQQQQQFNHKS603".toList) = .ok a ∧
    Address.ofHuman a.toHuman = .ok a ∧ ∃ b, Address.ofSer a.toSer = .ok b ∧ b ≠ a := by
  have h : (match Address.fromCashAddr
      (asciiBytes "BITCOINCASH:QQQQQQQQQQQQQQQQQQQQQQQQQQQQQQQQQQFNHKS603".toList) with
      | .ok a => (match Address.ofSer a.toSer with
        | .ok b => decide (b ≠ a)
        | _ => false)
      | _ => false) = true := by decide +kernel
  split at h
  · next a ha =>
    split at h
    · next b hb => exact ⟨a, ha, C70_human_parsed _ a ha, b, hb, by simpa using h⟩
    · cases h
  · cases h

end BCash
