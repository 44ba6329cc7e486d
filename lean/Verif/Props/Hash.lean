import Verif.Model.Hash
import Verif.Spec.Bip68
import Verif.Proofs.Byte
import Verif.Proofs.Script

/-! # C48, C49, C53: byte orders and hex of hashes, relative time locks, hashes in JSON -/

namespace BCash
open Spec

theorem hexVal_hexDigit (n : Nat) (h : n < 16) : hexVal (hexDigit n) = some n := by
  have : n = 0 ∨ n = 1 ∨ n = 2 ∨ n = 3 ∨ n = 4 ∨ n = 5 ∨ n = 6 ∨ n = 7 ∨ n = 8 ∨ n = 9 ∨ n = 10 ∨
    n = 11 ∨ n = 12 ∨ n = 13 ∨ n = 14 ∨ n = 15 := by omega
  rcases this with h | h | h | h | h | h | h | h | h | h | h | h | h | h | h | h <;> rw [h] <;> rfl

theorem hexDecode_hexEncode (b : Bytes) : hexDecode (hexEncode b) = some b := by
  induction b with
  | nil => rfl
  | cons x xs ih =>
    have hx := x.toNat_lt
    simp only [hexEncode, hexDecode, hexVal_hexDigit _ (show x.toNat / 16 < 16 by omega),
      hexVal_hexDigit _ (show x.toNat % 16 < 16 by omega), ih]
    congr 2
    apply UInt8.toNat_inj.mp
    rw [UInt8.toNat_ofNat']
    omega

theorem hexVal_lt {c : UInt8} {n : Nat} (h : hexVal c = some n) : n < 16 := by
  unfold hexVal at h
  split at h
  · injection h; omega
  split at h
  · injection h; omega
  split at h
  · injection h; omega
  · cases h

/-- Lower-casing of an ASCII letter. -/
def lowerByte (c : UInt8) : UInt8 := if 65 ≤ c.toNat ∧ c.toNat ≤ 90 then c + 32 else c

theorem hexDigit_hexVal {c : UInt8} {n : Nat} (h : hexVal c = some n) :
    hexDigit n = lowerByte c := by
  have key : ∀ c : UInt8, ∀ n : Fin 16, hexVal c = some n.val → hexDigit n.val = lowerByte c :=
    forall_u8 (by set_option maxRecDepth 100000 in decide)
  exact key c ⟨n, hexVal_lt h⟩ h

theorem hexEncode_hexDecode : ∀ (s : Bytes) (b : Bytes), hexDecode s = some b →
    hexEncode b = s.map lowerByte
  | [], b, h => by simp only [hexDecode, Option.some.injEq] at h; subst h; rfl
  | [_], b, h => by simp [hexDecode] at h
  | x :: y :: rest, b, h => by
    simp only [hexDecode] at h
    split at h
    · next p q bs hp hq hb =>
      injection h with h
      subst h
      have hp' := hexVal_lt hp
      have hq' := hexVal_lt hq
      simp only [hexEncode, List.map_cons, hexEncode_hexDecode rest bs hb]
      rw [ofNat_toNat_lt (show 16 * p + q < 256 by omega)]
      rw [show (16 * p + q) / 16 = p by omega, show (16 * p + q) % 16 = q by omega,
        hexDigit_hexVal hp, hexDigit_hexVal hq]
    · cases h

theorem hexDecode_length : ∀ (s : Bytes) (b : Bytes), hexDecode s = some b →
    s.length = 2 * b.length
  | [], b, h => by simp only [hexDecode, Option.some.injEq] at h; subst h; rfl
  | [_], b, h => by simp [hexDecode] at h
  | x :: y :: rest, b, h => by
    simp only [hexDecode] at h
    split at h
    · next p q bs hp hq hb =>
      injection h with h
      subst h
      have := hexDecode_length rest bs hb
      simp only [List.length_cons]
      omega
    · cases h

/-- **C48** (reading back what was written): for every hash, constructing from its big-endian bytes,
little-endian bytes, big-endian hex or little-endian hex gives the same hash. -/
theorem C48_construct_of_read {n : Nat} (h : Hash n) :
    Hash.fromSlice n h.asSlice = .ok h ∧ Hash.fromSliceLe n h.toVecLe = .ok h ∧
    Hash.fromHexBe n h.toHexBe = .ok h ∧ Hash.fromHexLe n h.toHexLe = .ok h := by
  obtain ⟨b, hb⟩ := h
  simp [Hash.fromSlice, Hash.fromSliceLe, Hash.fromHexBe, Hash.fromHexLe, Hash.asSlice,
    Hash.toVecLe, Hash.toHexBe, Hash.toHexLe, hexDecode_hexEncode, hb]

/-- **C48** (writing what was read): constructing a hash succeeds exactly for the right number of
bytes, and reading it out in the same order gives those bytes; in the other order, the reverse. Any
other length is an error saying both lengths. -/
theorem C48_read_of_construct (n : Nat) (b : Bytes) :
    (b.length = n →
      (∃ h, Hash.fromSlice n b = .ok h ∧ h.asSlice = b ∧ h.toVecLe = b.reverse) ∧
      (∃ h, Hash.fromSliceLe n b = .ok h ∧ h.toVecLe = b ∧ h.asSlice = b.reverse)) ∧
    (b.length ≠ n →
      Hash.fromSlice n b = .error (.byteArray (.invalidSlice n b.length)) ∧
      Hash.fromSliceLe n b = .error (.byteArray (.invalidSlice n b.length))) := by
  constructor
  · intro h
    refine ⟨⟨⟨b, h⟩, ?_, rfl, rfl⟩, ⟨⟨b.reverse, by simpa using h⟩, ?_, ?_, rfl⟩⟩
    · simp [Hash.fromSlice, h]
    · simp [Hash.fromSliceLe, Hash.fromSlice, h]
    · simp [Hash.toVecLe]
  · intro h
    simp [Hash.fromSliceLe, Hash.fromSlice, h]

/-- **C48** (hex): a hex string is accepted exactly when it consists of `2 n` hex digits (of either
case); reading out in the same order gives the string back in lower case, and in the other order
gives the hex of the reversed bytes. -/
theorem C48_hex (n : Nat) (s : Bytes) :
    (∀ h, Hash.fromHexBe n s = .ok h →
      h.toHexBe = s.map lowerByte ∧ h.toHexLe = hexEncode h.asSlice.reverse) ∧
    (∀ h, Hash.fromHexLe n s = .ok h →
      h.toHexLe = s.map lowerByte ∧ h.toHexBe = hexEncode h.toVecLe.reverse) ∧
    ((∃ h, Hash.fromHexBe n s = .ok h) ↔ s.length = 2 * n ∧ ∀ c ∈ s, (hexVal c).isSome) ∧
    ((∃ h, Hash.fromHexLe n s = .ok h) ↔ s.length = 2 * n ∧ ∀ c ∈ s, (hexVal c).isSome) := by
  have key : ∀ s : Bytes, (∃ b, hexDecode s = some b) ↔
      s.length % 2 = 0 ∧ ∀ c ∈ s, (hexVal c).isSome := by
    intro s
    induction s using hexDecode.induct with
    | case1 => simp [hexDecode]
    | case2 c => simp [hexDecode]
    | case3 a b rest x y bs hb hx hy ih =>
      simp only [hexDecode, hx, hy, hb]
      have := ih.mp ⟨bs, hb⟩
      simp only [List.length_cons, List.mem_cons, forall_eq_or_imp, hx, hy, Option.isSome_some,
        true_and, Option.some.injEq, exists_eq', true_iff]
      exact ⟨by omega, this.2⟩
    | case4 a b rest hne ih =>
      simp only [List.length_cons, List.mem_cons, forall_eq_or_imp]
      constructor
      · rintro ⟨c, hc⟩
        unfold hexDecode at hc
        split at hc
        · next hx hy hb => exact absurd hb (fun hb => hne _ _ _ hx hy hb)
        · cases hc
      · rintro ⟨hl, ha, hb, hr⟩
        obtain ⟨bs, hbs⟩ := ih.mpr ⟨by omega, hr⟩
        obtain ⟨x, hx⟩ := Option.isSome_iff_exists.mp ha
        obtain ⟨y, hy⟩ := Option.isSome_iff_exists.mp hb
        exact absurd hbs (fun hb => hne _ _ _ hx hy hb)
  have acc : ((∃ b, hexDecode s = some b ∧ b.length = n) ↔
      s.length = 2 * n ∧ ∀ c ∈ s, (hexVal c).isSome) := by
    constructor
    · rintro ⟨b, hb, hn⟩
      exact ⟨by rw [hexDecode_length s b hb, hn], ((key s).mp ⟨b, hb⟩).2⟩
    · rintro ⟨hl, hs⟩
      obtain ⟨b, hb⟩ := (key s).mpr ⟨by omega, hs⟩
      exact ⟨b, hb, by have := hexDecode_length s b hb; omega⟩
  refine ⟨?_, ?_, ?_, ?_⟩
  · intro h hh
    unfold Hash.fromHexBe at hh
    split at hh
    · cases hh
    · next d hd =>
      unfold Hash.fromSlice at hh
      split at hh
      · injection hh with hh; subst hh
        exact ⟨by simp only [Hash.toHexBe, Hash.asSlice]; exact hexEncode_hexDecode s d hd, rfl⟩
      · cases hh
  · intro h hh
    unfold Hash.fromHexLe at hh
    split at hh
    · cases hh
    · next d hd =>
      unfold Hash.fromSlice at hh
      split at hh
      · injection hh with hh; subst hh
        refine ⟨?_, ?_⟩
        · simp only [Hash.toHexLe, Hash.toVecLe, List.reverse_reverse]
          exact hexEncode_hexDecode s d hd
        · simp only [Hash.toHexBe, Hash.asSlice, Hash.toVecLe, List.reverse_reverse]
      · cases hh
  · rw [← acc]
    unfold Hash.fromHexBe Hash.fromSlice
    constructor
    · rintro ⟨h, hh⟩
      split at hh
      · cases hh
      · next d hd =>
        split at hh
        · next hl => exact ⟨d, hd, hl⟩
        · cases hh
    · rintro ⟨b, hb, hl⟩
      exact ⟨⟨b, hl⟩, by simp [hb, hl]⟩
  · rw [← acc]
    unfold Hash.fromHexLe Hash.fromSlice
    constructor
    · rintro ⟨h, hh⟩
      split at hh
      · cases hh
      · next d hd =>
        split at hh
        · next hl => exact ⟨d, hd, by simpa using hl⟩
        · cases hh
    · rintro ⟨b, hb, hl⟩
      exact ⟨⟨b.reverse, by simpa using hl⟩, by simp [hb, hl]⟩

/-- "0aFF" is accepted for a 2-byte hash and gives the bytes in both orders; "0aF" is not. -/
example : Hash.fromHexBe 2 [48, 97, 70, 70] = .ok ⟨[0x0a, 0xff], rfl⟩ ∧
    Hash.fromHexLe 2 [48, 97, 70, 70] = .ok ⟨[0xff, 0x0a], rfl⟩ ∧
    Hash.toHexLe (n := 2) ⟨[0xff, 0x0a], rfl⟩ = [48, 97, 102, 102] ∧
    Hash.fromHexLe 2 [48, 97, 70] = .error .fromHex ∧
    Hash.fromHexLe 2 [48, 97] = .error (.byteArray (.invalidSlice 2 1)) := by decide

/-! ## C53: hashes and public keys in JSON -/

/-- **C53** (public keys from bytes): exactly 33 bytes make a public key, which has those bytes; of any other
number of bytes `from_slice_checked` makes nothing and `from_slice` panics. -/
theorem C53_pubkey_slices (b : Bytes) :
    (b.length = 33 → ∃ p : Pubkey, p.1 = b ∧ Pubkey.fromSlice b = some p ∧ Pubkey.fromSliceChecked b = some p) ∧
    (b.length ≠ 33 → Pubkey.fromSlice b = none ∧ Pubkey.fromSliceChecked b = none) :=
  ⟨fun h => ⟨⟨b, h⟩, rfl, dif_pos h, dif_pos h⟩, fun h => ⟨dif_neg h, dif_neg h⟩⟩

example : ∃ p : Pubkey, p.1 = List.replicate 33 7 ∧ Pubkey.fromSlice (List.replicate 33 7) = some p ∧
    Pubkey.fromSliceChecked (List.replicate 33 7) = some p := (C53_pubkey_slices _).1 rfl

example : Pubkey.fromSlice (List.replicate 65 7) = none := ((C53_pubkey_slices _).2 (by decide)).1

/-- **C53** (round trip): every hash and every public key read from its own JSON string comes back
unchanged; the string of a hash is its little-endian hex (as displayed). -/
theorem C53_json_roundtrip {n : Nat} (h : Hash n) (p : Pubkey) :
    Hash.fromJson n h.toJson = .ok h ∧ h.toJson = h.toHexLe ∧
    Pubkey.fromJson p.toJson = .ok p := by
  obtain ⟨b, hb⟩ := h
  obtain ⟨q, hq⟩ := p
  simp [Hash.fromJson, Hash.toJson, Pubkey.fromJson, Pubkey.toJson, hexDecode_hexEncode, hb, hq,
    Hash.toHexLe, Hash.toVecLe]

/-- **C53** (public keys): any string is either read as a 33-byte key or rejected with an error. -/
theorem C53_pubkey_length_checked (s : Bytes) :
    (∃ p, Pubkey.fromJson s = .ok p ∧ p.toJson = s.map lowerByte) ∨
    Pubkey.fromJson s = .error .fromHex ∨
    ∃ k, k ≠ 33 ∧ Pubkey.fromJson s = .error (.invalidSize 33 k) := by
  unfold Pubkey.fromJson
  split
  · exact .inr (.inl rfl)
  · next d hd =>
    split
    · next hl => exact .inl ⟨_, rfl, hexEncode_hexDecode s d hd⟩
    · next hl => exact .inr (.inr ⟨_, hl, rfl⟩)

/-- **C53 fails** for hashes: a JSON string of valid hex of the wrong length makes the import of a
hash panic instead of reporting an error. -/
theorem C53_hash_length_fails (n : Nat) (h : n ≠ 1) : Hash.fromJson n [48, 48] = .panic := by
  have : hexDecode [48, 48] = some [0] := by decide
  simp [Hash.fromJson, this, Ne.symm h]

/-- **C53**, the part that holds: importing a hash from a JSON string panics exactly on valid hex of
the wrong length; otherwise it returns the hash or the hex error. -/
theorem C53_hash_length_partial (n : Nat) (s : Bytes) :
    (Hash.fromJson n s = .panic ↔ s.length ≠ 2 * n ∧ s.length % 2 = 0 ∧ (hexDecode s).isSome) ∧
    (∀ e, Hash.fromJson n s = .err e → e = .fromHex ∧ hexDecode s = none) ∧
    (∀ h, Hash.fromJson n s = .ok h → h.toJson = s.map lowerByte) := by
  unfold Hash.fromJson
  cases hd : hexDecode s with
  | none => simp
  | some d =>
    have hlen := hexDecode_length s d hd
    by_cases hl : d.reverse.length = n
    · simp only [dif_pos hl]
      refine ⟨⟨(by intro h; cases h), fun h => ?_⟩, (by intro e h; cases h), fun h hh => ?_⟩
      · exfalso; rw [List.length_reverse] at hl; omega
      · injection hh with hh; subst hh
        simp only [Hash.toJson, List.reverse_reverse]
        exact hexEncode_hexDecode s d hd
    · simp only [dif_neg hl]
      rw [List.length_reverse] at hl
      refine ⟨⟨fun _ => ⟨by omega, by omega, rfl⟩, fun _ => by trivial⟩, (by intro e h; cases h), (by intro e h; cases h)⟩

example : Hash.fromJson 2 [48, 97, 70, 70] = .ok ⟨[0xff, 0x0a], rfl⟩ ∧
    Hash.fromJson 2 [48, 97] = .panic ∧ Hash.fromJson 2 [48] = .err .fromHex := by decide

/-! ## C49: relative time locks -/

/-- **C49**: the sequence number of a relative lock means, by BIP68, that kind and amount; the
disable bit is clear and no bit outside the BIP68 mask is set. -/
theorem C49_bip68 (n : UInt16) :
    bip68 (CsvTimedelta.blockheight n).sequence.toNat = .blocks n.toNat ∧
    bip68 (CsvTimedelta.seconds512 n).sequence.toNat = .units512s n.toNat ∧
    (CsvTimedelta.blockheight n).sequence.toNat = n.toNat ∧
    (CsvTimedelta.seconds512 n).sequence.toNat = n.toNat + 2 ^ 22 := by
  have hn : n.toNat < 2 ^ 16 := n.toNat_lt
  have h1 : (CsvTimedelta.blockheight n).sequence.toNat = n.toNat := by
    simp [CsvTimedelta.sequence]
  have h2 : (CsvTimedelta.seconds512 n).sequence.toNat = n.toNat + 2 ^ 22 := by
    simp only [CsvTimedelta.sequence, CSV_TYPE_FLAG, UInt32.toNat_or, UInt16.toNat_toUInt32]
    rw [show ((1 : UInt32) <<< (22 : UInt32)).toNat = 1 <<< 22 by rfl]
    rw [Nat.or_comm, ← Nat.shiftLeft_add_eq_or_of_lt (show n.toNat < 2 ^ 22 by omega) 1,
      Nat.shiftLeft_eq]
    omega
  have t : ∀ k x : Nat, x < 2 ^ k → x.testBit k = false := fun k x h => Nat.testBit_lt_two_pow h
  have hm : n.toNat % 2 ^ 16 = n.toNat := Nat.mod_eq_of_lt hn
  refine ⟨?_, ?_, h1, h2⟩
  · rw [h1]
    simp only [bip68]
    rw [t 31 _ (by omega), t 22 _ (by omega), hm]
    rfl
  · rw [h2]
    simp only [bip68]
    rw [t 31 _ (by omega)]
    have : (n.toNat + 2 ^ 22).testBit 22 = true := by
      rw [Nat.testBit_eq_decide_div_mod_eq, decide_eq_true_eq]
      have : (n.toNat + 2 ^ 22) / 2 ^ 22 = 1 := by omega
      rw [this]
    rw [this]
    simp only [Bool.false_eq_true, if_false, if_true]
    rw [show (n.toNat + 2 ^ 22) % 2 ^ 16 = n.toNat by omega]

/-- Ten blocks, and 3 * 512 seconds. -/
example : (CsvTimedelta.blockheight 10).sequence = 10 ∧
    (CsvTimedelta.seconds512 3).sequence = 4194307 ∧
    bip68 4194307 = .units512s 3 ∧ bip68 0xffffffff = .none := by decide

end BCash
