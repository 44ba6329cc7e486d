import Verif.Model.Codec

/-! # Hashes, hex, public keys, relative time locks — `bitcoin-cash/src/hash.rs`, `pubkey.rs`,
`sequence.rs`

Strings are byte strings (their UTF-8 encoding), as in Rust. -/

namespace BCash

/-- hex crate, `encode`: a digit of the lower-case alphabet. -/
def hexDigit (n : Nat) : UInt8 :=
  if n < 10 then UInt8.ofNat (48 + n) else UInt8.ofNat (87 + n)

/-- hex crate, `hex::encode` (external; hash.rs:39, 42). -/
def hexEncode : Bytes → Bytes
  | [] => []
  | b :: bs => hexDigit (b.toNat / 16) :: hexDigit (b.toNat % 16) :: hexEncode bs

/-- hex crate, `val`: both cases are accepted. -/
def hexVal (c : UInt8) : Option Nat :=
  if 48 ≤ c.toNat ∧ c.toNat ≤ 57 then some (c.toNat - 48)
  else if 97 ≤ c.toNat ∧ c.toNat ≤ 102 then some (c.toNat - 87)
  else if 65 ≤ c.toNat ∧ c.toNat ≤ 70 then some (c.toNat - 55)
  else none

/-- hex crate, `hex::decode` (external; hash.rs:27, 30): odd length or a bad digit is an error. -/
def hexDecode : Bytes → Option Bytes
  | [] => some []
  | [_] => none
  | a :: b :: rest =>
    match hexVal a, hexVal b, hexDecode rest with
    | some x, some y, some bs => some (UInt8.ofNat (16 * x + y) :: bs)
    | _, _, _ => none

/-- The five hash types are `FixedByteArrayLE<[u8; n]>` with `n = 20` or `32`, hash.rs:51-60;
provenance is erased. -/
abbrev Hash (n : Nat) := FixedBytes n

/-- `Hash160` (20 bytes). -/
abbrev Hash160 := Hash 20

namespace Hash
variable {n : Nat}

/-- `Hashed::from_slice` through `FixedByteArray::from_slice_unnamed`, hash.rs:150-152 (and the four
other impls), byte_array.rs:527-539. -/
def fromSlice (n : Nat) (slice : Bytes) : Except Error (Hash n) :=
  if h : slice.length = n then .ok ⟨slice, h⟩ else .error (.byteArray (.invalidSlice n slice.length))

/-- `Hashed::as_slice`, hash.rs:147-149. -/
def asSlice (h : Hash n) : Bytes := h.1

/-- `Hashed::from_hex_le`, hash.rs:26-28. -/
def fromHexLe (n : Nat) (s : Bytes) : Except Error (Hash n) :=
  match hexDecode s with
  | none => .error .fromHex
  | some d => fromSlice n d.reverse

/-- `Hashed::from_hex_be`, hash.rs:29-31. -/
def fromHexBe (n : Nat) (s : Bytes) : Except Error (Hash n) :=
  match hexDecode s with
  | none => .error .fromHex
  | some d => fromSlice n d

/-- `Hashed::from_slice_le`, hash.rs:32-34. -/
def fromSliceLe (n : Nat) (slice : Bytes) : Except Error (Hash n) := fromSlice n slice.reverse

/-- `Hashed::to_vec_le`, hash.rs:35-37. -/
def toVecLe (h : Hash n) : Bytes := h.1.reverse

/-- `Hashed::to_hex_le`, hash.rs:38-40; also `Display` and `Debug`, hash.rs:88-138. -/
def toHexLe (h : Hash n) : Bytes := hexEncode h.toVecLe

/-- `Hashed::to_hex_be`, hash.rs:41-43. -/
def toHexBe (h : Hash n) : Bytes := hexEncode h.asSlice

/-- `Serialize for FixedByteArrayLE` in a human readable format, byte_array.rs:735-756. -/
def toJson (h : Hash n) : Bytes := hexEncode h.1.reverse

/-- `Deserialize for FixedByteArrayLE` in a human readable format, byte_array.rs:711-733:
`copy_from_slice` panics when the length differs. -/
def fromJson (n : Nat) (s : Bytes) : Res Error (Hash n) :=
  match hexDecode s with
  | none => .err .fromHex
  | some d => if h : d.reverse.length = n then .ok ⟨d.reverse, h⟩ else .panic

end Hash

/-- `struct Pubkey([u8; 33])`, pubkey.rs:4-5. -/
abbrev Pubkey := FixedBytes 33

namespace Pubkey
/-- `Pubkey::from_slice`, pubkey.rs:8-12: `copy_from_slice` panics on a wrong length (`none`). -/
def fromSlice (s : Bytes) : Option Pubkey := if h : s.length = 33 then some ⟨s, h⟩ else none

/-- `Pubkey::from_slice_checked`, pubkey.rs:14-21 (`none` is Rust's `None`). -/
def fromSliceChecked (s : Bytes) : Option Pubkey := if h : s.length = 33 then some ⟨s, h⟩ else none

/-- `Display`, pubkey.rs:42-46, and `Serialize` in a human readable format, pubkey.rs:67-78. -/
def toJson (p : Pubkey) : Bytes := hexEncode p.1

/-- `Deserialize` in a human readable format, pubkey.rs:80-99. -/
def fromJson (s : Bytes) : Except Error Pubkey :=
  match hexDecode s with
  | none => .error .fromHex
  | some d => if h : d.length = 33 then .ok ⟨d, h⟩ else .error (.invalidSize 33 d.length)
end Pubkey

/-- `CSV_TYPE_FLAG`, sequence.rs:1. -/
def CSV_TYPE_FLAG : UInt32 := (1 : UInt32) <<< (22 : UInt32)

/-- `enum CsvTimedelta`, sequence.rs:3-7. -/
inductive CsvTimedelta where
  | blockheight (n : UInt16)
  | seconds512 (n : UInt16)
deriving DecidableEq, Repr

/-- `CsvTimedelta::sequence`, sequence.rs:9-20. -/
def CsvTimedelta.sequence : CsvTimedelta → UInt32
  | .blockheight n => n.toUInt32
  | .seconds512 n => n.toUInt32 ||| CSV_TYPE_FLAG

end BCash
