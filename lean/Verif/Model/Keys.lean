import Verif.Model.Address
import Verif.Model.Equality
import Verif.Model.IntegerConv

/-! # Values as keys — `Hash`, `Eq` and `Ord` of the types used in sets and maps

`Hash` feeds a `Hasher`; the model gives the bytes fed to it, on a 64-bit little-endian target: `usize`
(length prefixes) and `isize` (discriminants of enumerations) are eight bytes, a `str` is followed by the
byte `0xff` (standard library). -/

namespace BCash

/-- `Hash for [u8]` (standard library): the length, then the bytes. -/
def hashSlice (b : Bytes) : Bytes := leBytes 8 b.length ++ b

/-- `Hash for str` (standard library): the bytes, then `0xff`. -/
def hashStr (s : Bytes) : Bytes := s ++ [0xff]

/-- `Hash for ByteArray`, byte_array.rs:598-602. -/
def ByteArray.hashInput (a : ByteArray) : Bytes := hashSlice a.data

/-- `Hash for FixedByteArray`, byte_array.rs:677-681, and the derived `Hash` of the hash types,
hash.rs:51-60, and of `Pubkey`, pubkey.rs:4 (`[u8; 33]` hashes as its slice). -/
def hashFixed {n : Nat} (h : FixedBytes n) : Bytes := hashSlice h.1

/-- `Hash for AddressType` (derived), address.rs:19-23: the discriminant. -/
def AddressType.hashInput (t : AddressType) : Bytes := leBytes 8 t.toByte.toNat

/-- `Hash for Prefix` (derived), address.rs:25-29: the discriminant. -/
def Prefix.hashInput : Prefix → Bytes
  | .bitcoinCash => leBytes 8 0
  | .simpleLedger => leBytes 8 1

/-- `Hash for Option` (derived in the standard library): the discriminant, then the value. -/
def hashOption {α : Type} (f : α → Bytes) : Option α → Bytes
  | none => leBytes 8 0
  | some a => leBytes 8 1 ++ f a

/-- `Hash for Address` (derived), address.rs:11-17, with that of `AddressPrefix` (derived),
address.rs:31-35. -/
def Address.hashInput (a : Address) : Bytes :=
  a.addrType.hashInput ++ hashFixed a.hash ++ hashStr a.cashAddr ++
    (hashStr a.prefixStr ++ hashOption Prefix.hashInput a.prefixKind)

/-- `PartialEq for Address` (derived), address.rs:11-17, with those of `AddressType` (19), `Hash160`
(hash.rs:59, through `FixedByteArray`, byte_array.rs:703-707) and `AddressPrefix` (31). -/
def Address.beq (a b : Address) : Bool :=
  (a.addrType == b.addrType) && (a.hash.1 == b.hash.1) && (a.cashAddr == b.cashAddr) &&
    ((a.prefixStr == b.prefixStr) && (a.prefixKind == b.prefixKind))

/-- `Hash for Opcode` (derived), opcode.rs:62: the discriminant, which is the opcode's byte. -/
def Opcode.hashInput (c : Opcode) : Bytes := leBytes 8 c.toByte.toNat

/-- `Ord for Opcode` (derived), opcode.rs:62: by discriminant. -/
def Opcode.cmp (a b : Opcode) : Ordering := compare a.toByte.toNat b.toByte.toNat

/-- `Ord for [u8]` (standard library): lexicographic, a proper prefix is less. -/
def cmpSlice : Bytes → Bytes → Ordering
  | [], [] => .eq
  | [], _ :: _ => .lt
  | _ :: _, [] => .gt
  | a :: as, b :: bs => if a.toNat < b.toNat then .lt else if b.toNat < a.toNat then .gt else cmpSlice as bs

/-- `Ord for Pubkey` (derived), pubkey.rs:4-5: that of `[u8; 33]`. -/
def Pubkey.cmp (a b : Pubkey) : Ordering := cmpSlice a.1 b.1

/-- `Ord for Integer` (derived), integer.rs:46. -/
def Integer.cmp (a b : Int) : Ordering := compare a b

end BCash
