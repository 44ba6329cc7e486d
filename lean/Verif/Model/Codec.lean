import Verif.Model.Script

/-! # Consensus serialisation — `bitcoin-cash/src/bitcoin_code.rs`, `serializer.rs`,
`bitcoin-cash-code/src/lib.rs`

Arrays are modelled by their contents (provenance is erased; that it cannot influence the contents is
C10, C13 and C21). This is also literally what the crate does with feature `simple-bytearray`. -/

namespace BCash

/-- `trait BitcoinCode`, bitcoin_code.rs:9-11. `ser` is `none` where the code panics. -/
structure Codec (α : Type) where
  ser : α → Option Bytes
  deserRest : Bytes → Res Error (α × Bytes)

/-- `BitcoinCode::deser`, bitcoin_code.rs:12-18. -/
def Codec.deser {α : Type} (c : Codec α) (data : Bytes) : Res Error α :=
  (c.deserRest data).bind fun (item, leftover) =>
    if leftover ≠ [] then .err (.byteArray (.leftoverBytes leftover)) else .ok item

/-- `ByteArray::split` on contents (C10), with the `?` conversion. -/
def splitBytes (b : Bytes) (n : Nat) : Res Error (Bytes × Bytes) :=
  if b.length < n then .err (.byteArray (.invalidSplit n b.length)) else .ok (b.take n, b.drop n)

/-- `read_size`, bitcoin_code.rs:21-27: splitting at the cursor position leaves the unread part. -/
def readSize (data : Bytes) : Res Error (Nat × Bytes) := .ofExcept .io (readVarInt data)

/-- `isize::MAX`: the largest allocation `Vec::with_capacity` accepts (beyond it: "capacity
overflow" panic). -/
def isizeMax : Nat := 2 ^ 63 - 1

namespace Codec

/-- `BitcoinCode for ByteArray`, bitcoin_code.rs:29-39. -/
def bytes : Codec Bytes where
  ser v := some (encodeVarInt (UInt64.ofNat v.length) ++ v)
  deserRest data := (readSize data).bind fun (len, rest) => splitBytes rest len

/-- Byte strings of fixed length: `FixedByteArray<[u8; n]>`. -/
abbrev _root_.BCash.FixedBytes (n : Nat) := { b : Bytes // b.length = n }

/-- `BitcoinCode for FixedByteArray`, bitcoin_code.rs:41-56, and for the hash types, hash.rs:279-333,
and `Pubkey`. `from_byte_array` checks the length (`InvalidSlice`), byte_array.rs. -/
def fixed (n : Nat) : Codec (FixedBytes n) where
  ser v := some v.1
  deserRest data := (splitBytes data n).bind fun (left, right) =>
    if h : left.length = n then .ok (⟨left, h⟩, right)
    else .err (.byteArray (.invalidSlice n left.length))

/-- The loop of `Vec::deser_rest`, bitcoin_code.rs:68-72. -/
def deserMany {α : Type} (c : Codec α) : Nat → Bytes → Res Error (List α × Bytes)
  | 0, data => .ok ([], data)
  | n + 1, data => (c.deserRest data).bind fun (item, rest) =>
      (deserMany c n rest).bind fun (items, rest) => .ok (item :: items, rest)

/-- Concatenation of the serialisations, `ByteArray::from_parts(self.iter().map(ser))`. -/
def serMany {α : Type} (c : Codec α) : List α → Option Bytes
  | [] => some []
  | v :: vs => (c.ser v).bind fun b => (serMany c vs).bind fun bs => some (b ++ bs)

/-- `BitcoinCode for Vec<T>`, bitcoin_code.rs:58-75. `elemSize` is `size_of::<T>()`;
`Vec::with_capacity(len)` panics when `len * size_of::<T>() > isize::MAX`. (Failure of the allocator
itself is not modelled.) -/
def vec {α : Type} (elemSize : Nat) (c : Codec α) : Codec (List α) where
  ser v := (serMany c v).bind fun data => some (encodeVarInt (UInt64.ofNat v.length) ++ data)
  deserRest data := (readSize data).bind fun (len, rest) =>
    if len * elemSize > isizeMax then .panic else deserMany c len rest

/-- `BitcoinCode for bool`, bitcoin_code.rs:77-86. -/
def bool : Codec Bool where
  ser b := some [if b then 1 else 0]
  deserRest data := (splitBytes data 1).bind fun (left, right) =>
    match left with
    | [] => .panic
    | b :: _ => .ok (b ≠ 0, right)

/-- `array_impls!`, bitcoin_code.rs:88-111: the `k`-byte integers `u8..u128`, `i8..i128`
(two's complement bit patterns), little endian. `copy_from_slice` panics on a length mismatch. -/
def int (k : Nat) : Codec (BitVec (8 * k)) where
  ser v := some (leBytes k v.toNat)
  deserRest data := (splitBytes data k).bind fun (left, right) =>
    if left.length ≠ k then .panic else .ok (BitVec.ofNat (8 * k) (leVal left), right)

/-- Two fields in order: the code generated by `#[derive(BitcoinCode)]`,
bitcoin-cash-code/src/lib.rs:95-167, concatenates `ser` of the fields in declaration order and
deserialises them in the same order, passing the rest along. -/
def seq {α β : Type} (a : Codec α) (b : Codec β) : Codec (α × β) where
  ser v := (a.ser v.1).bind fun x => (b.ser v.2).bind fun y => some (x ++ y)
  deserRest data := (a.deserRest data).bind fun (x, data) =>
    (b.deserRest data).bind fun (y, data) => .ok ((x, y), data)

/-- Packing fields into a struct (`pack`) and projecting them (`from_`); skipped fields get their
`Default` in `pack`, lib.rs:141-143. -/
def imap {α β : Type} (c : Codec α) (pack : α → β) (from_ : β → α) : Codec β where
  ser v := c.ser (from_ v)
  deserRest data := (c.deserRest data).bind fun (x, data) => .ok (pack x, data)

/-- `u32`. -/
def u32 : Codec UInt32 := (int 4).imap UInt32.ofBitVec UInt32.toBitVec
/-- `i32`. -/
def i32 : Codec Int32 := u32.imap Int32.ofUInt32 Int32.toUInt32
/-- `u64`. -/
def u64 : Codec UInt64 := (int 8).imap UInt64.ofBitVec UInt64.toBitVec

/-- `deserialize_ops_byte_array`, script.rs:231-285, on an array without provenance, keeping the
contents of the pushed arrays. (That provenance does not matter is `C74_reading`.) -/
def _root_.BCash.deserializeOpsContents (code : Bytes) : Res Error (List (Op Bytes)) :=
  (deserializeOpsByteArray (.newUnnamed code)).map (List.map (Op.map ByteArray.data))

/-- `BitcoinCode for Script`, script.rs:298-308. -/
def script : Codec Script where
  ser s := s.serOps.bind bytes.ser
  deserRest data := (bytes.deserRest data).bind fun (code, rest) =>
    (deserializeOpsContents code).bind fun ops => .ok (ops, rest)

end Codec

/-! ## Streams of values, serializer.rs -/

/-- `encode_bitcoin_code_all`, serializer.rs:3-12. -/
def encodeAll {α : Type} (c : Codec α) (vs : List α) : Option Bytes := c.serMany vs

/-- The loop of `decode_bitcoin_code_all`, serializer.rs:14-24, with explicit fuel; `none` means the
fuel ran out (the loop is still running). -/
def decodeAll {α : Type} (c : Codec α) : Nat → Bytes → Option (Res Error (List α))
  | 0, _ => none
  | fuel + 1, data =>
    match c.deserRest data with
    | .err e => some (.err e)
    | .panic => some .panic
    | .ok (item, rest) =>
      if rest = [] then some (.ok [item])
      else (decodeAll c fuel rest).map (fun r => r.map (item :: ·))

end BCash
