import Verif.Model.Basic

/-! # Compact-size ("var int") integers — `bitcoin-cash-base/src/encoding_utils.rs` -/

namespace BCash

/-- The only I/O error a slice/cursor reader produces: unexpected end of input
(`std::io::ErrorKind::UnexpectedEof` / "failed to fill whole buffer"). -/
inductive IoError where
  | unexpectedEof
deriving DecidableEq, Repr

/-- byteorder `read_uN::<LittleEndian>` on a slice reader, `k` bytes wide; returns the unread
suffix. (external crate; modelled by its documented behaviour) -/
def readLE (k : Nat) (input : Bytes) : Except IoError (Nat × Bytes) :=
  if input.length < k then .error .unexpectedEof
  else .ok (leVal (input.take k), input.drop k)

/-- `read_var_int`, encoding_utils.rs:5-13. The reader is the input slice; the unread suffix is
returned explicitly. Non-canonical encodings are accepted, as in the code. -/
def readVarInt (input : Bytes) : Except IoError (Nat × Bytes) :=
  match input with
  | [] => .error .unexpectedEof
  | b :: rest =>
    if b.toNat ≤ 0xfc then .ok (b.toNat, rest)
    else if b.toNat = 0xfd then readLE 2 rest
    else if b.toNat = 0xfe then readLE 4 rest
    else readLE 8 rest

/-- `write_var_int` / `encode_var_int`, encoding_utils.rs:15-38. `n` is a `u64`. -/
def encodeVarInt (n : UInt64) : Bytes :=
  let m := n.toNat
  if m ≤ 0xfc then [UInt8.ofNat m]
  else if m ≤ 0xffff then 0xfd :: leBytes 2 m
  else if m ≤ 0xffffffff then 0xfe :: leBytes 4 m
  else 0xff :: leBytes 8 m

end BCash
