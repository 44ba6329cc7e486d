import Verif.Model.Basic

/-! # Script number encoding — `bitcoin-cash-base/src/encoding_utils.rs` -/

namespace BCash

/-- `i32::MIN ..= i32::MAX` (`InnerInteger = i32`, integer.rs:5). -/
abbrev InI32 (x : Int) : Prop := -2 ^ 31 ≤ x ∧ x < 2 ^ 31

/-- Two's-complement wrap-around to 32 bits (what a left shift keeps). -/
def wrap32 (x : Int) : Int := (x + 2 ^ 31) % 2 ^ 32 - 2 ^ 31

/-- The scanning loop of `encode_minimally`, encoding_utils.rs:58-74: `i` counts down;
`vec[i-1]` is inspected. Falling off the loop at `i = 0` resizes to the empty vector. -/
def minimalLoop (vec : Bytes) (last : UInt8) : Nat → Bytes
  | 0 => []
  | j + 1 =>
    -- here the Rust variable `i` equals `j + 1`
    let b := vec.getD j 0
    if b ≠ 0 then
      if b &&& 0x80 ≠ 0 then
        -- `vec[i] = last; i += 1; vec.resize(i, 0)`
        (vec.set (j + 1) last).take (j + 2)
      else
        -- `vec[i - 1] |= last; vec.resize(i, 0)`
        (vec.set j (b ||| last)).take (j + 1)
    else minimalLoop vec last j

/-- `encode_minimally`, encoding_utils.rs:40-76 (in-place update returned as a new list). -/
def encodeMinimally (vec : Bytes) : Bytes :=
  match vec.getLast? with
  | none => vec
  | some last =>
    if last &&& 0x7f ≠ 0 then vec
    else if vec.length = 1 then []
    else if vec.getD (vec.length - 2) 0 &&& 0x80 ≠ 0 then vec
    else minimalLoop vec last (vec.length - 1)

/-- `encode_int`, encoding_utils.rs:78-86. The argument is an `i32`; `i32::MIN.abs()` overflows
(panic in the debug profile). `write_i32::<LittleEndian>` of the non-negative `abs`. -/
def encodeInt (x : Int) : Res Empty Bytes :=
  if x = -2 ^ 31 then .panic
  else
    .ok (encodeMinimally (leBytes 4 x.natAbs ++ (if x < 0 then [0x80] else [])))

/-- `encode_bool`, encoding_utils.rs:88-94. -/
def encodeBool (b : Bool) : Bytes := if b then [0x01] else []

/-- Error of `vec_to_int` (a formatted string in the code). -/
inductive VecToIntError where
  | overflow
deriving DecidableEq, Repr

/-- `try_shl`, encoding_utils.rs:96-99: `i32::checked_shl` fails only when the shift is ≥ 32;
otherwise bits shifted out are lost. -/
def tryShl (a : Int) (s : Nat) : Res VecToIntError Int :=
  if 32 ≤ s then .err .overflow else .ok (wrap32 (a * 2 ^ s))

/-- i32 `+=`/`*=` with the debug-profile overflow check. -/
def checkI32 (x : Int) : Res VecToIntError Int := if InI32 x then .ok x else .panic

/-- The loop of `vec_to_int`, encoding_utils.rs:108-118, over the remaining bytes;
`i == vec.len() - 1` is "the remaining list is a singleton". `shift` is a `u32` (`shift += 8`
overflows at 2^32). -/
def vecToIntLoop : Bytes → Nat → Int → Res VecToIntError Int
  | [], _, acc => .ok acc
  | [b], shift, acc =>
    if b &&& 0x80 ≠ 0 then do
      let d ← tryShl ((b ^^^ 0x80).toNat : Int) shift
      let acc ← checkI32 (acc + d)
      checkI32 (acc * (-1))
    else do
      let acc ← (if b ≠ 0 then do
          let d ← tryShl (b.toNat : Int) shift
          checkI32 (acc + d)
        else Res.ok acc)
      if shift + 8 ≥ 2 ^ 32 then .panic else .ok acc
  | b :: b' :: rest, shift, acc => do
    let acc ← (if b ≠ 0 then do
        let d ← tryShl (b.toNat : Int) shift
        checkI32 (acc + d)
      else Res.ok acc)
    if shift + 8 ≥ 2 ^ 32 then .panic else vecToIntLoop (b' :: rest) (shift + 8) acc

/-- `vec_to_int`, encoding_utils.rs:101-120. -/
def vecToInt (vec : Bytes) : Res VecToIntError Int :=
  if vec.isEmpty then .ok 0 else vecToIntLoop vec 0 0

end BCash
