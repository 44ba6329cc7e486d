import Verif.Model.ScriptNum
import Verif.Model.Integer
import Verif.Model.ByteArray
import Verif.Model.TxBuilder

/-! # Arithmetic in both build profiles

Rust checks `+`, `-`, `*`, `abs`, unary minus and shifts for overflow in the debug profile and wraps around in
the release profile. The other models are those of the debug profile. This file models the functions in which
an overflow can occur with the profile as a parameter. -/

namespace BCash

/-- The build profiles: `overflow-checks` on (debug) or off (release). -/
inductive Profile where
  | debug
  | release
deriving DecidableEq, Repr

namespace Profile

/-- The result of an `i32` operation whose exact result is `x` (`none`: panic). -/
def i32 (p : Profile) (x : Int) : Option Int :=
  if InI32 x then some x
  else match p with
    | debug => none
    | release => some (wrap32 x)

/-- The result of a `u32` operation whose exact result is `x`. -/
def u32 (p : Profile) (x : Nat) : Option Nat :=
  if x < 2 ^ 32 then some x
  else match p with
    | debug => none
    | release => some (x % 2 ^ 32)

/-- The result of a `u64` operation whose exact result is `x`. -/
def u64 (p : Profile) (x : Nat) : Option Nat :=
  if x < 2 ^ 64 then some x
  else match p with
    | debug => none
    | release => some (x % 2 ^ 64)

/-- `1u128 << s` for the shift amount `s`: an amount of 128 or more panics or is taken modulo 128. -/
def shlOne (p : Profile) (s : Nat) : Option Nat :=
  if s < 128 then some (2 ^ s)
  else match p with
    | debug => none
    | release => some (2 ^ (s % 128))

/-- `encode_int`, encoding_utils.rs:78-86: `int.abs()` may overflow; `write_i32` writes the two's complement
bits. -/
def encodeInt (p : Profile) (x : Int) : Res Empty Bytes :=
  (Res.ofOption (p.i32 (x.natAbs : Int))).bind fun a =>
    .ok (encodeMinimally (leBytes 4 (a % 2 ^ 32).toNat ++ (if x < 0 then [0x80] else [])))

/-- The loop of `vec_to_int`, encoding_utils.rs:108-118: `int +=`, `int *= -1` and `shift += 8` may overflow. -/
def vecToIntLoop (p : Profile) : Bytes → Nat → Int → Res VecToIntError Int
  | [], _, acc => .ok acc
  | [b], shift, acc =>
    if b &&& 0x80 ≠ 0 then
      (tryShl ((b ^^^ 0x80).toNat : Int) shift).bind fun d =>
      (Res.ofOption (p.i32 (acc + d))).bind fun acc =>
      Res.ofOption (p.i32 (acc * (-1)))
    else
      (if b ≠ 0 then
        (tryShl (b.toNat : Int) shift).bind fun d => Res.ofOption (p.i32 (acc + d))
      else .ok acc).bind fun acc =>
      (Res.ofOption (p.u32 (shift + 8))).bind fun _ => .ok acc
  | b :: b' :: rest, shift, acc =>
    (if b ≠ 0 then
      (tryShl (b.toNat : Int) shift).bind fun d => Res.ofOption (p.i32 (acc + d))
    else .ok acc).bind fun acc =>
    (Res.ofOption (p.u32 (shift + 8))).bind fun shift => vecToIntLoop p (b' :: rest) shift acc

/-- `vec_to_int`, encoding_utils.rs:101-120. -/
def vecToInt (p : Profile) (vec : Bytes) : Res VecToIntError Int :=
  if vec.isEmpty then .ok 0 else p.vecToIntLoop vec 0 0

/-- `Neg for Integer`, integer.rs:673-679. -/
def neg (p : Profile) (a : Int) : Res Empty Int := Res.ofOption (p.i32 (-a))

/-- `ByteArray::from_int`, byte_array.rs:425-457: `inner_n_bytes * 8`, `- 1`, the shift by `max_bits as u128`
(sign-extended), `max_num - 1` (a shifted 1 is positive), its cast to `i32`, `-max_num` and `inner_int.abs()`. -/
def fromInt (p : Profile) (int nBytes : Int) : Res ByteArrayError ByteArray :=
  if nBytes ≤ 0 then .err (.fromInteger int nBytes)
  else
    (Res.ofOption (p.i32 (nBytes * 8))).bind fun bits =>
    (Res.ofOption (p.i32 (bits - 1))).bind fun bits =>
    (Res.ofOption (p.shlOne ((min bits 31) % 2 ^ 128).toNat)).bind fun shifted =>
    let maxNum := wrap32 ((shifted - 1 : Nat) : Int)
    (Res.ofOption (p.i32 (-maxNum))).bind fun minNum =>
    if int < minNum ∨ int > maxNum then .err (.fromInteger int nBytes)
    else
      (Res.ofOption (p.i32 (int.natAbs : Int))).bind fun abs =>
      let n := nBytes.toNat
      let bytes := leBytes 4 (abs % 2 ^ 32).toNat
      let bytes :=
        if bytes.length < n then bytes ++ List.replicate (n - bytes.length) 0
        else if bytes.length > n then bytes.take n
        else bytes
      let bytes :=
        if int < 0 then bytes.set (bytes.length - 1) (bytes.getD (bytes.length - 1) 0 ||| 0x80)
        else bytes
      .ok (ByteArray.mk bytes none .num2bin none)

/-- `Iterator::sum::<u64>`: additions from the left starting with 0. -/
def sum (p : Profile) : List UInt64 → Nat → Option Nat
  | [], acc => some acc
  | x :: xs, acc => (p.u64 (acc + x.toNat)).bind fun acc => p.sum xs acc

open TxBuilder
variable {Dyn : Type}

/-- `known_output_sum`, tx_builder.rs:410-416. -/
def knownOutputSum (p : Profile) (b : TxBuilder Dyn) : Option Nat := p.sum (b.outputs.map (·.getValue)) 0

/-- `input_sum`, tx_builder.rs:418-424. -/
def inputSum (p : Profile) (b : TxBuilder Dyn) : Option Nat := p.sum (b.inputs.map (·.input.value)) 0

/-- The loop body of `build`, tx_builder.rs:363-388: `new_size as u64 * self.fee_per_kb` may overflow. -/
def buildStep (p : Profile) (sz : Layout) (b : TxBuilder Dyn) (st : BuildState) (idx : Nat) :
    Option BuildState :=
  match b.outputs[idx]? with
  | none => none
  | some (.knownValue _) => some st
  | some (.leftover lower upper _ _) =>
    if st.total ≤ lower.toNat then some st
    else
      let maxLeftover := min st.total upper.toNat
      (b.estimateSize sz (b.makeOutputs (setAmount st.amounts idx (some maxLeftover)))).bind
      fun newSize =>
      (p.u64 (newSize * b.feePerKb.toNat)).bind fun product =>
        let fee := product / 1000
        if fee ≤ st.total then
          let leftover := min (st.total - fee) upper.toNat
          if leftover ≤ lower.toNat then some { st with amounts := setAmount st.amounts idx none }
          else some ⟨st.total - leftover, setAmount st.amounts idx (some leftover), some newSize⟩
        else some { st with amounts := setAmount st.amounts idx none }

/-- The loop of `build`, tx_builder.rs:362-389. -/
def buildLoop (p : Profile) (sz : Layout) (b : TxBuilder Dyn) :
    BuildState → List (Nat × Int) → Option BuildState
  | st, [] => some st
  | st, (idx, _) :: rest => (p.buildStep sz b st idx).bind fun st => p.buildLoop sz b st rest

/-- `build`, tx_builder.rs:341-408. -/
def build (p : Profile) (sz : Layout) (sha256d : Bytes → Hash256) (b : TxBuilder Dyn) :
    Res Error (UnsignedTx Dyn) :=
  (Res.ofOption (p.knownOutputSum b)).bind fun known =>
  (Res.ofOption (p.inputSum b)).bind fun inputs =>
  if known > inputs then .err (.insufficientInputAmount (known - inputs))
  else
    (Res.ofOption (p.buildLoop sz b ⟨inputs - known, fun _ => none, none⟩
      (sortByKey (leftoverIndices 0 b.outputs)))).bind fun st =>
    (Res.ofOption (match st.estimated with
      | some s => some s
      | none => b.estimateSize sz (b.makeOutputs st.amounts))).bind fun estimated =>
    let outputs := b.makeOutputs st.amounts
    (Res.ofOption (buildPreimages sha256d (b.toPreimageTx outputs))).bind fun preimages =>
    .ok ⟨b, outputs, preimages, b.prefilled, estimated⟩

end Profile
end BCash
