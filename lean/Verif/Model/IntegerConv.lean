import Verif.Model.Integer

/-! # Script integers and machine integers — the conversions, mixed operators and mixed comparisons of
`bitcoin-cash-base/src/integer.rs`

A value of a machine integer type is given by its type and its mathematical value (an `Int` inside
the type's range, `MachineTy.Holds`). -/

namespace BCash

/-- The twelve machine integer types with an `impl From<_>` in integer.rs:192-354. -/
inductive MachineTy where
  | i8 | u8 | i16 | u16 | i32 | u32 | i64 | u64 | i128 | u128 | isize | usize
deriving DecidableEq, Repr

/-- The values a machine integer type holds; `w` is the pointer width of the platform (Rust supports
16, 32 and 64). -/
def MachineTy.Holds (w : Nat) : MachineTy → Int → Prop
  | .i8, x => -2 ^ 7 ≤ x ∧ x < 2 ^ 7
  | .u8, x => 0 ≤ x ∧ x < 2 ^ 8
  | .i16, x => -2 ^ 15 ≤ x ∧ x < 2 ^ 15
  | .u16, x => 0 ≤ x ∧ x < 2 ^ 16
  | .i32, x => -2 ^ 31 ≤ x ∧ x < 2 ^ 31
  | .u32, x => 0 ≤ x ∧ x < 2 ^ 32
  | .i64, x => -2 ^ 63 ≤ x ∧ x < 2 ^ 63
  | .u64, x => 0 ≤ x ∧ x < 2 ^ 64
  | .i128, x => -2 ^ 127 ≤ x ∧ x < 2 ^ 127
  | .u128, x => 0 ≤ x ∧ x < 2 ^ 128
  | .isize, x => -2 ^ (w - 1) ≤ x ∧ x < 2 ^ (w - 1)
  | .usize, x => 0 ≤ x ∧ x < 2 ^ w

/-- What may stand to the right of an operator or comparison on an `IntegerResult`: a type with
`TryInto<IntegerResult>`, that is a machine integer, an `Integer` or an `IntegerResult`. -/
inductive Operand where
  | machine (ty : MachineTy) (x : Int)
  | integer (x : Int)
  | result (r : IntegerResult)

/-- `From<i8>`, `From<u8>`, `From<i16>`, `From<u16> for Integer` (integer.rs:204-226), which cannot
fail, and `TryFrom<i32>` (186-192), `TryFrom<u32>` … `TryFrom<usize> for Integer` (300-354), which
are `Integer::new`. (For the four small types `try_into` is `into` with an impossible error.) -/
def Integer.tryFrom (ty : MachineTy) (x : Int) : Except IntegerError Int :=
  match ty with
  | .i8 | .u8 | .i16 | .u16 => .ok x
  | .i32 | .u32 | .i64 | .u64 | .i128 | .u128 | .isize | .usize => Integer.new x

/-- `IntegerResult::new`, integer.rs:112-114. -/
def IntegerResult.new (x : Int) : IntegerResult := Integer.new x

/-- `From<_> for IntegerResult`: integer.rs:194-198 (`i32`), 228-250 (small types), 252-298 (the rest),
174-178 (`Integer`), and the reflexive conversion. -/
def Operand.into : Operand → IntegerResult
  | .machine .i8 x => .ok x
  | .machine .u8 x => .ok x
  | .machine .i16 x => .ok x
  | .machine .u16 x => .ok x
  | .machine .i32 x => IntegerResult.new x
  | .machine .u32 x => IntegerResult.new x
  | .machine .i64 x => IntegerResult.new x
  | .machine .u64 x => IntegerResult.new x
  | .machine .i128 x => IntegerResult.new x
  | .machine .u128 x => IntegerResult.new x
  | .machine .isize x => IntegerResult.new x
  | .machine .usize x => IntegerResult.new x
  | .integer x => .ok x
  | .result r => r

/-- `TryFrom<IntegerResult> for i32` and `IntegerResult::value`, integer.rs:135-137 and 180-184: the
`i32`, or the error. -/
def IntegerResult.value (r : IntegerResult) : Except IntegerError Int :=
  match r with
  | .error e => .error e
  | .ok x => .ok x

/-- The operators with any right operand. -/
inductive MixedOp where
  | add | sub | mul | div | rem | band | bor | bxor
deriving DecidableEq, Repr

/-- `IntegerResult op T`, integer.rs:463-651: the right operand is converted first. -/
def IntegerResult.mixed (op : MixedOp) (a : IntegerResult) (b : Operand) : IntegerResult :=
  match op with
  | .add => a.add b.into
  | .sub => a.sub b.into
  | .mul => a.mul b.into
  | .div => a.div b.into
  | .rem => a.rem b.into
  | .band => a.band b.into
  | .bor => a.bor b.into
  | .bxor => a.bxor b.into

/-- `Integer op T`, integer.rs:477-663: `IntegerResult(Ok(self)) op rhs`. -/
def Integer.mixed (op : MixedOp) (a : Int) (b : Operand) : IntegerResult :=
  IntegerResult.mixed op (.ok a) b

/-- `PartialEq<T> for IntegerResult`, integer.rs:365-386. -/
def IntegerResult.eqOperand (a : IntegerResult) (b : Operand) : Bool := a.eq b.into

/-- `PartialOrd<T> for IntegerResult`, integer.rs:394-415. -/
def IntegerResult.cmpOperand (a : IntegerResult) (b : Operand) : Option Ordering :=
  a.partialCmp b.into

/-- `a < b`, `a <= b`, `a > b`, `a >= b` for `PartialOrd`: the provided methods of the standard
library, from `partial_cmp`. -/
def Operand.lt (a : IntegerResult) (b : Operand) : Bool := a.cmpOperand b == some .lt
/-- See `Operand.lt`. -/
def Operand.le (a : IntegerResult) (b : Operand) : Bool :=
  a.cmpOperand b == some .lt || a.cmpOperand b == some .eq

/-- `PartialEq<T> for Integer` (integer.rs:357-361) where `T: Into<Integer>` is a small machine integer
or an `Integer`: the values are compared. -/
def Integer.eqSmall (a b : Int) : Bool := decide (a = b)

/-- `PartialOrd<T> for Integer` (integer.rs:388-392), and the derived `Ord` (45). -/
def Integer.cmpSmall (a b : Int) : Option Ordering := some (compare a b)

/-- `IntegerError`'s `Display` (the `#[error]` attributes, integer.rs:11-43). -/
def IntegerError.display : IntegerError → String
  | .addOverflow a b => s!"Addition overflowed: {a} + {b}"
  | .subOverflow a b => s!"Subtraction overflowed: {a} + {b}"
  | .mulOverflow a b => s!"Multiplication overflowed: {a} / {b}"
  | .division a b => s!"Division error: {a} / {b}"
  | .modulo a b => s!"Modulo error: {a} % {b}"
  | .shlOverflow a b => s!"Left shift overflow: {a} << {b}"
  | .shrOverflow a b => s!"Right shift overflow: {a} << {b}"
  | .negOverflow a => s!"Negation overflowed: -{a}"
  | .invalidScriptInteger a => s!"Invalid script integer: {a}"
  | .castOverflow a => s!"Cast overflowed: {a}"
  | .castOverflowI128 => "Cast overflowed i128"

/-- `Display for IntegerResult`, integer.rs:159-166 (and for `Integer`, 153-157). -/
def IntegerResult.display : IntegerResult → String
  | .ok x => toString x
  | .error e => s!"(integer error: {e.display})"

end BCash
