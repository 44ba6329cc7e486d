import Verif.Model.ScriptNum

/-! # Script integers — `bitcoin-cash-base/src/integer.rs`

`Integer(i32)` is modelled by the `Int` it holds; that it is always in the script integer range is
*proved* (C09), not assumed. `IntegerResult(Result<Integer, IntegerError>)` is `Except`. -/

namespace BCash

/-- `IntegerError`, integer.rs:10-44. -/
inductive IntegerError where
  | addOverflow (a b : Int)
  | subOverflow (a b : Int)
  | mulOverflow (a b : Int)
  | division (a b : Int)
  | modulo (a b : Int)
  | shlOverflow (a : Int) (b : Nat)
  | shrOverflow (a : Int) (b : Nat)
  | negOverflow (a : Int)
  | invalidScriptInteger (a : Int)
  | castOverflow (a : Int)
  | castOverflowI128
deriving DecidableEq, Repr

/-- `MIN_SCRIPT_INTEGER`, integer.rs:7. -/
def MIN_SCRIPT_INTEGER : Int := -0x7fffffff
/-- `MAX_SCRIPT_INTEGER`, integer.rs:8. -/
def MAX_SCRIPT_INTEGER : Int := 0x7fffffff

/-- `IntegerResult`, integer.rs:52-53. -/
abbrev IntegerResult := Except IntegerError Int

/-- `Integer::new`, integer.rs:58-74, for an argument of any machine integer type, given by its
mathematical value: `try_into::<i32>`, on failure `try_into::<i128>` for the error value. -/
def Integer.new (x : Int) : Except IntegerError Int :=
  if InI32 x then
    if MIN_SCRIPT_INTEGER ≤ x ∧ x ≤ MAX_SCRIPT_INTEGER then .ok x
    else .error (.invalidScriptInteger x)
  else if -2 ^ 127 ≤ x ∧ x < 2 ^ 127 then .error (.castOverflow x)
  else .error .castOverflowI128

/-- `UInteger::new`, integer.rs:84-100. -/
def UInteger.new (x : Int) : Except IntegerError Int :=
  if InI32 x then
    if 0 ≤ x ∧ x ≤ MAX_SCRIPT_INTEGER then .ok x
    else .error (.invalidScriptInteger x)
  else if -2 ^ 127 ≤ x ∧ x < 2 ^ 127 then .error (.castOverflow x)
  else .error .castOverflowI128

/-- `IntegerResult::op`, integer.rs:116-126: left error first, then right error, then the operator
error, then the range check of `Integer::new` on the `i32` result. -/
def IntegerResult.op (a b : IntegerResult) (f : Int → Int → Except IntegerError Int) :
    IntegerResult :=
  match a with
  | .error e => .error e
  | .ok a =>
    match b with
    | .error e => .error e
    | .ok b =>
      match f a b with
      | .error e => .error e
      | .ok r => Integer.new r

/-- `IntegerResult::unop`, integer.rs:128-133. -/
def IntegerResult.unop (a : IntegerResult) (f : Int → Except IntegerError Int) : IntegerResult :=
  match a with
  | .error e => .error e
  | .ok a =>
    match f a with
    | .error e => .error e
    | .ok r => Integer.new r

/-- `i32::checked_*` result. -/
def checked (x : Int) (e : IntegerError) : Except IntegerError Int :=
  if InI32 x then .ok x else .error e

/-- `Add for IntegerResult`, integer.rs:463-475. -/
def IntegerResult.add (a b : IntegerResult) : IntegerResult :=
  a.op b fun a b => checked (a + b) (.addOverflow a b)

/-- `Sub for IntegerResult`, integer.rs:639-651. -/
def IntegerResult.sub (a b : IntegerResult) : IntegerResult :=
  a.op b fun a b => checked (a - b) (.subOverflow a b)

/-- `Mul for IntegerResult`, integer.rs:587-599. -/
def IntegerResult.mul (a b : IntegerResult) : IntegerResult :=
  a.op b fun a b => checked (a * b) (.mulOverflow a b)

/-- `i32::checked_div` (truncating; `None` for a zero divisor and for `MIN / -1`). -/
def checkedDiv (a b : Int) (e : IntegerError) : Except IntegerError Int :=
  if b = 0 then .error e else checked (a.tdiv b) e

/-- `i32::checked_rem` (sign of the dividend; `None` for a zero divisor and for `MIN % -1`). -/
def checkedRem (a b : Int) (e : IntegerError) : Except IntegerError Int :=
  if b = 0 then .error e
  else if InI32 (a.tdiv b) then .ok (a.tmod b) else .error e

/-- `Div for IntegerResult`, integer.rs:561-573. -/
def IntegerResult.div (a b : IntegerResult) : IntegerResult :=
  a.op b fun a b => checkedDiv a b (.division a b)

/-- `Rem for IntegerResult`, integer.rs:613-625. -/
def IntegerResult.rem (a b : IntegerResult) : IntegerResult :=
  a.op b fun a b => checkedRem a b (.modulo a b)

/-- The 32-bit two's-complement pattern of an `i32`. -/
def bits32 (x : Int) : BitVec 32 := BitVec.ofInt 32 x

/-- `BitAnd for IntegerResult`, integer.rs:489-499. -/
def IntegerResult.band (a b : IntegerResult) : IntegerResult :=
  a.op b fun a b => .ok (bits32 a &&& bits32 b).toInt

/-- `BitOr for IntegerResult`, integer.rs:513-523. -/
def IntegerResult.bor (a b : IntegerResult) : IntegerResult :=
  a.op b fun a b => .ok (bits32 a ||| bits32 b).toInt

/-- `BitXor for IntegerResult`, integer.rs:537-547. -/
def IntegerResult.bxor (a b : IntegerResult) : IntegerResult :=
  a.op b fun a b => .ok (bits32 a ^^^ bits32 b).toInt

/-- `Neg for IntegerResult`, integer.rs:665-671. -/
def IntegerResult.neg (a : IntegerResult) : IntegerResult :=
  a.unop fun a => checked (-a) (.negOverflow a)

/-- `Neg for Integer`, integer.rs:673-679: `-self.0` on `i32` (overflows for `i32::MIN`). -/
def Integer.neg (a : Int) : Res Empty Int := if InI32 (-a) then .ok (-a) else .panic

/-- `Shl<u32> for IntegerResult`, integer.rs:681-687: `checked_shl` fails only for shifts ≥ 32. -/
def IntegerResult.shl (a : IntegerResult) (s : Nat) : IntegerResult :=
  a.unop fun a => if 32 ≤ s then .error (.shlOverflow a s) else .ok (wrap32 (a * 2 ^ s))

/-- `Shr<u32> for IntegerResult`, integer.rs:697-703: arithmetic shift (floor division). -/
def IntegerResult.shr (a : IntegerResult) (s : Nat) : IntegerResult :=
  a.unop fun a => if 32 ≤ s then .error (.shrOverflow a s) else .ok (a / 2 ^ s)

/-- `PartialEq for IntegerResult`, integer.rs:365-386 (the right operand already converted). -/
def IntegerResult.eq (a b : IntegerResult) : Bool :=
  match a with
  | .error _ => false
  | .ok a =>
    match b with
    | .error _ => false
    | .ok b => decide (a = b)

/-- `PartialOrd for IntegerResult`, integer.rs:394-415. -/
def IntegerResult.partialCmp (a b : IntegerResult) : Option Ordering :=
  match a with
  | .error _ => none
  | .ok a =>
    match b with
    | .error _ => none
    | .ok b => some (compare a b)

end BCash
