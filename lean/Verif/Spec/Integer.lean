/-! # Specification of script integer arithmetic (independent of the code) -/

namespace BCash.Spec

/-- Script integers are the integers of magnitude below 2^31. -/
def InScriptRange (x : Int) : Prop := -(2 ^ 31 - 1) ≤ x ∧ x ≤ 2 ^ 31 - 1

instance (x : Int) : Decidable (InScriptRange x) := by unfold InScriptRange; infer_instance

/-- The binary arithmetic operators. -/
inductive BinOp where
  | add | sub | mul | div | rem
deriving DecidableEq, Repr

/-- The exact mathematical result: `div` truncates toward zero, `rem` has the sign of the dividend;
both undefined for a zero divisor. -/
def BinOp.math : BinOp → Int → Int → Option Int
  | .add, a, b => some (a + b)
  | .sub, a, b => some (a - b)
  | .mul, a, b => some (a * b)
  | .div, a, b => if b = 0 then none else some (a.tdiv b)
  | .rem, a, b => if b = 0 then none else some (a.tmod b)

/-- Arithmetic expressions over machine integer literals. -/
inductive Expr where
  | lit (x : Int)
  | neg (e : Expr)
  | bin (op : BinOp) (l r : Expr)
deriving Repr

/-- Exact value of an expression, defined only if every intermediate result exists and is a script
integer. -/
def Expr.value : Expr → Option Int
  | .lit x => if InScriptRange x then some x else none
  | .neg e => e.value.bind fun v => if InScriptRange (-v) then some (-v) else none
  | .bin op l r =>
    l.value.bind fun a => r.value.bind fun b => (op.math a b).bind fun v =>
      if InScriptRange v then some v else none

/-- Spec: bit `i` of an integer in two's complement with infinitely many bits. -/
def bitOf (x : Int) (i : Nat) : Bool := x / 2 ^ i % 2 == 1

/-- Spec: the bitwise operators. -/
inductive BitOp where
  | and | or | xor
deriving DecidableEq, Repr

/-- Spec: the operators on single bits. -/
def BitOp.bit : BitOp → Bool → Bool → Bool
  | .and, a, b => a && b
  | .or, a, b => a || b
  | .xor, a, b => a != b

end BCash.Spec
