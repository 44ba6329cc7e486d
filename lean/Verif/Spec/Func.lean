import Verif.Model.Func
import Verif.Spec.Vm
import Verif.Spec.ScriptNum

/-! # Specification: items of the types of the typed functions -/

namespace BCash
open Spec

/-- Spec: a stack item is of a type of the typed functions, where type parameter `i` stands for any set
`ρ i` of items: integers are the minimal encodings of numbers, booleans are `[]` and `[1]`. -/
def Spec.FHasType (ρ : Nat → Bytes → Prop) : FTy → Bytes → Prop
  | .var i, x => ρ i x
  | .integer, x => ∃ n, x = Vm.numBytes n
  | .boolean, x => x = [] ∨ x = [1]
  | .byteArray, _ => True

/-- Spec: as `FHasType`, and integers have at most four bytes, as operands of the script machine must. -/
def Spec.FInRange (ρ : Nat → Bytes → Prop) (t : FTy) (x : Bytes) : Prop :=
  FHasType ρ t x ∧ (t = .integer → x.length ≤ 4)

/-- Spec: the opcodes that do not just replace operands by results on the main stack. -/
def Spec.Special (o : Opcode) : Prop :=
  o = .OP_PICK ∨ o = .OP_ROLL ∨ o = .OP_TOALTSTACK ∨ o = .OP_FROMALTSTACK

/-- Spec: the reasons for which an operation on operands of the right types (given deepest first) can
still fail. -/
def Spec.Ready (env : Vm.Env) : Opcode → List Bytes → Prop
  | .OP_VERIFY, [a] => scriptNum a ≠ 0
  | .OP_EQUALVERIFY, [a, b] => a = b
  | .OP_NUMEQUALVERIFY, [a, b] => a = b
  | .OP_DIV, [_, b] => scriptNum b ≠ 0
  | .OP_MOD, [_, b] => scriptNum b ≠ 0
  | .OP_SPLIT, [a, n] => 0 ≤ scriptNum n ∧ scriptNum n ≤ a.length
  | .OP_NUM2BIN, [a, n] => (a.length : Int) ≤ scriptNum n ∧ scriptNum n ≤ 520
  | .OP_BIN2NUM, [a] => -2 ^ 31 < scriptNum a ∧ scriptNum a < 2 ^ 31
  | .OP_AND, [a, b] => a.length = b.length
  | .OP_OR, [a, b] => a.length = b.length
  | .OP_XOR, [a, b] => a.length = b.length
  | .OP_CHECKSIG, [sig, pk] => ∃ b, env.checkSig sig pk = some b
  | .OP_CHECKSIGVERIFY, [sig, pk] => env.checkSig sig pk = some true
  | .OP_CHECKDATASIG, [sig, m, pk] => ∃ b, env.checkDataSig sig m pk = some b
  | .OP_CHECKDATASIGVERIFY, [sig, m, pk] => env.checkDataSig sig m pk = some true
  | .OP_CHECKLOCKTIMEVERIFY, [n] => env.lockTimeOk (scriptNum n) = true
  | .OP_CHECKSEQUENCEVERIFY, [n] => env.sequenceOk (scriptNum n) = true
  | .OP_RETURN, _ => False
  | _, _ => True

end BCash
