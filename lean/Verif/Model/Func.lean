import Verif.Model.Behavior
import Verif.Model.Script
import Verif.Model.Integer

/-! # Typed functions of opcodes — `bitcoin-cash-base/src/opcode.rs`, module `func`; values that can be
pushed — `data_type.rs`

The generated code of a script calls, besides pushing the opcode, a Rust function of the same name whose
signature makes the Rust compiler check the types of the operands. Only the signatures matter. -/

namespace BCash

/-- A type in a signature of module `func`: a type parameter, `BitcoinInteger`, `BitcoinBoolean` or
`BitcoinByteArray` (data_type.rs:18-23). -/
inductive FTy where
  | var (i : Nat)
  | integer
  | boolean
  | byteArray
deriving DecidableEq, Repr

/-- The signature of a function: parameters and components of the result. -/
structure FSig where
  params : List FTy
  results : List FTy
deriving DecidableEq, Repr

namespace Opcode

open FTy in
/-- The functions of module `func`, opcode.rs:2433-2832; `none`: there is no such function. -/
def func (o : Opcode) : Option FSig :=
  let T := var 0
  let U := var 1
  let V := var 2
  let W := var 3
  let X := var 4
  let Y := var 5
  let I := integer
  let Bo := boolean
  let B := byteArray
  match o with
  | OP_1NEGATE | OP_0 | OP_1 | OP_2 | OP_3 | OP_4 | OP_5 | OP_6 | OP_7 | OP_8 | OP_9 | OP_10
  | OP_11 | OP_12 | OP_13 | OP_14 | OP_15 | OP_16 => some ⟨[], [I]⟩
  | OP_NOP | OP_NOP1 | OP_NOP4 | OP_NOP5 | OP_NOP6 | OP_NOP7 | OP_NOP8 | OP_NOP9 | OP_NOP10 =>
    some ⟨[], []⟩
  | OP_IF => some ⟨[T], []⟩
  | OP_ELSE => some ⟨[], []⟩
  | OP_ENDIF => some ⟨[], []⟩
  | OP_VERIFY => some ⟨[T], []⟩
  | OP_TOALTSTACK => some ⟨[T], [T]⟩
  | OP_FROMALTSTACK => some ⟨[T], [T]⟩
  | OP_2DROP => some ⟨[T, U], []⟩
  | OP_2DUP => some ⟨[T, U], [T, U, T, U]⟩
  | OP_3DUP => some ⟨[T, U, V], [T, U, V, T, U, V]⟩
  | OP_2OVER => some ⟨[T, U, V, W], [T, U, V, W, T, U]⟩
  | OP_2ROT => some ⟨[T, U, V, W, X, Y], [V, W, X, Y, T, U]⟩
  | OP_2SWAP => some ⟨[T, U, V, W], [V, W, T, U]⟩
  | OP_DEPTH => some ⟨[], [I]⟩
  | OP_DROP => some ⟨[T], []⟩
  | OP_DUP => some ⟨[T], [T, T]⟩
  | OP_NIP => some ⟨[T, U], [U]⟩
  | OP_OVER => some ⟨[T, U], [T, U, T]⟩
  | OP_PICK => some ⟨[I], []⟩
  | OP_ROLL => some ⟨[I], []⟩
  | OP_ROT => some ⟨[T, U, V], [U, V, T]⟩
  | OP_SWAP => some ⟨[T, U], [U, T]⟩
  | OP_TUCK => some ⟨[T, U], [U, T, U]⟩
  | OP_RETURN => some ⟨[], []⟩
  | OP_CAT => some ⟨[B, B], [B]⟩
  | OP_SPLIT => some ⟨[B, I], [B, B]⟩
  | OP_NUM2BIN => some ⟨[I, I], [B]⟩
  | OP_BIN2NUM => some ⟨[B], [I]⟩
  | OP_SIZE => some ⟨[B], [B, I]⟩
  | OP_AND => some ⟨[B, B], [B]⟩
  | OP_OR => some ⟨[B, B], [B]⟩
  | OP_XOR => some ⟨[B, B], [B]⟩
  | OP_EQUAL => some ⟨[T, T], [Bo]⟩
  | OP_EQUALVERIFY => some ⟨[T, T], []⟩
  | OP_1ADD => some ⟨[I], [I]⟩
  | OP_1SUB => some ⟨[I], [I]⟩
  | OP_NEGATE => some ⟨[I], [I]⟩
  | OP_ABS => some ⟨[I], [I]⟩
  | OP_NOT => some ⟨[Bo], [Bo]⟩
  | OP_0NOTEQUAL => some ⟨[I], [Bo]⟩
  | OP_ADD => some ⟨[I, I], [I]⟩
  | OP_SUB => some ⟨[I, I], [I]⟩
  | OP_DIV => some ⟨[I, I], [I]⟩
  | OP_MOD => some ⟨[I, I], [I]⟩
  | OP_BOOLAND => some ⟨[Bo, Bo], [Bo]⟩
  | OP_BOOLOR => some ⟨[Bo, Bo], [Bo]⟩
  | OP_NUMEQUAL => some ⟨[I, I], [Bo]⟩
  | OP_NUMEQUALVERIFY => some ⟨[I, I], []⟩
  | OP_NUMNOTEQUAL => some ⟨[I, I], [Bo]⟩
  | OP_LESSTHAN => some ⟨[I, I], [Bo]⟩
  | OP_GREATERTHAN => some ⟨[I, I], [Bo]⟩
  | OP_LESSTHANOREQUAL => some ⟨[I, I], [Bo]⟩
  | OP_GREATERTHANOREQUAL => some ⟨[I, I], [Bo]⟩
  | OP_MIN => some ⟨[I, I], [I]⟩
  | OP_MAX => some ⟨[I, I], [I]⟩
  | OP_WITHIN => some ⟨[I, I, I], [Bo]⟩
  | OP_RIPEMD160 => some ⟨[B], [B]⟩
  | OP_SHA1 => some ⟨[B], [B]⟩
  | OP_SHA256 => some ⟨[B], [B]⟩
  | OP_HASH160 => some ⟨[B], [B]⟩
  | OP_HASH256 => some ⟨[B], [B]⟩
  | OP_CODESEPARATOR => some ⟨[], []⟩
  | OP_CHECKSIG => some ⟨[B, B], [Bo]⟩
  | OP_CHECKSIGVERIFY => some ⟨[B, B], []⟩
  | OP_CHECKLOCKTIMEVERIFY => some ⟨[I], [I]⟩
  | OP_CHECKSEQUENCEVERIFY => some ⟨[I], [I]⟩
  | OP_CHECKDATASIG => some ⟨[B, B, B], [Bo]⟩
  | OP_CHECKDATASIGVERIFY => some ⟨[B, B, B], []⟩
  | OP_REVERSEBYTES => some ⟨[B], [B]⟩
  | _ => none

end Opcode

/-- A Rust value with `BitcoinDataType`, data_type.rs:25-107: `Integer`, `IntegerResult`,
`InnerInteger` (`i32`), `bool`, `[u8]` and `ByteArray` (its bytes; `Hashed` types, public keys and
preimages go through `ByteArray`, hash.rs:331-368, pubkey.rs:53-63, tx_preimage.rs:143-153). -/
inductive PushValue where
  | integer (i : Int)
  | integerResult (r : IntegerResult)
  | inner (i : Int)
  | boolean (b : Bool)
  | bytes (d : Bytes)
  | byteArray (d : Bytes)
deriving DecidableEq

namespace PushValue

/-- `BitcoinDataType::to_pushop`, data_type.rs:37, 49, 61, 73, 85, 97; `expect` panics. -/
def toPushop : PushValue → Res Empty (Op Bytes)
  | integer i => .ok (.pushInteger i)
  | integerResult (.ok i) => .ok (.pushInteger i)
  | integerResult (.error _) => .panic
  | inner i => match Integer.new i with
    | .ok i => .ok (.pushInteger i)
    | .error _ => .panic
  | boolean b => .ok (.pushBoolean b)
  | bytes d => .ok (Op.fromArray d)
  | byteArray d => .ok (Op.fromArray d)

/-- `BitcoinDataType::to_data_type`, data_type.rs:40-42, 52-54, 64-66, 76-78, 88-90, 100-102. -/
def toDataType : PushValue → DataType
  | integer _ | integerResult _ | inner _ => .integer
  | boolean _ => .boolean
  | bytes _ => .byteArray none
  | byteArray d => .byteArray (some d.length)

/-- The associated type `Type`, as in the signatures of module `func`. -/
def fType : PushValue → FTy
  | integer _ | integerResult _ | inner _ => .integer
  | boolean _ => .boolean
  | bytes _ | byteArray _ => .byteArray

end PushValue

/-- `enum StackItemData`, data_type.rs:11-16. -/
inductive StackItemData where
  | integer (i : Int)
  | boolean (b : Bool)
  | byteArray (d : Bytes)
deriving DecidableEq

/-- `From<Op> for StackItemData`, data_type.rs:105-115; `unimplemented!` panics. -/
def StackItemData.ofOp : Op Bytes → Res Empty StackItemData
  | .code _ => .panic
  | .invalid _ => .panic
  | .pushBoolean b => .ok (.boolean b)
  | .pushInteger i => .ok (.integer i)
  | .pushByteArray d _ => .ok (.byteArray d)

end BCash
