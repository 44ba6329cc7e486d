import Verif.Model.Opcode

/-! # Recorded stack behaviour of opcodes — `bitcoin-cash-base/src/opcode.rs`, `data_type.rs` -/

namespace BCash

/-- `enum DataType`, data_type.rs:4-9. -/
inductive DataType where
  | generic
  | integer
  | boolean
  | byteArray (size : Option Nat)
deriving DecidableEq, Repr

/-- `enum StackItemDelta`, opcode.rs:24-32. -/
inductive StackItemDelta where
  | untouched | added | changed | moved | movedIndirectly | observed | removed
deriving DecidableEq, Repr

/-- `struct OpcodeBehavior`, opcode.rs:35-40. -/
structure OpcodeBehavior where
  inputTypes : List DataType
  outputTypes : List DataType
  outputOrder : Option (List Nat)
  delta : List StackItemDelta
deriving DecidableEq, Repr

namespace Opcode

/-- `Opcode::is_disabled`, opcode.rs:2835-2842. -/
def isDisabled : Opcode → Bool
  | OP_RESERVED | OP_RESERVED1 | OP_RESERVED2 | OP_MUL | OP_2MUL | OP_2DIV | OP_INVERT
  | OP_LSHIFT | OP_RSHIFT | OP_VER | OP_VERIF | OP_VERNOTIF => true
  | _ => false

/-- `Opcode::retains_input`, opcode.rs:2844-2850. -/
def retainsInput : Opcode → Bool
  | OP_SIZE | OP_CHECKLOCKTIMEVERIFY | OP_CHECKSEQUENCEVERIFY => true
  | _ => false

open DataType StackItemDelta in
/-- `Opcode::behavior`, opcode.rs:2852-3049; `none` is a panic. -/
def behavior (op : Opcode) : Option OpcodeBehavior :=
  let T := generic
  let B := byteArray none
  let o (i o : List DataType) (ord : List Nat) (d : List StackItemDelta) : Option OpcodeBehavior :=
    some ⟨i, o, some ord, d⟩
  let u (i o : List DataType) (d : List StackItemDelta) : Option OpcodeBehavior := some ⟨i, o, none, d⟩
  match op with
  | OP_VERIFY => u [boolean] [] []
  | OP_2DROP => o [T, T] [] [] []
  | OP_2DUP => o [T, T] [T, T, T, T] [0, 1, 0, 1] [observed, observed, added, added]
  | OP_3DUP => o [T, T, T] [T, T, T, T, T, T] [0, 1, 2, 0, 1, 2]
      [observed, observed, observed, added, added, added]
  | OP_2OVER => o [T, T, T, T] [T, T, T, T, T, T] [0, 1, 2, 3, 0, 1]
      [observed, observed, untouched, untouched, added, added]
  | OP_2ROT => o [T, T, T, T, T, T] [T, T, T, T, T, T] [2, 3, 4, 5, 0, 1]
      [movedIndirectly, movedIndirectly, movedIndirectly, movedIndirectly, moved, moved]
  | OP_2SWAP => o [T, T, T, T] [T, T, T, T] [2, 3, 0, 1]
      [movedIndirectly, movedIndirectly, moved, moved]
  | OP_DEPTH => o [] [integer] [0] [added]
  | OP_DROP => o [T] [] [] []
  | OP_DUP => o [T] [T, T] [0, 0] [observed, added]
  | OP_NIP => o [T, T] [T] [1] [movedIndirectly]
  | OP_OVER => o [T, T] [T, T, T] [0, 1, 0] [observed, untouched, added]
  | OP_PICK => u [integer] [T] [added]
  | OP_ROLL => u [integer] [T] [moved]
  | OP_ROT => o [T, T, T] [T, T, T] [1, 2, 0] [movedIndirectly, movedIndirectly, moved]
  | OP_SWAP => o [T, T] [T, T] [1, 0] [movedIndirectly, moved]
  | OP_TUCK => o [T, T] [T, T, T] [1, 0, 1] [added, movedIndirectly, movedIndirectly]
  | OP_CAT => u [B, B] [B] [changed]
  | OP_SPLIT => u [B, integer] [B, B] [changed, changed]
  | OP_NUM2BIN => u [integer, integer] [B] [changed]
  | OP_BIN2NUM => u [B] [integer] [changed]
  | OP_SIZE => u [B] [B, integer] [observed, added]
  | OP_AND => u [B, B] [B] [changed]
  | OP_OR => u [B, B] [B] [changed]
  | OP_XOR => u [B, B] [B] [changed]
  | OP_EQUAL => u [T, T] [boolean] [changed]
  | OP_EQUALVERIFY => u [T, T] [] []
  | OP_1ADD => u [integer] [integer] [changed]
  | OP_1SUB => u [integer] [integer] [changed]
  | OP_NEGATE => u [integer] [integer] [changed]
  | OP_ABS => u [integer] [integer] [changed]
  | OP_NOT => u [boolean] [boolean] [changed]
  | OP_0NOTEQUAL => u [integer] [boolean] [changed]
  | OP_ADD => u [integer, integer] [integer] [changed]
  | OP_SUB => u [integer, integer] [integer] [changed]
  | OP_DIV => u [integer, integer] [integer] [changed]
  | OP_MOD => u [integer, integer] [integer] [changed]
  | OP_BOOLAND => u [boolean, boolean] [boolean] [changed]
  | OP_BOOLOR => u [boolean, boolean] [boolean] [changed]
  | OP_NUMEQUAL => u [integer, integer] [boolean] [changed]
  | OP_NUMEQUALVERIFY => u [integer, integer] [] []
  | OP_NUMNOTEQUAL => u [integer, integer] [boolean] [changed]
  | OP_LESSTHAN => u [integer, integer] [boolean] [changed]
  | OP_GREATERTHAN => u [integer, integer] [boolean] [changed]
  | OP_LESSTHANOREQUAL => u [integer, integer] [boolean] [changed]
  | OP_GREATERTHANOREQUAL => u [integer, integer] [boolean] [changed]
  | OP_MIN => u [integer, integer] [integer] [changed]
  | OP_MAX => u [integer, integer] [integer] [changed]
  | OP_WITHIN => u [integer, integer, integer] [boolean] [changed]
  | OP_RIPEMD160 => u [B] [byteArray (some 20)] [changed]
  | OP_SHA1 => u [B] [byteArray (some 20)] [changed]
  | OP_SHA256 => u [B] [byteArray (some 32)] [changed]
  | OP_HASH160 => u [B] [byteArray (some 20)] [changed]
  | OP_HASH256 => u [B] [byteArray (some 32)] [changed]
  | OP_CHECKSIG => u [B, B] [boolean] [changed]
  | OP_CHECKSIGVERIFY => u [B, B] [] [changed]
  | OP_CHECKDATASIG => u [B, B, B] [boolean] [changed]
  | OP_CHECKDATASIGVERIFY => u [B, B, B] [] []
  | OP_REVERSEBYTES => u [B] [B] [changed]
  | OP_0 | OP_1NEGATE | OP_1 | OP_2 | OP_3 | OP_4 | OP_5 | OP_6 | OP_7 | OP_8 | OP_9 | OP_10
  | OP_11 | OP_12 | OP_13 | OP_14 | OP_15 | OP_16 => u [] [integer] [added]
  | OP_IF => u [T] [] []
  | OP_ELSE => u [] [] []
  | OP_ENDIF => u [] [] []
  | OP_TOALTSTACK => u [T] [] []
  | OP_FROMALTSTACK => u [] [T] [added]
  | OP_CHECKLOCKTIMEVERIFY => u [integer] [integer] [observed]
  | OP_CHECKSEQUENCEVERIFY => u [integer] [integer] [observed]
  | OP_IFDUP | OP_CHECKMULTISIG | OP_CHECKMULTISIGVERIFY => none
  | opcode => if opcode.isDisabled then none else u [] [] []

end Opcode
end BCash
