import Verif.Model.Basic

/-! # Opcodes — `bitcoin-cash-base/src/opcode.rs` (enumeration generated from the source text) -/

namespace BCash

/-- `enum Opcode`, opcode.rs:62-2423 (including the marker variant `FIRST_UNDEFINED_OP_VALUE`,
which Rust numbers `0xbc + 1`). -/
inductive Opcode where
  | OP_0 | OP_PUSHDATA1 | OP_PUSHDATA2 | OP_PUSHDATA4 | OP_1NEGATE | OP_RESERVED | OP_1 | OP_2
  | OP_3 | OP_4 | OP_5 | OP_6 | OP_7 | OP_8 | OP_9 | OP_10 | OP_11 | OP_12 | OP_13 | OP_14
  | OP_15 | OP_16 | OP_NOP | OP_VER | OP_IF | OP_NOTIF | OP_VERIF | OP_VERNOTIF | OP_ELSE
  | OP_ENDIF | OP_VERIFY | OP_RETURN | OP_TOALTSTACK | OP_FROMALTSTACK | OP_2DROP | OP_2DUP
  | OP_3DUP | OP_2OVER | OP_2ROT | OP_2SWAP | OP_IFDUP | OP_DEPTH | OP_DROP | OP_DUP | OP_NIP
  | OP_OVER | OP_PICK | OP_ROLL | OP_ROT | OP_SWAP | OP_TUCK | OP_CAT | OP_SPLIT | OP_NUM2BIN
  | OP_BIN2NUM | OP_SIZE | OP_INVERT | OP_AND | OP_OR | OP_XOR | OP_EQUAL | OP_EQUALVERIFY
  | OP_RESERVED1 | OP_RESERVED2 | OP_1ADD | OP_1SUB | OP_2MUL | OP_2DIV | OP_NEGATE | OP_ABS
  | OP_NOT | OP_0NOTEQUAL | OP_ADD | OP_SUB | OP_MUL | OP_DIV | OP_MOD | OP_LSHIFT | OP_RSHIFT
  | OP_BOOLAND | OP_BOOLOR | OP_NUMEQUAL | OP_NUMEQUALVERIFY | OP_NUMNOTEQUAL | OP_LESSTHAN
  | OP_GREATERTHAN | OP_LESSTHANOREQUAL | OP_GREATERTHANOREQUAL | OP_MIN | OP_MAX | OP_WITHIN
  | OP_RIPEMD160 | OP_SHA1 | OP_SHA256 | OP_HASH160 | OP_HASH256 | OP_CODESEPARATOR | OP_CHECKSIG
  | OP_CHECKSIGVERIFY | OP_CHECKMULTISIG | OP_CHECKMULTISIGVERIFY | OP_NOP1
  | OP_CHECKLOCKTIMEVERIFY | OP_CHECKSEQUENCEVERIFY | OP_NOP4 | OP_NOP5 | OP_NOP6 | OP_NOP7
  | OP_NOP8 | OP_NOP9 | OP_NOP10 | OP_CHECKDATASIG | OP_CHECKDATASIGVERIFY | OP_REVERSEBYTES
  | FIRST_UNDEFINED_OP_VALUE
deriving DecidableEq, Repr

namespace Opcode

/-- `opcode as u8`: the discriminants, opcode.rs:81-2422. -/
def toByte : Opcode → UInt8
  | OP_0 => 0x00
  | OP_PUSHDATA1 => 0x4c
  | OP_PUSHDATA2 => 0x4d
  | OP_PUSHDATA4 => 0x4e
  | OP_1NEGATE => 0x4f
  | OP_RESERVED => 0x50
  | OP_1 => 0x51
  | OP_2 => 0x52
  | OP_3 => 0x53
  | OP_4 => 0x54
  | OP_5 => 0x55
  | OP_6 => 0x56
  | OP_7 => 0x57
  | OP_8 => 0x58
  | OP_9 => 0x59
  | OP_10 => 0x5a
  | OP_11 => 0x5b
  | OP_12 => 0x5c
  | OP_13 => 0x5d
  | OP_14 => 0x5e
  | OP_15 => 0x5f
  | OP_16 => 0x60
  | OP_NOP => 0x61
  | OP_VER => 0x62
  | OP_IF => 0x63
  | OP_NOTIF => 0x64
  | OP_VERIF => 0x65
  | OP_VERNOTIF => 0x66
  | OP_ELSE => 0x67
  | OP_ENDIF => 0x68
  | OP_VERIFY => 0x69
  | OP_RETURN => 0x6a
  | OP_TOALTSTACK => 0x6b
  | OP_FROMALTSTACK => 0x6c
  | OP_2DROP => 0x6d
  | OP_2DUP => 0x6e
  | OP_3DUP => 0x6f
  | OP_2OVER => 0x70
  | OP_2ROT => 0x71
  | OP_2SWAP => 0x72
  | OP_IFDUP => 0x73
  | OP_DEPTH => 0x74
  | OP_DROP => 0x75
  | OP_DUP => 0x76
  | OP_NIP => 0x77
  | OP_OVER => 0x78
  | OP_PICK => 0x79
  | OP_ROLL => 0x7a
  | OP_ROT => 0x7b
  | OP_SWAP => 0x7c
  | OP_TUCK => 0x7d
  | OP_CAT => 0x7e
  | OP_SPLIT => 0x7f
  | OP_NUM2BIN => 0x80
  | OP_BIN2NUM => 0x81
  | OP_SIZE => 0x82
  | OP_INVERT => 0x83
  | OP_AND => 0x84
  | OP_OR => 0x85
  | OP_XOR => 0x86
  | OP_EQUAL => 0x87
  | OP_EQUALVERIFY => 0x88
  | OP_RESERVED1 => 0x89
  | OP_RESERVED2 => 0x8a
  | OP_1ADD => 0x8b
  | OP_1SUB => 0x8c
  | OP_2MUL => 0x8d
  | OP_2DIV => 0x8e
  | OP_NEGATE => 0x8f
  | OP_ABS => 0x90
  | OP_NOT => 0x91
  | OP_0NOTEQUAL => 0x92
  | OP_ADD => 0x93
  | OP_SUB => 0x94
  | OP_MUL => 0x95
  | OP_DIV => 0x96
  | OP_MOD => 0x97
  | OP_LSHIFT => 0x98
  | OP_RSHIFT => 0x99
  | OP_BOOLAND => 0x9a
  | OP_BOOLOR => 0x9b
  | OP_NUMEQUAL => 0x9c
  | OP_NUMEQUALVERIFY => 0x9d
  | OP_NUMNOTEQUAL => 0x9e
  | OP_LESSTHAN => 0x9f
  | OP_GREATERTHAN => 0xa0
  | OP_LESSTHANOREQUAL => 0xa1
  | OP_GREATERTHANOREQUAL => 0xa2
  | OP_MIN => 0xa3
  | OP_MAX => 0xa4
  | OP_WITHIN => 0xa5
  | OP_RIPEMD160 => 0xa6
  | OP_SHA1 => 0xa7
  | OP_SHA256 => 0xa8
  | OP_HASH160 => 0xa9
  | OP_HASH256 => 0xaa
  | OP_CODESEPARATOR => 0xab
  | OP_CHECKSIG => 0xac
  | OP_CHECKSIGVERIFY => 0xad
  | OP_CHECKMULTISIG => 0xae
  | OP_CHECKMULTISIGVERIFY => 0xaf
  | OP_NOP1 => 0xb0
  | OP_CHECKLOCKTIMEVERIFY => 0xb1
  | OP_CHECKSEQUENCEVERIFY => 0xb2
  | OP_NOP4 => 0xb3
  | OP_NOP5 => 0xb4
  | OP_NOP6 => 0xb5
  | OP_NOP7 => 0xb6
  | OP_NOP8 => 0xb7
  | OP_NOP9 => 0xb8
  | OP_NOP10 => 0xb9
  | OP_CHECKDATASIG => 0xba
  | OP_CHECKDATASIGVERIFY => 0xbb
  | OP_REVERSEBYTES => 0xbc
  | FIRST_UNDEFINED_OP_VALUE => 0xbd

/-- `num::FromPrimitive::from_u8`, derived at opcode.rs:62: the variant with that discriminant. -/
def ofByte : UInt8 → Option Opcode
  | 0x00 => some OP_0
  | 0x4c => some OP_PUSHDATA1
  | 0x4d => some OP_PUSHDATA2
  | 0x4e => some OP_PUSHDATA4
  | 0x4f => some OP_1NEGATE
  | 0x50 => some OP_RESERVED
  | 0x51 => some OP_1
  | 0x52 => some OP_2
  | 0x53 => some OP_3
  | 0x54 => some OP_4
  | 0x55 => some OP_5
  | 0x56 => some OP_6
  | 0x57 => some OP_7
  | 0x58 => some OP_8
  | 0x59 => some OP_9
  | 0x5a => some OP_10
  | 0x5b => some OP_11
  | 0x5c => some OP_12
  | 0x5d => some OP_13
  | 0x5e => some OP_14
  | 0x5f => some OP_15
  | 0x60 => some OP_16
  | 0x61 => some OP_NOP
  | 0x62 => some OP_VER
  | 0x63 => some OP_IF
  | 0x64 => some OP_NOTIF
  | 0x65 => some OP_VERIF
  | 0x66 => some OP_VERNOTIF
  | 0x67 => some OP_ELSE
  | 0x68 => some OP_ENDIF
  | 0x69 => some OP_VERIFY
  | 0x6a => some OP_RETURN
  | 0x6b => some OP_TOALTSTACK
  | 0x6c => some OP_FROMALTSTACK
  | 0x6d => some OP_2DROP
  | 0x6e => some OP_2DUP
  | 0x6f => some OP_3DUP
  | 0x70 => some OP_2OVER
  | 0x71 => some OP_2ROT
  | 0x72 => some OP_2SWAP
  | 0x73 => some OP_IFDUP
  | 0x74 => some OP_DEPTH
  | 0x75 => some OP_DROP
  | 0x76 => some OP_DUP
  | 0x77 => some OP_NIP
  | 0x78 => some OP_OVER
  | 0x79 => some OP_PICK
  | 0x7a => some OP_ROLL
  | 0x7b => some OP_ROT
  | 0x7c => some OP_SWAP
  | 0x7d => some OP_TUCK
  | 0x7e => some OP_CAT
  | 0x7f => some OP_SPLIT
  | 0x80 => some OP_NUM2BIN
  | 0x81 => some OP_BIN2NUM
  | 0x82 => some OP_SIZE
  | 0x83 => some OP_INVERT
  | 0x84 => some OP_AND
  | 0x85 => some OP_OR
  | 0x86 => some OP_XOR
  | 0x87 => some OP_EQUAL
  | 0x88 => some OP_EQUALVERIFY
  | 0x89 => some OP_RESERVED1
  | 0x8a => some OP_RESERVED2
  | 0x8b => some OP_1ADD
  | 0x8c => some OP_1SUB
  | 0x8d => some OP_2MUL
  | 0x8e => some OP_2DIV
  | 0x8f => some OP_NEGATE
  | 0x90 => some OP_ABS
  | 0x91 => some OP_NOT
  | 0x92 => some OP_0NOTEQUAL
  | 0x93 => some OP_ADD
  | 0x94 => some OP_SUB
  | 0x95 => some OP_MUL
  | 0x96 => some OP_DIV
  | 0x97 => some OP_MOD
  | 0x98 => some OP_LSHIFT
  | 0x99 => some OP_RSHIFT
  | 0x9a => some OP_BOOLAND
  | 0x9b => some OP_BOOLOR
  | 0x9c => some OP_NUMEQUAL
  | 0x9d => some OP_NUMEQUALVERIFY
  | 0x9e => some OP_NUMNOTEQUAL
  | 0x9f => some OP_LESSTHAN
  | 0xa0 => some OP_GREATERTHAN
  | 0xa1 => some OP_LESSTHANOREQUAL
  | 0xa2 => some OP_GREATERTHANOREQUAL
  | 0xa3 => some OP_MIN
  | 0xa4 => some OP_MAX
  | 0xa5 => some OP_WITHIN
  | 0xa6 => some OP_RIPEMD160
  | 0xa7 => some OP_SHA1
  | 0xa8 => some OP_SHA256
  | 0xa9 => some OP_HASH160
  | 0xaa => some OP_HASH256
  | 0xab => some OP_CODESEPARATOR
  | 0xac => some OP_CHECKSIG
  | 0xad => some OP_CHECKSIGVERIFY
  | 0xae => some OP_CHECKMULTISIG
  | 0xaf => some OP_CHECKMULTISIGVERIFY
  | 0xb0 => some OP_NOP1
  | 0xb1 => some OP_CHECKLOCKTIMEVERIFY
  | 0xb2 => some OP_CHECKSEQUENCEVERIFY
  | 0xb3 => some OP_NOP4
  | 0xb4 => some OP_NOP5
  | 0xb5 => some OP_NOP6
  | 0xb6 => some OP_NOP7
  | 0xb7 => some OP_NOP8
  | 0xb8 => some OP_NOP9
  | 0xb9 => some OP_NOP10
  | 0xba => some OP_CHECKDATASIG
  | 0xbb => some OP_CHECKDATASIGVERIFY
  | 0xbc => some OP_REVERSEBYTES
  | 0xbd => some FIRST_UNDEFINED_OP_VALUE
  | _ => none

end Opcode
end BCash
