import Verif.Model.Address
import Verif.Model.Tx

/-! # Standard scripts and their classification — `bitcoin-cash/src/destination.rs`, `scripts.rs` -/

namespace BCash

/-- `enum PatternOp`, op.rs:12-18. -/
inductive PatternOp where
  | code (opcode : Opcode)
  | invalid (byte : UInt8)
  | array (bytes : Bytes)
  | bool (b : Bool)
  | int (i : Int)
deriving DecidableEq, Repr

/-- `impl From<&Op> for PatternOp`, op.rs:110-120. -/
def PatternOp.ofOp : Op Bytes → PatternOp
  | .code opcode => .code opcode
  | .invalid b => .invalid b
  | .pushByteArray a _ => .array a
  | .pushBoolean b => .bool b
  | .pushInteger i => .int i

/-- `enum Destination`, destination.rs:5-11. -/
inductive Destination where
  | nulldata (ops : List (Op Bytes))
  | address (a : Address)
  | p2pk (pubkey : Bytes)
  | unknown (script : Script)
deriving DecidableEq

/-- `Address::from_hash(.., Hash160::from_slice(hash).expect(..))`, destination.rs:26-32, 35-41. -/
def addressOfSlice (pre : Bytes) (t : AddressType) (slice : Bytes) : Option Address :=
  match Hash.fromSlice 20 slice with
  | .error _ => none
  | .ok h => Address.fromHash pre t h

/-- `script_destination`, destination.rs:13-49 (`none` = panic). -/
def scriptDestination (addrPrefix : Bytes) (script : Script) : Option Destination :=
  match script.map PatternOp.ofOp with
  | [.code .OP_DUP, .code .OP_HASH160, .array hash, .code .OP_EQUALVERIFY, .code .OP_CHECKSIG] =>
    (addressOfSlice addrPrefix .P2PKH hash).map .address
  | [.code .OP_HASH160, .array hash, .code .OP_EQUAL] =>
    (addressOfSlice addrPrefix .P2SH hash).map .address
  | [.array pk, .code .OP_CHECKSIG] => some (.p2pk pk)
  | .code .OP_RETURN :: _ => some (.nulldata (script.drop 1))
  | _ => some (.unknown script)

/-- `Destination::address`, destination.rs:51-58. -/
def Destination.toAddress : Destination → Option Address
  | .address a => some a
  | _ => none

/-- `p2pkh_script` as expanded by the script macro, scripts.rs:17-24: the statements in order; the
expression statement `params.0.hash()` becomes a push (`Hash160::to_pushop`, hash.rs, minimal). -/
def p2pkhScript (a : Address) : Script :=
  [.code .OP_DUP, .code .OP_HASH160, .pushByteArray a.hash.1 true, .code .OP_EQUALVERIFY,
   .code .OP_CHECKSIG]

/-- `p2sh_script` as expanded by the script macro, scripts.rs:26-31. -/
def p2shScript (a : Address) : Script :=
  [.code .OP_HASH160, .pushByteArray a.hash.1 true, .code .OP_EQUAL]

/-- `impl Into<Script> for Address`, scripts.rs:33-49. -/
def Address.toScript (a : Address) : Script :=
  match a.addrType with
  | .P2SH => p2shScript a
  | .P2PKH => p2pkhScript a

/-- `Address::p2pkh_script`, scripts.rs:51-58. -/
def Address.p2pkhScript? (a : Address) : Except Error Script :=
  if a.addrType ≠ .P2PKH then .error .invalidAddressType else .ok (p2pkhScript a)

/-- `struct P2PKHSpend`, destination.rs:60-63. -/
structure P2PKHSpend where
  pubkey : Pubkey
  sigHashFlags : SigHashFlags
deriving DecidableEq

/-- `script_p2pkh_spend`, destination.rs:65-79. -/
def scriptP2pkhSpend (script : Script) : Option P2PKHSpend :=
  match script.map PatternOp.ofOp with
  | [.array sig, .array pubkey] =>
    if pubkey.length = 33 then
      match sig.getLast? with
      | none => none
      | some b =>
        match SigHashFlags.fromBits b.toUInt32 with
        | none => none
        | some flags =>
          match Pubkey.fromSliceChecked pubkey with
          | none => none
          | some pk => some ⟨pk, flags⟩
    else none
  | _ => none

/-- `SigHashFlags::from_u8`, tx_preimage.rs:36-42. -/
def SigHashFlags.fromU8 (flags : UInt8) : SigHashFlags := flags.toUInt32

/-- `MAX_SIGNATURE_SIZE`, tx.rs. -/
def MAX_SIGNATURE_SIZE : Nat := 72

/-- `struct P2PKHSignatory`, scripts.rs:9-13. -/
structure P2PKHSignatory where
  pubkey : Pubkey
  sigHashFlags : SigHashFlags

/-- `placeholder_signatures`, scripts.rs:67-69. -/
def P2PKHSignatory.placeholderSignatures (_ : P2PKHSignatory) : Bytes :=
  List.replicate MAX_SIGNATURE_SIZE 0

/-- `build_script`, scripts.rs:70-85, and `Ops for P2PKHInputs` (generated: one push per input in
declaration order `sig`, `pubkey`). -/
def P2PKHSignatory.buildScript (s : P2PKHSignatory) (sig : Bytes) : Script :=
  [.pushByteArray (sig ++ [s.sigHashFlags.toUInt8]) true, .pushByteArray s.pubkey.1 true]

/-- `Op::to_integer`, op.rs:67-88; `err ()` is `None` (`Integer::new` rejects values outside the
script range). -/
def Op.toInteger : Op Bytes → Res Unit Int
  | .pushInteger i => .ok i
  | .code opcode =>
    if opcode = .OP_0 then .ok 0
    else if opcode = .OP_1NEGATE then .ok (-1)
    else
      let n := opcode.toByte.toNat
      if n ≥ Opcode.OP_1.toByte.toNat ∧ n ≤ Opcode.OP_16.toByte.toNat then
        .ok ((n + 1 - Opcode.OP_1.toByte.toNat : Nat) : Int)
      else .err ()
  | .pushByteArray a _ =>
    match vecToInt a with
    | .panic => .panic
    | .err _ => .err ()
    | .ok v => match Integer.new v with
      | .ok i => .ok i
      | .error _ => .err ()
  | .pushBoolean b => .ok (if b then 1 else 0)
  | .invalid _ => .err ()

end BCash
