import Verif.Model.CodecP

/-! # Hash digests and signature preimages with provenance — `bitcoin-cash/src/hash.rs`, `tx_preimage.rs` -/

namespace BCash

/-- The hash functions of the crates `sha1`, `ripemd160` and `sha2` (parameters). -/
structure HashPrims where
  sha1 : Bytes → FixedBytes 20
  ripemd160 : Bytes → FixedBytes 20
  sha256 : Bytes → FixedBytes 32

/-- The five implementations of `Hashed`, hash.rs:51-60. -/
inductive HashKind where
  | sha1 | ripemd160 | sha256 | sha256d | hash160
deriving DecidableEq

namespace HashKind

/-- The length in the type of the wrapped array, hash.rs:51-60. -/
def size : HashKind → Nat
  | .sha1 | .ripemd160 | .hash160 => 20
  | .sha256 | .sha256d => 32

/-- `Hashed::function`, hash.rs:141-143, 168-170, 195-197, 222-224, 251-253. -/
def function : HashKind → Function
  | .sha1 => .sha1
  | .ripemd160 => .ripemd160
  | .sha256 => .sha256
  | .sha256d => .hash256
  | .hash160 => .hash160

/-- `Hashed::digest_slice`, hash.rs:144-146, 171-173, 198-200, 225-229, 254-258. -/
def digestSlice (P : HashPrims) (msg : Bytes) : HashKind → Bytes
  | .sha1 => (P.sha1 msg).1
  | .ripemd160 => (P.ripemd160 msg).1
  | .sha256 => (P.sha256 msg).1
  | .sha256d => (P.sha256 (P.sha256 msg).1).1
  | .hash160 => (P.ripemd160 (P.sha256 msg).1).1

/-- `Hashed::digest`, hash.rs:19-24 (`expect` on `from_byte_array`, hash.rs:153-155). -/
def digest (P : HashPrims) (k : HashKind) (msg : ByteArray) : Res Empty (FixedP k.size) :=
  match FixedP.fromByteArray k.size (msg.applyFunction (k.digestSlice P msg.data) k.function) with
  | .ok h => .ok h
  | _ => .panic

end HashKind

namespace FixedP
variable {n : Nat}

/-- `FixedByteArray::named`, byte_array.rs:469-474, and `Hashed::named`, hash.rs:156-158. -/
def named (b : FixedP n) (name : String) : FixedP n :=
  ⟨b.1.named name, by obtain ⟨⟨d, m, f, p⟩, h⟩ := b; exact h⟩

/-- `FixedByteArray::new_unnamed`, byte_array.rs:493-498, and `Sha256d::new`, hash.rs:77-81. -/
def newUnnamed (b : FixedBytes n) : FixedP n := ⟨.newUnnamed b.1, b.2⟩

/-- `Hashed::from_byte_array`, hash.rs:153-155; `FixedByteArray::into_byte_array`, byte_array.rs:465-467
(`From<hash> for ByteArray`, hash.rs:415-438). -/
def intoByteArray (b : FixedP n) : ByteArray := b.1

/-- `Hashed::concat`, hash.rs:46-48. -/
def concat (b : FixedP n) (other : ByteArray) : ByteArray := b.intoByteArray.concat other

end FixedP

/-- `Script::to_script_code_first`, script.rs:64-75, with provenance (operations are compared by contents,
op.rs `PartialEq`). -/
def ScriptP.toScriptCodeFirst (s : ScriptP) : ScriptP :=
  match s.findIdx? (fun op => (op.map ByteArray.data).beq (.code .OP_CODESEPARATOR)) with
  | some idx => s.drop (idx + 1)
  | none => s

/-- What `trait ToPreimages` exposes, ops.rs; see `PreimageInput`. -/
structure PreimageInputP where
  outpoint : TxOutpointP
  sequence : UInt32
  sigHashFlags : List SigHashFlags
  lockScript : Option ScriptP
  value : Option UInt64

structure PreimageTxP where
  version : Int32
  inputs : List PreimageInputP
  outputs : List TxOutputP
  lockTime : UInt32

/-- The loops of tx_preimage.rs:47-54, 58-65, 70-77: the serialised items, each named with its index,
concatenated (`none` = panic). -/
def serNamed {α : Type} (c : CodecP α) (label : String) : Nat → ByteArray → List α → Option ByteArray
  | _, acc, [] => some acc
  | idx, acc, v :: vs => (c.ser v).bind fun s =>
      serNamed c label (idx + 1) (acc.concat (s.named (label ++ toString idx))) vs

/-- `Sha256d::digest(items.named(arg)).named(name)`, tx_preimage.rs:55, 66, 78. -/
def hashNamed (P : HashPrims) (items : Option ByteArray) (arg name : String) : Option (FixedP 32) :=
  items.bind fun b =>
    match HashKind.sha256d.digest P (b.named arg) with
    | .ok h => some (h.named name)
    | _ => none

/-- tx_preimage.rs:46-56. -/
def hashAllPrevoutsP (P : HashPrims) (tx : PreimageTxP) : Option (FixedP 32) :=
  hashNamed P (serNamed CodecP.txOutpoint "outpoint_" 0 (.newUnnamed []) (tx.inputs.map (·.outpoint)))
    "prevouts" "hashPrevouts"
/-- tx_preimage.rs:57-67. -/
def hashAllSequencesP (P : HashPrims) (tx : PreimageTxP) : Option (FixedP 32) :=
  hashNamed P (serNamed CodecP.u32 "sequence_" 0 (.newUnnamed []) (tx.inputs.map (·.sequence)))
    "sequences" "hashSequence"
/-- tx_preimage.rs:69-79. -/
def hashAllOutputsP (P : HashPrims) (opName : Opcode → String) (tx : PreimageTxP) : Option (FixedP 32) :=
  hashNamed P (serNamed (CodecP.txOutput opName) "output_" 0 (.newUnnamed []) tx.outputs)
    "outputs" "hashOutputs"

/-- `Sha256d::new([0; 32])`. -/
def zero32P : FixedP 32 := FixedP.newUnnamed ⟨List.replicate 32 0, by simp⟩

/-- The body of the inner loop, tx_preimage.rs:84-117, for one input and one flag set. -/
def buildPreimageP (P : HashPrims) (opName : Opcode → String) (tx : PreimageTxP) (idx : Nat)
    (input : PreimageInputP) (flags : SigHashFlags) (hp hs ho : FixedP 32) : Option TxPreimageP :=
  let hashPrevouts := if !flags.contains .ANYONECANPAY then hp else zero32P.named "hashPrevouts"
  let masked := flags &&& SigHashFlags.MASK
  let hashSequence :=
    if !flags.contains .ANYONECANPAY && masked != .SINGLE && masked != .NONE then hs
    else zero32P.named "hashSequence"
  let hashOutputs : Option (FixedP 32) :=
    if masked != .SINGLE && masked != .NONE then some ho
    else if masked == .SINGLE && decide (idx < tx.outputs.length) then
      (tx.outputs[idx]?).bind fun o => ((CodecP.txOutput opName).ser o).bind fun b =>
        match HashKind.sha256d.digest P b with
        | .ok h => some h
        | _ => none
    else some (zero32P.named "hashOutputs")
  hashOutputs.bind fun hashOutputs => input.lockScript.bind fun lockScript =>
  input.value.bind fun value =>
  some { version := tx.version, hashPrevouts, hashSequence, outpoint := input.outpoint,
         scriptCode := lockScript.toScriptCodeFirst, value, sequence := input.sequence, hashOutputs,
         lockTime := tx.lockTime, sigHashType := flags }

/-- `TxPreimage::build_preimages`, tx_preimage.rs:45-121 (`none` = panic). -/
def buildPreimagesP (P : HashPrims) (opName : Opcode → String) (tx : PreimageTxP) :
    Option (List (List TxPreimageP)) := do
  let hp ← hashAllPrevoutsP P tx
  let hs ← hashAllSequencesP P tx
  let ho ← hashAllOutputsP P opName tx
  tx.inputs.zipIdx.mapM fun (input, idx) =>
    input.sigHashFlags.mapM fun flags => buildPreimageP P opName tx idx input flags hp hs ho

/-- `UnhashedTx::preimages`, tx.rs:85-90 with `SigTxPreimage`, tx.rs:157-193. -/
def UnhashedTxP.toPreimageTx (t : UnhashedTxP) (flags : List SigHashFlags) : PreimageTxP where
  version := t.version
  inputs := t.inputs.map fun i => ⟨i.prevOut, i.sequence, flags, i.lockScript, i.value⟩
  outputs := t.outputs
  lockTime := t.lockTime

/-- `UnhashedTx::hashed`, tx.rs:92-100. -/
def UnhashedTxP.hashed (P : HashPrims) (opName : Opcode → String) (sz : Layout) (t : UnhashedTxP) :
    Option TxP :=
  ((CodecP.unhashedTx opName sz).ser t).bind fun raw =>
    match HashKind.sha256d.digest P raw with
    | .ok h => some ⟨t, h, raw⟩
    | _ => none

end BCash
