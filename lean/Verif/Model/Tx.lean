import Verif.Model.Codec

/-! # Transactions — `bitcoin-cash/src/tx.rs`, `tx_preimage.rs` -/

namespace BCash

/-- `Sha256d` as 32 bytes (hash.rs). -/
abbrev Hash256 := FixedBytes 32

/-- `Sha256d::new([0; 32])`. -/
def Hash256.zero : Hash256 := ⟨List.replicate 32 0, by simp⟩

/-- `SigHashFlags` (bitflags over `u32`), tx_preimage.rs:8-19. -/
abbrev SigHashFlags := UInt32

namespace SigHashFlags
/-- tx_preimage.rs:11-17. -/
def ALL : SigHashFlags := 0x01
def NONE : SigHashFlags := 0x02
def SINGLE : SigHashFlags := 0x03
def FORKID : SigHashFlags := 0x40
def ANYONECANPAY : SigHashFlags := 0x80
def MASK : SigHashFlags := 0x1f
def DEFAULT : SigHashFlags := ALL ||| FORKID

/-- bitflags `contains`: `(self & other) == other`. -/
def contains (self other : SigHashFlags) : Bool := self &&& other == other

/-- bitflags `from_bits`: fails if a bit outside the union of all declared flags is set. -/
def fromBits (bits : UInt32) : Option SigHashFlags :=
  if bits &&& ~~~(ALL ||| NONE ||| SINGLE ||| FORKID ||| ANYONECANPAY ||| MASK ||| DEFAULT) = 0
  then some bits else none
end SigHashFlags

/-- `struct TxOutpoint`, tx.rs:14-17. -/
structure TxOutpoint where
  txHash : Hash256
  vout : UInt32
deriving DecidableEq

/-- `struct TxInput`, tx.rs:22-38. -/
structure TxInput where
  prevOut : TxOutpoint
  script : Script
  sequence : UInt32
  lockScript : Option Script
  value : Option UInt64
  isP2sh : Option Bool
  sigHashFlags : Option (List SigHashFlags)
deriving DecidableEq

/-- `struct TxOutput`, tx.rs:42-45. -/
structure TxOutput where
  value : UInt64
  script : Script
deriving DecidableEq

/-- `struct UnhashedTx`, tx.rs:50-55. -/
structure UnhashedTx where
  version : Int32
  inputs : List TxInput
  outputs : List TxOutput
  lockTime : UInt32
deriving DecidableEq

/-- `impl Default for UnhashedTx`, tx.rs:141-150. -/
def UnhashedTx.default : UnhashedTx := ⟨1, [], [], 0⟩

/-- `struct TxPreimage`, tx_preimage.rs:23-34. -/
structure TxPreimage where
  version : Int32
  hashPrevouts : Hash256
  hashSequence : Hash256
  outpoint : TxOutpoint
  scriptCode : Script
  value : UInt64
  sequence : UInt32
  hashOutputs : Hash256
  lockTime : UInt32
  sigHashType : UInt32
deriving DecidableEq

/-- The in-memory sizes (chosen by the compiler) of the element types of transaction vectors. -/
structure Layout where
  txInput : Nat
  txOutput : Nat

namespace Codec

/-- derived for `TxOutpoint`, tx.rs:11-17. -/
def txOutpoint : Codec TxOutpoint :=
  ((fixed 32).seq u32).imap (fun (h, v) => ⟨h, v⟩) (fun o => (o.txHash, o.vout))

/-- derived for `TxInput`, tx.rs:19-38: the last four fields are skipped. -/
def txInput : Codec TxInput :=
  (txOutpoint.seq (script.seq u32)).imap
    (fun (p, s, q) => ⟨p, s, q, none, none, none, none⟩)
    (fun i => (i.prevOut, i.script, i.sequence))

/-- derived for `TxOutput`, tx.rs:40-45. -/
def txOutput : Codec TxOutput :=
  (u64.seq script).imap (fun (v, s) => ⟨v, s⟩) (fun o => (o.value, o.script))

/-- derived for `UnhashedTx`, tx.rs:47-55. -/
def unhashedTx (sz : Layout) : Codec UnhashedTx :=
  (i32.seq ((vec sz.txInput txInput).seq ((vec sz.txOutput txOutput).seq u32))).imap
    (fun (v, i, o, l) => ⟨v, i, o, l⟩) (fun t => (t.version, t.inputs, t.outputs, t.lockTime))

/-- derived for `TxPreimage`, tx_preimage.rs:21-34. -/
def txPreimage : Codec TxPreimage :=
  (i32.seq ((fixed 32).seq ((fixed 32).seq (txOutpoint.seq (script.seq (u64.seq (u32.seq
    ((fixed 32).seq (u32.seq u32))))))))).imap
    (fun (a, b, c, d, e, f, g, h, i, j) => ⟨a, b, c, d, e, f, g, h, i, j⟩)
    (fun p => (p.version, p.hashPrevouts, p.hashSequence, p.outpoint, p.scriptCode, p.value,
      p.sequence, p.hashOutputs, p.lockTime, p.sigHashType))

end Codec

/-- `struct Tx`, tx.rs:57-68. -/
structure Tx where
  unhashedTx : UnhashedTx
  hash : Hash256
  raw : Bytes
deriving DecidableEq

/-- `UnhashedTx::hashed`, tx.rs:92-100, for the double SHA-256 function `sha256d`. -/
def UnhashedTx.hashed (sz : Layout) (sha256d : Bytes → Hash256) (t : UnhashedTx) : Option Tx :=
  ((Codec.unhashedTx sz).ser t).map fun raw => ⟨t, sha256d raw, raw⟩

/-- derived for `Tx`, tx.rs:57-68: `unhashed_tx` and `hash` are skipped. -/
def Codec.tx : Codec Tx :=
  Codec.bytes.imap (fun raw => ⟨UnhashedTx.default, Hash256.zero, raw⟩) Tx.raw

/-! ## Signature preimages -/

/-- What `trait ToPreimages` exposes (tx_preimage.rs / ops.rs): the parts of a transaction a
preimage is built from. The two implementations (`SigTxPreimage`, tx.rs:152-193, and `UnsignedTx`,
tx_builder.rs) differ in where these come from. `lockScript`/`value` are `none` where the accessor
panics. -/
structure PreimageInput where
  outpoint : TxOutpoint
  sequence : UInt32
  sigHashFlags : List SigHashFlags
  lockScript : Option Script
  value : Option UInt64

structure PreimageTx where
  version : Int32
  inputs : List PreimageInput
  outputs : List TxOutput
  lockTime : UInt32

/-- concatenation of serialised items, tx_preimage.rs:46-79 (`none` = panic). -/
def serAllOutputs : List TxOutput → Option Bytes := Codec.txOutput.serMany

/-- tx_preimage.rs:45-79: hashes over all outpoints, sequences and outputs. -/
def hashAllPrevouts (sha256d : Bytes → Hash256) (tx : PreimageTx) : Option Hash256 :=
  (Codec.txOutpoint.serMany (tx.inputs.map (·.outpoint))).map sha256d
def hashAllSequences (sha256d : Bytes → Hash256) (tx : PreimageTx) : Option Hash256 :=
  (Codec.u32.serMany (tx.inputs.map (·.sequence))).map sha256d
def hashAllOutputs (sha256d : Bytes → Hash256) (tx : PreimageTx) : Option Hash256 :=
  (serAllOutputs tx.outputs).map sha256d

/-- The body of the inner loop, tx_preimage.rs:85-118, for one input and one flag set. -/
def buildPreimage (sha256d : Bytes → Hash256) (tx : PreimageTx) (idx : Nat) (input : PreimageInput)
    (flags : SigHashFlags) (hp hs ho : Hash256) : Option TxPreimage :=
  let hashPrevouts := if !flags.contains .ANYONECANPAY then hp else Hash256.zero
  let masked := flags &&& SigHashFlags.MASK
  let hashSequence :=
    if !flags.contains .ANYONECANPAY && masked != .SINGLE && masked != .NONE then hs
    else Hash256.zero
  let hashOutputs : Option Hash256 :=
    if masked != .SINGLE && masked != .NONE then some ho
    else if masked == .SINGLE && decide (idx < tx.outputs.length) then
      (tx.outputs[idx]?).bind fun o => (Codec.txOutput.ser o).map sha256d
    else some Hash256.zero
  hashOutputs.bind fun hashOutputs => input.lockScript.bind fun lockScript =>
  input.value.bind fun value =>
  some { version := tx.version, hashPrevouts, hashSequence, outpoint := input.outpoint,
         scriptCode := lockScript.toScriptCodeFirst, value, sequence := input.sequence, hashOutputs,
         lockTime := tx.lockTime, sigHashType := flags }

/-- `TxPreimage::build_preimages`, tx_preimage.rs:45-123 (`none` = panic). -/
def buildPreimages (sha256d : Bytes → Hash256) (tx : PreimageTx) :
    Option (List (List TxPreimage)) := do
  let hp ← hashAllPrevouts sha256d tx
  let hs ← hashAllSequences sha256d tx
  let ho ← hashAllOutputs sha256d tx
  tx.inputs.zipIdx.mapM fun (input, idx) =>
    input.sigHashFlags.mapM fun flags => buildPreimage sha256d tx idx input flags hp hs ho

/-- `UnhashedTx::preimages`, tx.rs:85-90 with `SigTxPreimage`, tx.rs:157-193. -/
def UnhashedTx.toPreimageTx (t : UnhashedTx) (flags : List SigHashFlags) : PreimageTx where
  version := t.version
  inputs := t.inputs.map fun i => ⟨i.prevOut, i.sequence, flags, i.lockScript, i.value⟩
  outputs := t.outputs
  lockTime := t.lockTime

end BCash
