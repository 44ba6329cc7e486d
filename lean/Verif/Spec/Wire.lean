import Verif.Model.Basic

/-! # Specification of the consensus wire format (independent of the code)

Transactions and signature preimages as plain data (numbers, byte strings) and their bytes, as
described by the Bitcoin protocol documentation and BIP143 / the BCH replay-protected sighash. -/

namespace BCash.Spec

/-- Compact-size integer. -/
def compactSize (n : Nat) : Bytes :=
  if n < 0xfd then leBytes 1 n
  else if n < 2 ^ 16 then [0xfd] ++ leBytes 2 n
  else if n < 2 ^ 32 then [0xfe] ++ leBytes 4 n
  else [0xff] ++ leBytes 8 n

/-- Length-prefixed byte string. -/
def varBytes (b : Bytes) : Bytes := compactSize b.length ++ b

/-- Two's complement, `k` bytes, little endian. -/
def leInt (k : Nat) (x : Int) : Bytes := leBytes k (x % 2 ^ (8 * k)).toNat

structure WireInput where
  txid : Bytes
  vout : Nat
  script : Bytes
  sequence : Nat

structure WireOutput where
  value : Nat
  script : Bytes

structure WireTx where
  version : Int
  inputs : List WireInput
  outputs : List WireOutput
  lockTime : Nat

def WireInput.encode (i : WireInput) : Bytes :=
  i.txid ++ leBytes 4 i.vout ++ varBytes i.script ++ leBytes 4 i.sequence

def WireOutput.encode (o : WireOutput) : Bytes := leBytes 8 o.value ++ varBytes o.script

def WireTx.encode (t : WireTx) : Bytes :=
  leInt 4 t.version ++ compactSize t.inputs.length ++ (t.inputs.map WireInput.encode).flatten ++
  compactSize t.outputs.length ++ (t.outputs.map WireOutput.encode).flatten ++ leBytes 4 t.lockTime

/-- The ten fields of a signature preimage, in order. -/
structure WirePreimage where
  version : Int
  hashPrevouts : Bytes
  hashSequence : Bytes
  txid : Bytes
  vout : Nat
  scriptCode : Bytes
  value : Nat
  sequence : Nat
  hashOutputs : Bytes
  lockTime : Nat
  sigHashType : Nat

def WirePreimage.encode (p : WirePreimage) : Bytes :=
  leInt 4 p.version ++ p.hashPrevouts ++ p.hashSequence ++ p.txid ++ leBytes 4 p.vout ++
  varBytes p.scriptCode ++ leBytes 8 p.value ++ leBytes 4 p.sequence ++ p.hashOutputs ++
  leBytes 4 p.lockTime ++ leBytes 4 p.sigHashType

end BCash.Spec
