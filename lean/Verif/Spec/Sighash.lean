import Verif.Spec.Wire

/-! # Specification of the signature preimage (BIP143 with the BCH fork id), independent of the code

Flags are numbers: the base type is the low five bits (2 = NONE, 3 = SINGLE, anything else is treated
as ALL), bit 7 is ANYONECANPAY. -/

namespace BCash.Spec

def baseType (flags : Nat) : Nat := flags % 32
def anyoneCanPay (flags : Nat) : Bool := flags / 128 % 2 = 1
def zero32 : Bytes := List.replicate 32 0

/-- `hashPrevouts` etc. for input number `idx` of transaction `t`, hash function `H`. -/
def hashPrevouts (H : Bytes → Bytes) (t : WireTx) (flags : Nat) : Bytes :=
  if anyoneCanPay flags then zero32
  else H (t.inputs.map fun i => i.txid ++ leBytes 4 i.vout).flatten

def hashSequence (H : Bytes → Bytes) (t : WireTx) (flags : Nat) : Bytes :=
  if anyoneCanPay flags ∨ baseType flags = 2 ∨ baseType flags = 3 then zero32
  else H (t.inputs.map fun i => leBytes 4 i.sequence).flatten

def hashOutputs (H : Bytes → Bytes) (t : WireTx) (idx flags : Nat) : Bytes :=
  if baseType flags = 2 then zero32
  else if baseType flags = 3 then
    match t.outputs[idx]? with
    | some o => H o.encode
    | none => zero32
  else H (t.outputs.map WireOutput.encode).flatten

/-- The three strings hashed into a preimage: the outpoints of all inputs, their sequences, and all outputs. -/
def prevoutsMessage (t : WireTx) : Bytes := (t.inputs.map fun i => i.txid ++ leBytes 4 i.vout).flatten
def sequencesMessage (t : WireTx) : Bytes := (t.inputs.map fun i => leBytes 4 i.sequence).flatten
def outputsMessage (t : WireTx) : Bytes := (t.outputs.map WireOutput.encode).flatten

/-- These two strings are different but have the same hash. (That *some* two strings have is true of every
hash function and would say nothing.) -/
def Collide {α : Type} (H : Bytes → α) (x y : Bytes) : Prop := x ≠ y ∧ H x = H y

/-- The preimage for signing input `i` (number `idx`) of `t`, spending an output with the given value
and script code, under the given flags. -/
def sighashPreimage (H : Bytes → Bytes) (t : WireTx) (idx : Nat) (i : WireInput) (value : Nat)
    (scriptCode : Bytes) (flags : Nat) : WirePreimage where
  version := t.version
  hashPrevouts := hashPrevouts H t flags
  hashSequence := hashSequence H t flags
  txid := i.txid
  vout := i.vout
  scriptCode := scriptCode
  value := value
  sequence := i.sequence
  hashOutputs := hashOutputs H t idx flags
  lockTime := t.lockTime
  sigHashType := flags

end BCash.Spec
