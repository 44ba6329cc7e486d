import Mathlib.Data.List.Forall2
import Verif.Model.Tx
import Verif.Spec.Script

/-! # Specification: raw transactions

A transaction as it may come from elsewhere: every size in any of the four forms, every push in any of its
forms. (The values of a script are given by the model's type of operations.) -/

namespace BCash.Spec

/-- The four forms of a compact size. -/
inductive SizeForm where
  | one | three | five | nine
deriving DecidableEq

def SizeForm.encode : SizeForm → Nat → Bytes
  | .one, n => leBytes 1 n
  | .three, n => 0xfd :: leBytes 2 n
  | .five, n => 0xfe :: leBytes 4 n
  | .nine, n => 0xff :: leBytes 8 n

/-- The numbers that can be written in a form. -/
def SizeForm.Fits : SizeForm → Nat → Prop
  | .one, n => n < 253
  | .three, n => n < 2 ^ 16
  | .five, n => n < 2 ^ 32
  | .nine, n => n < 2 ^ 64

/-- No shorter form is possible. -/
def SizeForm.Shortest : SizeForm → Nat → Prop
  | .one, _ => True
  | .three, n => 253 ≤ n
  | .five, n => 2 ^ 16 ≤ n
  | .nine, n => 2 ^ 32 ≤ n

/-- A script with the form of its size and its tokens. -/
structure RawScript where
  size : SizeForm
  tokens : List Token

def RawScript.encode (s : RawScript) : Bytes :=
  s.size.encode (encodeTokens s.tokens).length ++ encodeTokens s.tokens

def RawScript.Valid (s : RawScript) : Prop :=
  s.size.Fits (encodeTokens s.tokens).length ∧ ∀ t ∈ s.tokens, t.Valid

/-- Shortest size, and every push with the shortest length prefix (or the two-byte empty push). -/
def RawScript.Canonical (s : RawScript) : Prop :=
  s.size.Shortest (encodeTokens s.tokens).length ∧ ∀ t ∈ s.tokens, t.ShortPrefix

structure RawInput where
  txid : FixedBytes 32
  vout : UInt32
  script : RawScript
  sequence : UInt32

def RawInput.encode (i : RawInput) : Bytes :=
  i.txid.1 ++ leBytes 4 i.vout.toNat ++ i.script.encode ++ leBytes 4 i.sequence.toNat

structure RawOutput where
  value : UInt64
  script : RawScript

def RawOutput.encode (o : RawOutput) : Bytes := leBytes 8 o.value.toNat ++ o.script.encode

structure RawTx where
  version : UInt32
  inputCount : SizeForm
  inputs : List RawInput
  outputCount : SizeForm
  outputs : List RawOutput
  lockTime : UInt32

def RawTx.encode (t : RawTx) : Bytes :=
  leBytes 4 t.version.toNat ++
  t.inputCount.encode t.inputs.length ++ (t.inputs.map RawInput.encode).flatten ++
  t.outputCount.encode t.outputs.length ++ (t.outputs.map RawOutput.encode).flatten ++
  leBytes 4 t.lockTime.toNat

/-- Counts fit their forms, scripts consist of tokens, and the counts are ones for which memory can be
reserved (the sizes of the two Rust types are given). -/
def RawTx.Valid (sz : Layout) (t : RawTx) : Prop :=
  t.inputCount.Fits t.inputs.length ∧ t.inputs.length * sz.txInput < 2 ^ 63 ∧ (∀ i ∈ t.inputs, i.script.Valid) ∧
  t.outputCount.Fits t.outputs.length ∧ t.outputs.length * sz.txOutput < 2 ^ 63 ∧ ∀ o ∈ t.outputs, o.script.Valid

/-- Everything in its shortest form. -/
def RawTx.Canonical (t : RawTx) : Prop :=
  t.inputCount.Shortest t.inputs.length ∧ (∀ i ∈ t.inputs, i.script.Canonical) ∧
  t.outputCount.Shortest t.outputs.length ∧ ∀ o ∈ t.outputs, o.script.Canonical

/-! ## What is read -/

/-- A byte that is no push prefix stands for the opcode with that byte, or for itself if there is none; a push
for a push of its bytes, marked minimal if it is. -/
inductive TokenReads : Token → Op Bytes → Prop
  | opcode (o : Opcode) : TokenReads (.op o.toByte) (.code o)
  | undefined (b : UInt8) : (∀ o : Opcode, o.toByte ≠ b) → TokenReads (.op b) (.invalid b)
  | push (form : PushForm) (d : Bytes) (m : Bool) : (m = true ↔ MinimalPush form d) →
      TokenReads (.push form d) (.pushByteArray d m)

def ScriptReads (r : RawScript) (s : Script) : Prop := List.Forall₂ TokenReads r.tokens s

def InputReads (r : RawInput) (i : TxInput) : Prop :=
  i.prevOut.txHash = r.txid ∧ i.prevOut.vout = r.vout ∧ ScriptReads r.script i.script ∧ i.sequence = r.sequence ∧
  i.lockScript = none ∧ i.value = none ∧ i.isP2sh = none ∧ i.sigHashFlags = none

def OutputReads (r : RawOutput) (o : TxOutput) : Prop := o.value = r.value ∧ ScriptReads r.script o.script

def TxReads (r : RawTx) (t : UnhashedTx) : Prop :=
  t.version.toUInt32 = r.version ∧ List.Forall₂ InputReads r.inputs t.inputs ∧
  List.Forall₂ OutputReads r.outputs t.outputs ∧ t.lockTime = r.lockTime

end BCash.Spec
