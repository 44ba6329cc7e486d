import Verif.Model.Json

/-! # Comparing values with `==` — `PartialEq` of arrays, operations, scripts and transactions -/

namespace BCash

/-- `PartialEq for Op`, op.rs:91-102, on arrays with provenance. -/
def Op.beqP : Op ByteArray → Op ByteArray → Bool
  | code c1, code c2 => c1 == c2
  | invalid b1, invalid b2 => b1 == b2
  | pushByteArray a1 _, pushByteArray a2 _ => a1.beq a2
  | pushBoolean b1, pushBoolean b2 => b1 == b2
  | pushInteger i1, pushInteger i2 => i1 == i2
  | _, _ => false

/-- `PartialEq for TaggedOp`, tagged_op.rs:34-38. -/
def TaggedOp.beq (a b : TaggedOp) : Bool := a.op.beqP b.op

/-- `PartialEq` of slices and vectors (standard library). -/
def beqList {α : Type} (eq : α → α → Bool) : List α → List α → Bool
  | [], [] => true
  | a :: as, b :: bs => eq a b && beqList eq as bs
  | _, _ => false

/-- `PartialEq` of `Option` (derived). -/
def beqOption {α : Type} (eq : α → α → Bool) : Option α → Option α → Bool
  | none, none => true
  | some a, some b => eq a b
  | _, _ => false

/-- `PartialEq for Script` (derived), script.rs:9. -/
def beqScript (a b : List TaggedOp) : Bool := beqList TaggedOp.beq a b

/-- `PartialEq for TxInput` (derived), tx.rs:20, with that of `TxOutpoint` (derived), tx.rs:12. -/
def RichInput.beq (a b : RichInput) : Bool :=
  (a.prevHash.1.beq b.prevHash.1 && a.prevVout == b.prevVout) && beqScript a.script b.script &&
  a.sequence == b.sequence && beqOption beqScript a.lockScript b.lockScript && a.value == b.value &&
  a.isP2sh == b.isP2sh && a.sigHashFlags == b.sigHashFlags

/-- `PartialEq for TxOutput` (derived), tx.rs:41. -/
def RichOutput.beq (a b : RichOutput) : Bool := a.value == b.value && beqScript a.script b.script

/-- `PartialEq for UnhashedTx` (derived), tx.rs:48. -/
def RichTx.beq (a b : RichTx) : Bool :=
  a.version == b.version && beqList RichInput.beq a.inputs b.inputs &&
  beqList RichOutput.beq a.outputs b.outputs && a.lockTime == b.lockTime

end BCash
