import Verif.Model.Json

/-! # What a transaction holds: strings, byte data, recorded arrays -/

namespace BCash.Spec

mutual
/-- A byte array and everything recorded as its preimages, all the way down. -/
def recorded : ByteArray → List ByteArray
  | .mk d n f none => [.mk d n f none]
  | .mk d n f (some ps) => .mk d n f (some ps) :: recordedMany ps
/-- The same for several arrays. -/
def recordedMany : List ByteArray → List ByteArray
  | [] => []
  | p :: ps => recorded p ++ recordedMany ps
end

/-- The array an operation pushes, with its preimages. -/
def opArrays (o : TaggedOp) : List ByteArray :=
  match o.op with
  | .pushByteArray a _ => recorded a
  | _ => []

/-- The debugging strings of an operation. -/
def opStrings (o : TaggedOp) : List String :=
  o.srcFile :: o.srcCode.map (·.2) ++ (o.pushedNames.getD []).filterMap id ++
    (o.altPushedNames.getD []).filterMap id

/-- All operations of a transaction. -/
def txOps (tx : RichTx) : List TaggedOp :=
  tx.inputs.flatMap (fun i => i.script ++ i.lockScript.getD []) ++ tx.outputs.flatMap (·.script)

/-- All byte arrays of a transaction, with their preimages. -/
def txArrays (tx : RichTx) : List ByteArray :=
  tx.inputs.flatMap (fun i => recorded i.prevHash.1) ++ (txOps tx).flatMap opArrays

/-- All strings of a transaction: names of arrays and debugging strings of operations. -/
def txStrings (tx : RichTx) : List String :=
  (txArrays tx).filterMap (·.name) ++ (txOps tx).flatMap opStrings

end BCash.Spec
