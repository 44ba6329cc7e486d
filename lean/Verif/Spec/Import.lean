import Verif.Model.Json
import Verif.Spec.Integer
import Batteries.Data.List.Basic

/-! # What a JSON document stands for

The transaction a document describes, given by the tables alone: no evaluation order, no recursion
limit, no memory of decoded data. -/

namespace BCash

/-- Spec: the byte array index used by an operation of a document. -/
def JsonTaggedOp.arrayIdx (j : JsonTaggedOp) : List Nat :=
  match j.op with
  | .pushByteArray idx _ => [idx]
  | _ => []

/-- Spec: the string indices used by an operation of a document. -/
def JsonTaggedOp.stringIdx (j : JsonTaggedOp) : List Nat :=
  j.srcFile :: j.srcCode.map (·.2) ++ (j.pushedNames.getD []).filterMap id ++
    (j.altPushedNames.getD []).filterMap id

/-- Spec: all operations of a document. -/
def JsonDoc.allOps (d : JsonDoc) : List JsonTaggedOp :=
  d.inputs.flatMap (fun i => i.script ++ i.lockScript.getD []) ++ d.outputs.flatMap (·.script)

/-- Spec: all byte array indices used by the inputs and outputs of a document. -/
def JsonDoc.usedArrays (d : JsonDoc) : List Nat :=
  d.inputs.flatMap (fun i => i.prevOutHash :: (i.script ++ i.lockScript.getD []).flatMap (·.arrayIdx)) ++
  d.outputs.flatMap (fun o => o.script.flatMap (·.arrayIdx))

namespace Spec

/-- The tables of a document, its entries being well-formed. -/
def TablesOf (d : JsonDoc) (t : JsonTables) : Prop :=
  t.dataB64 = d.dataB64 ∧ t.strings = d.strings ∧
    d.byteArrays.Forall₂ (fun v e => JsonByteArray.deser v = some e) t.byteArrays

/-- Entry `i` names entry `j` as one of its preimages. -/
def NamesPreimage (t : JsonTables) (i j : Nat) : Prop :=
  ∃ e idxs, t.byteArrays[i]? = some e ∧ e.preimageIndices = some idxs ∧ j ∈ idxs

/-- From entry `i` one comes to entry `j` by following preimages (at least one step). -/
inductive LeadsTo (t : JsonTables) : Nat → Nat → Prop
  | one {i j : Nat} (h : NamesPreimage t i j) : LeadsTo t i j
  | step {i j k : Nat} (h : NamesPreimage t i j) (h' : LeadsTo t j k) : LeadsTo t i k

/-- The document uses entry `j`: directly, or as a preimage of an entry it uses. -/
def Uses (d : JsonDoc) (t : JsonTables) (j : Nat) : Prop :=
  ∃ i ∈ d.usedArrays, i = j ∨ LeadsTo t i j

mutual
/-- Entry `i` of the tables describes this byte array. -/
inductive ArrayAt (unb64 : String → Option Bytes) (t : JsonTables) : Nat → ByteArray → Prop
  | entry {i : Nat} {e : JsonByteArray} {s : String} {data : Bytes} {name : Option String}
      {preimage : Option (List ByteArray)} (he : t.byteArrays[i]? = some e)
      (hs : t.dataB64[e.dataIdx]? = some s) (hd : unb64 s = some data)
      (hn : Option.Rel (fun k (s : String) => t.strings[k]? = some s) e.nameIdx name)
      (hp : PreimageAt unb64 t e.preimageIndices preimage) :
      ArrayAt unb64 t i (.mk data name e.function preimage)
/-- The recorded preimages. -/
inductive PreimageAt (unb64 : String → Option Bytes) (t : JsonTables) :
    Option (List Nat) → Option (List ByteArray) → Prop
  | none : PreimageAt unb64 t none none
  | some {is : List Nat} {as : List ByteArray} (h : ArraysAt unb64 t is as) :
      PreimageAt unb64 t (some is) (some as)
/-- The arrays of a list of indices. -/
inductive ArraysAt (unb64 : String → Option Bytes) (t : JsonTables) :
    List Nat → List ByteArray → Prop
  | nil : ArraysAt unb64 t [] []
  | cons {i : Nat} {is : List Nat} {a : ByteArray} {as : List ByteArray} (h : ArrayAt unb64 t i a)
      (hs : ArraysAt unb64 t is as) : ArraysAt unb64 t (i :: is) (a :: as)
end

/-- The operation described: an opcode byte that is not an opcode is an undefined operation. -/
inductive OpAt (unb64 : String → Option Bytes) (t : JsonTables) : JsonOp → Op ByteArray → Prop
  | code {b : UInt8} {o : Opcode} (h : Opcode.ofByte b = some o) : OpAt unb64 t (.code b) (.code o)
  | unknown {b : UInt8} (h : Opcode.ofByte b = none) : OpAt unb64 t (.code b) (.invalid b)
  | invalid {b : UInt8} : OpAt unb64 t (.invalid b) (.invalid b)
  | boolean {b : Bool} : OpAt unb64 t (.pushBoolean b) (.pushBoolean b)
  | integer {i : Int32} (h : InScriptRange i.toInt) : OpAt unb64 t (.pushInteger i) (.pushInteger i.toInt)
  | array {i : Nat} {a : ByteArray} {m : Bool} (h : ArrayAt unb64 t i a) :
      OpAt unb64 t (.pushByteArray i m) (.pushByteArray a m)

/-- The list of names described. -/
def NamesAt (t : JsonTables) : Option (List (Option Nat)) → Option (List (Option String)) → Prop :=
  Option.Rel (List.Forall₂ (Option.Rel fun k (s : String) => t.strings[k]? = some s))

/-- The operation with its debugging information. -/
structure TaggedOpAt (unb64 : String → Option Bytes) (t : JsonTables) (j : JsonTaggedOp)
    (o : TaggedOp) : Prop where
  op : OpAt unb64 t j.op o.op
  srcFile : t.strings[j.srcFile]? = some o.srcFile
  srcLine : o.srcLine = j.srcLine
  srcColumn : o.srcColumn = j.srcColumn
  srcCode : j.srcCode.Forall₂ (fun p q => q.1 = p.1 ∧ t.strings[p.2]? = some q.2) o.srcCode
  pushedNames : NamesAt t j.pushedNames o.pushedNames
  altPushedNames : NamesAt t j.altPushedNames o.altPushedNames

/-- The input described. -/
structure InputAt (unb64 : String → Option Bytes) (t : JsonTables) (j : JsonInput) (i : RichInput) :
    Prop where
  prevHash : ArrayAt unb64 t j.prevOutHash i.prevHash.1
  prevVout : i.prevVout = j.prevOutVout
  script : j.script.Forall₂ (TaggedOpAt unb64 t) i.script
  sequence : i.sequence = j.sequence
  lockScript : Option.Rel (List.Forall₂ (TaggedOpAt unb64 t)) j.lockScript i.lockScript
  value : i.value = j.value
  isP2sh : i.isP2sh = j.isP2sh
  sigHashFlags : i.sigHashFlags = j.sigHashFlags

/-- The transaction described by a document with these tables. -/
structure TxAt (unb64 : String → Option Bytes) (d : JsonDoc) (t : JsonTables) (tx : RichTx) : Prop where
  tables : TablesOf d t
  version : tx.version = d.version
  inputs : d.inputs.Forall₂ (InputAt unb64 t) tx.inputs
  outputs : d.outputs.Forall₂ (fun j o => o.value = j.value ∧
    j.script.Forall₂ (TaggedOpAt unb64 t) o.script) tx.outputs
  lockTime : tx.lockTime = d.lockTime

/-- What is wrong with a document, for every error the import can report. -/
inductive Wrong (unb64 : String → Option Bytes) (d : JsonDoc) : JsonError → Prop
  | entry {v : JVal} (hv : v ∈ d.byteArrays) (h : JsonByteArray.deser v = none) : Wrong unb64 d .serde
  | dataIdx {t : JsonTables} {i : Nat} {e : JsonByteArray} (ht : TablesOf d t) (hi : Uses d t i)
      (he : t.byteArrays[i]? = some e) (h : d.dataB64.length ≤ e.dataIdx) :
      Wrong unb64 d (.invalidDataIdx e.dataIdx)
  | data {t : JsonTables} {i : Nat} {e : JsonByteArray} {s : String} (ht : TablesOf d t)
      (hi : Uses d t i) (he : t.byteArrays[i]? = some e) (hs : d.dataB64[e.dataIdx]? = some s)
      (h : unb64 s = none) : Wrong unb64 d .decodeError
  | name {t : JsonTables} {i k : Nat} {e : JsonByteArray} (ht : TablesOf d t) (hi : Uses d t i)
      (he : t.byteArrays[i]? = some e) (hn : e.nameIdx = some k) (h : d.strings.length ≤ k) :
      Wrong unb64 d (.invalidStringIdx k)
  | string {j : JsonTaggedOp} {k : Nat} (hj : j ∈ d.allOps) (hk : k ∈ j.stringIdx)
      (h : d.strings.length ≤ k) : Wrong unb64 d (.invalidStringIdx k)
  | hash {t : JsonTables} {j : JsonInput} {a : ByteArray} (ht : TablesOf d t) (hj : j ∈ d.inputs)
      (ha : ArrayAt unb64 t j.prevOutHash a) (h : a.data.length ≠ 32) : Wrong unb64 d .invalidHash
  | integer {j : JsonTaggedOp} {i : Int32} (hj : j ∈ d.allOps) (hi : j.op = .pushInteger i)
      (h : ¬ InScriptRange i.toInt) : Wrong unb64 d .invalidInteger

end Spec
end BCash
