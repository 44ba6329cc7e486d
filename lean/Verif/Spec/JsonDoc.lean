import Verif.Spec.Stored
import Verif.Spec.Import
import Verif.Spec.JsonText

/-! # The document of an exported transaction: how it is laid out, and what is accepted -/

namespace BCash
namespace Spec

/-! ## Layout -/

namespace Doc

/-- A text. -/
def str (s : String) : SVal := .str (utf8 s)

/-- The names of the functions that can have produced a byte array. -/
def functionName : Function → String
  | .plain => "Plain" | .sha1 => "Sha1" | .ripemd160 => "Ripemd160" | .sha256 => "Sha256"
  | .hash256 => "Hash256" | .hash160 => "Hash160" | .num2bin => "Num2Bin" | .ecdsaSign => "EcdsaSign"
  | .schnorrSign => "SchnorrSign" | .toDataSig => "ToDataSig" | .unexpectedSplit => "UnexpectedSplit"
  | .reverse => "Reverse"

/-- An entry of the table of byte arrays: the index of the data, the function, the index of the name and
the indices of the preimages, without the last ones that are not there; the index alone if it is plain
data. -/
def entry (e : JsonByteArray) : SVal :=
  match e.preimageIndices, e.nameIdx, e.function with
  | some is, n, f => .seq [num e.dataIdx, str (functionName f), opt num n, list num is]
  | none, some n, f => .seq [num e.dataIdx, str (functionName f), num n]
  | none, none, .plain => num e.dataIdx
  | none, none, f => .seq [num e.dataIdx, str (functionName f)]

def tables (t : JsonTables) : SVal := .map
  [("data_b64", list str t.dataB64), ("byte_arrays", list entry t.byteArrays),
   ("strings", list str t.strings)]

def op : JsonOp → SVal
  | .code b => .map [("Code", num b.toNat)]
  | .invalid b => .map [("Invalid", num b.toNat)]
  | .pushByteArray i m => .map [("PushByteArray", .map [("array_idx", num i), ("is_minimal", .bool m)])]
  | .pushBoolean b => .map [("PushBoolean", .bool b)]
  | .pushInteger i => .map [("PushInteger", .num i.toInt)]

def taggedOp (o : JsonTaggedOp) : SVal := .map
  [("op", op o.op), ("src_file", num o.srcFile), ("src_line", num o.srcLine.toNat),
   ("src_column", num o.srcColumn.toNat),
   ("src_code", list (fun p => .seq [num p.1.toNat, num p.2]) o.srcCode),
   ("pushed_names", opt (list (opt num)) o.pushedNames),
   ("alt_pushed_names", opt (list (opt num)) o.altPushedNames)]

def jsonInput (i : JsonInput) : SVal := .map
  [("prev_out_hash", num i.prevOutHash), ("prev_out_vout", num i.prevOutVout.toNat),
   ("script", list taggedOp i.script), ("sequence", num i.sequence.toNat),
   ("lock_script", opt (list taggedOp) i.lockScript), ("value", opt (fun v => num v.toNat) i.value),
   ("is_p2sh", opt .bool i.isP2sh), ("sig_hash_flags", opt (list flags) i.sigHashFlags)]

def jsonOutput (o : JsonOutput) : SVal := .map
  [("value", num o.value.toNat), ("script", list taggedOp o.script)]

/-- The document of an exported transaction. -/
def jsonTx (t : JsonTx) : SVal := .map
  [("data", tables t.data), ("version", .num t.version.toInt), ("inputs", list jsonInput t.inputs),
   ("outputs", list jsonOutput t.outputs), ("lock_time", num t.lockTime.toNat)]

end Doc

/-! ## Accepted documents -/

namespace At

/-- A field of a record: its name, what its value must be, and whether it may be missing. -/
structure Field where
  name : String
  value : SVal → Prop
  missing : Prop

/-- A field that must be there. -/
def must (name : String) (value : SVal → Prop) : Field := ⟨name, value, False⟩

/-- A record: a map with every field exactly once (or missing, if allowed), whatever the order and whatever
else it has; or an array of the values of all fields. -/
def record (fs : List Field) : SVal → Prop
  | .map kvs => ∀ f ∈ fs, (∃ v, valuesAt f.name kvs = [v] ∧ f.value v) ∨
      (valuesAt f.name kvs = [] ∧ f.missing)
  | .seq vs => fs.Forall₂ (fun f v => f.value v) vs
  | _ => False

/-- An index. -/
def idx (n : Nat) (v : SVal) : Prop := v = .num n ∧ n < 2 ^ 64
def num (n : Nat) (v : SVal) : Prop := v = .num n
def str (s : String) (v : SVal) : Prop := v = .str (utf8 s)
def bool (b : Bool) (v : SVal) : Prop := v = .bool b

/-- An optional value: `null` is none. -/
def opt {α : Type} (at_ : α → SVal → Prop) : Option α → SVal → Prop
  | none, v => v = .null
  | some x, v => v ≠ .null ∧ at_ x v

/-- A field that may also be missing. -/
def may {α : Type} (name : String) (at_ : α → SVal → Prop) (o : Option α) : Field :=
  ⟨name, opt at_ o, o = none⟩

/-- A list. -/
def list {α : Type} (at_ : α → SVal → Prop) (xs : List α) (v : SVal) : Prop :=
  ∃ vs, v = .seq vs ∧ xs.Forall₂ at_ vs

/-- The name of a function, alone or with `null`. -/
def fn (f : Function) (v : SVal) : Prop := v = Doc.str (Doc.functionName f) ∨ v = .map [(Doc.functionName f, .null)]

/-- An entry of the table of byte arrays. -/
inductive Entry : JsonByteArray → SVal → Prop
  | one {i : Nat} {v : SVal} (h : idx i v) : Entry ⟨i, .plain, none, none⟩ v
  | two {i : Nat} {f : Function} {v w : SVal} (h : idx i v) (hf : fn f w) :
      Entry ⟨i, f, none, none⟩ (.seq [v, w])
  | three {i : Nat} {f : Function} {n : Option Nat} {v w x : SVal} (h : idx i v) (hf : fn f w)
      (hn : opt idx n x) : Entry ⟨i, f, n, none⟩ (.seq [v, w, x])
  | four {i : Nat} {f : Function} {n : Option Nat} {is : Option (List Nat)} {v w x y : SVal} (h : idx i v)
      (hf : fn f w) (hn : opt idx n x) (hp : opt (list idx) is y) : Entry ⟨i, f, n, is⟩ (.seq [v, w, x, y])

def tables (t : JsonTables) : SVal → Prop := record
  [must "data_b64" (list str t.dataB64), must "byte_arrays" (list Entry t.byteArrays),
   must "strings" (list str t.strings)]

/-- An operation: a map with one entry. -/
inductive Operation : JsonOp → SVal → Prop
  | code {b : UInt8} {v : SVal} (h : num b.toNat v) : Operation (.code b) (.map [("Code", v)])
  | invalid {b : UInt8} {v : SVal} (h : num b.toNat v) : Operation (.invalid b) (.map [("Invalid", v)])
  | pushByteArray {i : Nat} {m : Bool} {v : SVal}
      (h : record [must "array_idx" (idx i), must "is_minimal" (bool m)] v) :
      Operation (.pushByteArray i m) (.map [("PushByteArray", v)])
  | pushBoolean {b : Bool} {v : SVal} (h : bool b v) : Operation (.pushBoolean b) (.map [("PushBoolean", v)])
  | pushInteger {i : Int32} {v : SVal} (h : v = .num i.toInt) :
      Operation (.pushInteger i) (.map [("PushInteger", v)])

def taggedOp (o : JsonTaggedOp) : SVal → Prop := record
  [must "op" (Operation o.op), must "src_file" (idx o.srcFile), must "src_line" (num o.srcLine.toNat),
   must "src_column" (num o.srcColumn.toNat),
   must "src_code" (list (fun (p : UInt32 × Nat) v => ∃ a b, v = .seq [a, b] ∧ num p.1.toNat a ∧ idx p.2 b)
     o.srcCode),
   may "pushed_names" (list (opt idx)) o.pushedNames, may "alt_pushed_names" (list (opt idx)) o.altPushedNames]

def flags (b : SigHashFlags) : SVal → Prop := record [must "bits" (num b.toNat)]

def jsonInput (i : JsonInput) : SVal → Prop := record
  [must "prev_out_hash" (idx i.prevOutHash), must "prev_out_vout" (num i.prevOutVout.toNat),
   must "script" (list taggedOp i.script), must "sequence" (num i.sequence.toNat),
   may "lock_script" (list taggedOp) i.lockScript, may "value" (fun (n : UInt64) => num n.toNat) i.value,
   may "is_p2sh" bool i.isP2sh, may "sig_hash_flags" (list flags) i.sigHashFlags]

def jsonOutput (o : JsonOutput) : SVal → Prop := record
  [must "value" (num o.value.toNat), must "script" (list taggedOp o.script)]

/-- The document of a transaction. -/
def jsonTx (t : JsonTx) : SVal → Prop := record
  [must "data" (tables t.data), must "version" (fun v => v = .num t.version.toInt),
   must "inputs" (list jsonInput t.inputs), must "outputs" (list jsonOutput t.outputs),
   must "lock_time" (num t.lockTime.toNat)]

end At
end Spec

/-- The document of `JsonTx` as `C42`, `C43` and `C93` speak of it. -/
def JsonTx.toDoc (j : JsonTx) : JsonDoc :=
  ⟨j.data.dataB64, j.data.byteArrays.map JsonByteArray.ser, j.data.strings, j.version, j.inputs,
   j.outputs, j.lockTime⟩

end BCash
