import Verif.Model.Json
import Verif.Model.Serde

/-! # The document types of the JSON export — the derived `Serialize`/`Deserialize` of
`bitcoin-cash/src/serialize_json.rs:11-85`

`JsonTx` as a value of the serde data model. These types are private and only ever written and read by
`serde_json`. `usize` has 64 bits. -/

namespace BCash

/-- The UTF-8 bytes of a `String`. -/
def utf8 (s : String) : Bytes := s.toList.flatMap String.utf8EncodeChar

/-- The `String` with these UTF-8 bytes. -/
def ofUtf8 (b : Bytes) : Option String := String.fromUTF8? ⟨b.toArray⟩

/-- How `serde_json` stores values. -/
def Format.json : Format := ⟨true, true, false⟩

/-- The names of the variants of `Function`, byte_array.rs:10-24. -/
def Function.variants : List (String × Function) :=
  [("Plain", .plain), ("Sha1", .sha1), ("Ripemd160", .ripemd160), ("Sha256", .sha256),
   ("Hash256", .hash256), ("Hash160", .hash160), ("Num2Bin", .num2bin), ("EcdsaSign", .ecdsaSign),
   ("SchnorrSign", .schnorrSign), ("ToDataSig", .toDataSig), ("UnexpectedSplit", .unexpectedSplit),
   ("Reverse", .reverse)]

/-- The name of a variant. -/
def Function.name (f : Function) : String :=
  ((Function.variants.find? fun p => p.2 = f).map (·.1)).getD ""

/-- The variant with a name. -/
def Function.ofName (s : String) : Option Function :=
  (Function.variants.find? fun p => p.1 = s).map (·.2)

/-- A variant without data, stored as a map from its name to `null`. -/
def SVal.unitVariant : List (String × SVal) → JVal
  | [(k, .null)] => match Function.ofName k with
    | some f => .fn f
    | none => .other
  | _ => .other

mutual
/-- A value where a `JsonByteArray` is expected, as `JsonByteArray.deser` sees it. A variant without data
is its name, or a map from its name to `null`. -/
def SVal.toJVal : SVal → JVal
  | .null => .null
  | .num n => if 0 ≤ n ∧ n < 2 ^ 64 then .num n.toNat else .other
  | .str s => match (ofUtf8 s).bind Function.ofName with
    | some f => .fn f
    | none => .other
  | .seq vs => .arr (toJVals vs)
  | .map kvs => SVal.unitVariant kvs
  | .bool _ | .bytes _ | .other => .other

/-- The elements of an array. -/
def SVal.toJVals : List SVal → List JVal
  | [] => []
  | v :: vs => v.toJVal :: toJVals vs
end

mutual
/-- What is written for the value that `JsonByteArray.ser` gives. -/
def JVal.toSVal : JVal → SVal
  | .null => .null
  | .num n => .num n
  | .fn f => .str (utf8 f.name)
  | .arr items => .seq (toSVals items)
  | .other => .other

/-- The elements of an array. -/
def JVal.toSVals : List JVal → List SVal
  | [] => []
  | v :: vs => v.toSVal :: toSVals vs
end

theorem SVal.toJVals_eq (vs : List SVal) : toJVals vs = vs.map toJVal := by
  induction vs with
  | nil => rfl
  | cons v vs ih => rw [toJVals, ih]; rfl

theorem JVal.toSVals_eq (vs : List JVal) : toSVals vs = vs.map toSVal := by
  induction vs with
  | nil => rfl
  | cons v vs ih => rw [toSVals, ih]; rfl

namespace Serde
open Fields

/-- serde's impl for `usize`. -/
def usize : Serde Nat := int 0 (2 ^ 64 - 1) (fun n => (n : Int)) Int.toNat

/-- serde's impl for `String` and `Cow<str>`. -/
def str : Serde String where
  write _ s := some (.str (utf8 s))
  read _ v := match v with
    | .str b => match ofUtf8 b with
      | some s => .ok s
      | none => .err .invalidValue
    | _ => .err .invalidType

/-- serde's impl for pairs. -/
def pair {α β : Type} (s : Serde α) (t : Serde β) : Serde (α × β) where
  write f v := (s.write f v.1).bind fun a => (t.write f v.2).map fun b => .seq [a, b]
  read f v := match v with
    | .seq [a, b] => (s.read f a).bind fun x => (t.read f b).bind fun y => .ok (x, y)
    | .seq _ => .err .invalidLength
    | _ => .err .invalidType

/-- `Serialize`/`Deserialize for JsonByteArray`, serialize_json.rs:447-481. -/
def jsonByteArray : Serde JsonByteArray where
  write _ b := some b.ser.toSVal
  read _ v := match JsonByteArray.deser v.toJVal with
    | some b => .ok b
    | none => .err .unknownVariant

/-- derived for `JsonData`, serialize_json.rs:11-22: the lookup maps are skipped. -/
def jsonTables : Serde JsonTables :=
  (struct (field "data_b64" (vec str) (field "byte_arrays" (vec jsonByteArray)
    (field "strings" (vec str) nil)))).imap (fun (a, b, c, _) => ⟨a, b, c⟩)
    (fun t => (t.dataB64, t.byteArrays, t.strings, ()))

/-- The data of the variant `PushByteArray`, serialize_json.rs:44. -/
def jsonPush : Serde (Nat × Bool) :=
  (struct (field "array_idx" usize (field "is_minimal" bool nil))).imap (fun (a, b, _) => (a, b))
    (fun (a, b) => (a, b, ()))

/-- derived for `JsonOp`, serialize_json.rs:40-47: a map with one entry, the name of the variant. -/
def jsonOp : Serde JsonOp where
  write f v := match v with
    | .code b => (u8.write f b).map fun x => .map [("Code", x)]
    | .invalid b => (u8.write f b).map fun x => .map [("Invalid", x)]
    | .pushByteArray i m => (jsonPush.write f (i, m)).map fun x => .map [("PushByteArray", x)]
    | .pushBoolean b => (bool.write f b).map fun x => .map [("PushBoolean", x)]
    | .pushInteger i => (i32.write f i).map fun x => .map [("PushInteger", x)]
  read f v := match v with
    | .map [(k, x)] =>
      if k = "Code" then (u8.read f x).map .code
      else if k = "Invalid" then (u8.read f x).map .invalid
      else if k = "PushByteArray" then (jsonPush.read f x).map fun (i, m) => .pushByteArray i m
      else if k = "PushBoolean" then (bool.read f x).map .pushBoolean
      else if k = "PushInteger" then (i32.read f x).map .pushInteger
      else .err .unknownVariant
    | _ => .err .invalidType

/-- derived for `JsonTaggedOp`, serialize_json.rs:49-58. -/
def jsonTaggedOp : Serde JsonTaggedOp :=
  (struct (field "op" jsonOp (field "src_file" usize (field "src_line" u32 (field "src_column" u32
    (field "src_code" (vec (pair u32 usize)) (field "pushed_names" (option (vec (option usize)))
    (field "alt_pushed_names" (option (vec (option usize))) nil)))))))).imap
    (fun (a, b, c, d, e, g, h, _) => ⟨a, b, c, d, e, g, h⟩)
    (fun t => (t.op, t.srcFile, t.srcLine, t.srcColumn, t.srcCode, t.pushedNames, t.altPushedNames, ()))

/-- derived for `JsonInput`, serialize_json.rs:60-70. -/
def jsonInput : Serde JsonInput :=
  (struct (field "prev_out_hash" usize (field "prev_out_vout" u32 (field "script" (vec jsonTaggedOp)
    (field "sequence" u32 (field "lock_script" (option (vec jsonTaggedOp)) (field "value" (option u64)
    (field "is_p2sh" (option bool) (field "sig_hash_flags" (option (vec sigHashFlags)) nil))))))))).imap
    (fun (a, b, c, d, e, g, h, i, _) => ⟨a, b, c, d, e, g, h, i⟩)
    (fun j => (j.prevOutHash, j.prevOutVout, j.script, j.sequence, j.lockScript, j.value, j.isP2sh,
      j.sigHashFlags, ()))

/-- derived for `JsonOutput`, serialize_json.rs:72-76. -/
def jsonOutput : Serde JsonOutput :=
  (struct (field "value" u64 (field "script" (vec jsonTaggedOp) nil))).imap (fun (a, b, _) => ⟨a, b⟩)
    (fun o => (o.value, o.script, ()))

/-- derived for `JsonTx`, serialize_json.rs:78-85. -/
def jsonTx : Serde JsonTx :=
  (struct (field "data" jsonTables (field "version" i32 (field "inputs" (vec jsonInput)
    (field "outputs" (vec jsonOutput) (field "lock_time" u32 nil)))))).imap
    (fun (a, b, c, d, e, _) => ⟨a, b, c, d, e⟩)
    (fun t => (t.data, t.version, t.inputs, t.outputs, t.lockTime, ()))

end Serde
end BCash
