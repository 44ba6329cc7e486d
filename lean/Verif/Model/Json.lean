import Verif.Model.Tx

/-! # JSON export and import of transactions — `bitcoin-cash/src/serialize_json.rs`

Here scripts carry their full debugging information (source locations, names, provenance of pushed
arrays). The text layer (`serde_json`, derived `Serialize`/`Deserialize`) is in `Model/JsonSerde` and
`Model/JsonText`: here a document is the value of the Rust type `JsonTx`, with the hand-written
(de)serialisation of `JsonByteArray` as a JSON value. `base64::encode`/`decode` are parameters. -/

namespace BCash

/-- `struct TaggedOp`, tagged_op.rs:5-13. -/
structure TaggedOp where
  op : Op ByteArray
  srcFile : String
  srcLine : UInt32
  srcColumn : UInt32
  srcCode : List (UInt32 × String)
  pushedNames : Option (List (Option String))
  altPushedNames : Option (List (Option String))

/-- `Sha256d` with provenance, hash.rs:57-58 (`FixedByteArray` checks the length). -/
abbrev RichHash := { b : ByteArray // b.data.length = 32 }

/-- `struct TxInput`, tx.rs:22-38, with debugging information. -/
structure RichInput where
  prevHash : RichHash
  prevVout : UInt32
  script : List TaggedOp
  sequence : UInt32
  lockScript : Option (List TaggedOp)
  value : Option UInt64
  isP2sh : Option Bool
  sigHashFlags : Option (List SigHashFlags)

/-- `struct TxOutput`, tx.rs:42-45, with debugging information. -/
structure RichOutput where
  value : UInt64
  script : List TaggedOp

/-- `struct UnhashedTx`, tx.rs:50-55, with debugging information. -/
structure RichTx where
  version : Int32
  inputs : List RichInput
  outputs : List RichOutput
  lockTime : UInt32

/-! ## The document -/

/-- `struct JsonByteArray`, serialize_json.rs:24-29. -/
structure JsonByteArray where
  dataIdx : Nat
  function : Function
  nameIdx : Option Nat
  preimageIndices : Option (List Nat)
deriving DecidableEq

/-- The JSON values relevant to `JsonByteArray` (a `Function` is a string; `other` is any other JSON
value). -/
inductive JVal where
  | null
  | num (n : Nat)
  | fn (f : Function)
  | arr (items : List JVal)
  | other

/-- `Serialize for JsonByteArray`, serialize_json.rs:458-481 (a `None` is `null`, a tuple is an
array). -/
def JsonByteArray.ser (b : JsonByteArray) : JVal :=
  match b.function, b.nameIdx, b.preimageIndices with
  | _, some nameIdx, some idxs =>
    .arr [.num b.dataIdx, .fn b.function, .num nameIdx, .arr (idxs.map .num)]
  | _, none, some idxs => .arr [.num b.dataIdx, .fn b.function, .null, .arr (idxs.map .num)]
  | _, some nameIdx, none => .arr [.num b.dataIdx, .fn b.function, .num nameIdx]
  | .plain, none, none => .num b.dataIdx
  | _, none, none => .arr [.num b.dataIdx, .fn b.function]

/-- `usize`. -/
def JVal.num? : JVal → Option Nat
  | .num n => some n
  | _ => none

/-- `Function`. -/
def JVal.fn? : JVal → Option Function
  | .fn f => some f
  | _ => none

/-- `Option<usize>`. -/
def JVal.optNum? : JVal → Option (Option Nat)
  | .null => some none
  | .num n => some (some n)
  | _ => none

/-- `Option<Vec<usize>>`. -/
def JVal.optNums? : JVal → Option (Option (List Nat))
  | .null => some none
  | .arr items => (items.mapM JVal.num?).map some
  | _ => none

/-- `Deserialize for JsonByteArray`, serialize_json.rs:31-38, 415-456: the variants of the untagged
enumeration are tried in order; a tuple variant matches arrays of its length only. -/
def JsonByteArray.deser (v : JVal) : Option JsonByteArray :=
  match v with
  | .arr [a, b, c, d] =>
    a.num?.bind fun dataIdx => b.fn?.bind fun function => c.optNum?.bind fun nameIdx =>
      d.optNums?.bind fun idxs => some ⟨dataIdx, function, nameIdx, idxs⟩
  | .arr [a, b, c] =>
    a.num?.bind fun dataIdx => b.fn?.bind fun function => c.optNum?.bind fun nameIdx =>
      some ⟨dataIdx, function, nameIdx, none⟩
  | .arr [a, b] =>
    a.num?.bind fun dataIdx => b.fn?.bind fun function => some ⟨dataIdx, function, none, none⟩
  | .num dataIdx => some ⟨dataIdx, .plain, none, none⟩
  | _ => none

/-- `enum JsonOp`, serialize_json.rs:40-47. -/
inductive JsonOp where
  | code (code : UInt8)
  | invalid (code : UInt8)
  | pushByteArray (arrayIdx : Nat) (isMinimal : Bool)
  | pushBoolean (boolean : Bool)
  | pushInteger (int : Int32)

/-- `struct JsonTaggedOp`, serialize_json.rs:49-58. -/
structure JsonTaggedOp where
  op : JsonOp
  srcFile : Nat
  srcLine : UInt32
  srcColumn : UInt32
  srcCode : List (UInt32 × Nat)
  pushedNames : Option (List (Option Nat))
  altPushedNames : Option (List (Option Nat))

/-- `struct JsonInput`, serialize_json.rs:60-70. -/
structure JsonInput where
  prevOutHash : Nat
  prevOutVout : UInt32
  script : List JsonTaggedOp
  sequence : UInt32
  lockScript : Option (List JsonTaggedOp)
  value : Option UInt64
  isP2sh : Option Bool
  sigHashFlags : Option (List SigHashFlags)

/-- `struct JsonOutput`, serialize_json.rs:72-76. -/
structure JsonOutput where
  value : UInt64
  script : List JsonTaggedOp

/-- The serialised fields of `JsonData`, serialize_json.rs:11-15. -/
structure JsonTables where
  dataB64 : List String
  byteArrays : List JsonByteArray
  strings : List String

/-- `struct JsonTx`, serialize_json.rs:78-85. -/
structure JsonTx where
  data : JsonTables
  version : Int32
  inputs : List JsonInput
  outputs : List JsonOutput
  lockTime : UInt32

/-- The document as written: the entries of `byte_arrays` are JSON values. -/
structure JsonDoc where
  dataB64 : List String
  byteArrays : List JVal
  strings : List String
  version : Int32
  inputs : List JsonInput
  outputs : List JsonOutput
  lockTime : UInt32

/-! ## Export -/

/-- `BiMap<Arc<[u8]>, usize>` (bimap 0.5) as a list of pairs. -/
abbrev DataMap := List (Bytes × Nat)

/-- `BiMap::get_by_left`. -/
def DataMap.byLeft (m : DataMap) (d : Bytes) : Option Nat := (m.find? fun p => p.1 = d).map (·.2)
/-- `BiMap::get_by_right`. -/
def DataMap.byRight (m : DataMap) (i : Nat) : Option Bytes := (m.find? fun p => p.2 = i).map (·.1)
/-- `BiMap::insert`: pairs with the same left or the same right value are removed. -/
def DataMap.insert (m : DataMap) (d : Bytes) (i : Nat) : DataMap :=
  (d, i) :: m.filter fun p => p.1 ≠ d ∧ p.2 ≠ i

/-- `struct JsonData`, serialize_json.rs:11-22: the tables and the two lookup maps. -/
structure JsonData where
  tables : JsonTables
  stringIndices : String → Option Nat
  dataIndices : DataMap

/-- `JsonData::default()`. -/
def JsonData.empty : JsonData := ⟨⟨[], [], []⟩, fun _ => none, []⟩

/-- `iter().map(f).collect()` with a closure that mutates the state. -/
def mapState {σ α β : Type} (f : σ → α → σ × β) : σ → List α → σ × List β
  | s, [] => (s, [])
  | s, a :: as =>
    let (s, b) := f s a
    let (s, bs) := mapState f s as
    (s, b :: bs)

/-- `Option::map` with a closure that mutates the state. -/
def optState {σ α β : Type} (f : σ → α → σ × β) : σ → Option α → σ × Option β
  | s, none => (s, none)
  | s, some a =>
    let (s, b) := f s a
    (s, some b)

namespace JsonData

/-- `insert_string`, `insert_string_arc`, serialize_json.rs:384-406. -/
def insertString (data : JsonData) (s : String) : JsonData × Nat :=
  match data.stringIndices s with
  | some idx => (data, idx)
  | none =>
    let idx := data.tables.strings.length
    ({ data with
        tables := { data.tables with strings := data.tables.strings ++ [s] }
        stringIndices := fun t => if t = s then some idx else data.stringIndices t }, idx)

/-- `ensure_data`, serialize_json.rs:338-347. -/
def ensureData (b64 : Bytes → String) (data : JsonData) (d : Bytes) : JsonData × Nat :=
  match data.dataIndices.byLeft d with
  | some idx => (data, idx)
  | none =>
    let idx := data.tables.dataB64.length
    ({ data with
        tables := { data.tables with dataB64 := data.tables.dataB64 ++ [b64 d] }
        dataIndices := data.dataIndices.insert d idx }, idx)

/-- The end of `insert_byte_array`, serialize_json.rs:324-335. -/
def pushByteArray (b64 : Bytes → String) (data : JsonData) (d : Bytes) (name : Option String)
    (f : Function) (idxs : Option (List Nat)) : JsonData × Nat :=
  let (data, nameIdx) := optState insertString data name
  let (data, dataIdx) := ensureData b64 data d
  let idx := data.tables.byteArrays.length
  ({ data with tables := { data.tables with
      byteArrays := data.tables.byteArrays ++ [⟨dataIdx, f, nameIdx, idxs⟩] } }, idx)

mutual
/-- `insert_byte_array`, serialize_json.rs:317-336. -/
def insertByteArray (b64 : Bytes → String) : JsonData → ByteArray → JsonData × Nat
  | data, .mk d name f none => data.pushByteArray b64 d name f none
  | data, .mk d name f (some ps) =>
    let (data, idxs) := insertMany b64 data ps
    data.pushByteArray b64 d name f (some idxs)

/-- The loop over the preimages, serialize_json.rs:318-323. -/
def insertMany (b64 : Bytes → String) : JsonData → List ByteArray → JsonData × List Nat
  | data, [] => (data, [])
  | data, p :: ps =>
    let (data, idx) := insertByteArray b64 data p
    let (data, idxs) := insertMany b64 data ps
    (data, idx :: idxs)
end

end JsonData

/-- `from_tagged_op`, the operation, serialize_json.rs:221-233. -/
def JsonOp.fromOp (b64 : Bytes → String) (data : JsonData) : Op ByteArray → JsonData × JsonOp
  | .code c => (data, .code c.toByte)
  | .invalid b => (data, .invalid b)
  | .pushBoolean b => (data, .pushBoolean b)
  | .pushInteger i => (data, .pushInteger (Int32.ofInt i))
  | .pushByteArray a m =>
    let (data, idx) := data.insertByteArray b64 a
    (data, .pushByteArray idx m)

/-- `from_tagged_op`, serialize_json.rs:220-257. -/
def JsonTaggedOp.fromTaggedOp (b64 : Bytes → String) (data : JsonData) (t : TaggedOp) :
    JsonData × JsonTaggedOp :=
  let (data, op) := JsonOp.fromOp b64 data t.op
  let (data, srcFile) := data.insertString t.srcFile
  let (data, srcCode) := mapState (fun data (p : UInt32 × String) =>
    let (data, idx) := JsonData.insertString data p.2
    (data, (p.1, idx))) data t.srcCode
  let (data, pushedNames) :=
    optState (mapState (optState JsonData.insertString)) data t.pushedNames
  let (data, altPushedNames) :=
    optState (mapState (optState JsonData.insertString)) data t.altPushedNames
  (data, ⟨op, srcFile, t.srcLine, t.srcColumn, srcCode, pushedNames, altPushedNames⟩)

/-- `make_ops`, serialize_json.rs:213-216. -/
def makeJsonOps (b64 : Bytes → String) : JsonData → List TaggedOp → JsonData × List JsonTaggedOp :=
  mapState (JsonTaggedOp.fromTaggedOp b64)

/-- One input of `from_tx`, serialize_json.rs:125-139. -/
def JsonInput.fromInput (b64 : Bytes → String) (data : JsonData) (i : RichInput) :
    JsonData × JsonInput :=
  let (data, hash) := data.insertByteArray b64 i.prevHash.1
  let (data, script) := makeJsonOps b64 data i.script
  let (data, lockScript) := optState (makeJsonOps b64) data i.lockScript
  (data, ⟨hash, i.prevVout, script, i.sequence, lockScript, i.value, i.isP2sh, i.sigHashFlags⟩)

/-- One output of `from_tx`, serialize_json.rs:143-146. -/
def JsonOutput.fromOutput (b64 : Bytes → String) (data : JsonData) (o : RichOutput) :
    JsonData × JsonOutput :=
  let (data, script) := makeJsonOps b64 data o.script
  (data, ⟨o.value, script⟩)

/-- `JsonTx::from_tx`, serialize_json.rs:116-150. -/
def JsonTx.fromTx (b64 : Bytes → String) (tx : RichTx) : JsonTx :=
  let (data, inputs) := mapState (JsonInput.fromInput b64) .empty tx.inputs
  let (data, outputs) := mapState (JsonOutput.fromOutput b64) data tx.outputs
  ⟨data.tables, tx.version, inputs, outputs, tx.lockTime⟩

/-- `tx_to_json`, serialize_json.rs:105-108, up to the text layer. -/
def txToJson (b64 : Bytes → String) (tx : RichTx) : JsonDoc :=
  let j := JsonTx.fromTx b64 tx
  ⟨j.data.dataB64, j.data.byteArrays.map JsonByteArray.ser, j.data.strings, j.version, j.inputs,
   j.outputs, j.lockTime⟩

/-! ## Import -/

/-- `enum JsonError`, serialize_json.rs:87-103, and errors of the text layer. -/
inductive JsonError where
  | decodeError
  | invalidDataIdx (idx : Nat)
  | invalidStringIdx (idx : Nat)
  | invalidHash
  | invalidInteger
  | serde
deriving DecidableEq, Repr

/-- A step of the import: it may mutate the map of decoded data; `none` = the allowed recursion
depth is exceeded (so `none` for every depth = the recursion does not end). -/
abbrev Imp (α : Type) := DataMap → Option (Res JsonError (DataMap × α))

namespace Imp
variable {α β : Type}

/-- a value. -/
def pure (a : α) : Imp α := fun m => some (.ok (m, a))
/-- an error. -/
def fail (e : JsonError) : Imp α := fun _ => some (.err e)
/-- a panic. -/
def panic : Imp α := fun _ => some .panic
/-- `?`. -/
def bind (x : Imp α) (f : α → Imp β) : Imp β := fun m =>
  (x m).bind fun r => match r with
    | .ok (m, a) => f a m
    | .err e => some (.err e)
    | .panic => some .panic

/-- `iter().map(f).collect::<Result<Vec<_>, _>>()`. -/
def mapM (f : α → Imp β) : List α → Imp (List β)
  | [] => pure []
  | a :: as => (f a).bind fun b => (mapM f as).bind fun bs => pure (b :: bs)

/-- `.map(f).map_or(Ok(None), |x| x.map(Some))`. -/
def optM (f : α → Imp β) : Option α → Imp (Option β)
  | none => pure none
  | some a => (f a).bind fun b => pure (some b)

end Imp

/-- `get_string`, serialize_json.rs:408-412. -/
def JsonTables.getString (t : JsonTables) (idx : Nat) : Imp String :=
  match t.strings[idx]? with
  | some s => .pure s
  | none => .fail (.invalidStringIdx idx)

/-- serialize_json.rs:361-371: the data of an entry, decoded and remembered at the first use. -/
def JsonTables.getData (unb64 : String → Option Bytes) (t : JsonTables) (dataIdx : Nat) : Imp Bytes :=
  fun m =>
    match m.byRight dataIdx with
    | some d => some (.ok (m, d))
    | none =>
      match t.dataB64[dataIdx]? with
      | none => some (.err (.invalidDataIdx dataIdx))
      | some s =>
        match unb64 s with
        | none => some (.err .decodeError)
        | some d => some (.ok (m.insert d dataIdx, d))

/-- `get_byte_array`, serialize_json.rs:349-382, with an explicit limit on the recursion depth. -/
def JsonTables.getByteArray (unb64 : String → Option Bytes) (t : JsonTables) :
    Nat → Nat → Imp ByteArray
  | 0, _ => fun _ => none
  | fuel + 1, idx =>
    match t.byteArrays[idx]? with
    | none => .panic
    | some json =>
      (Imp.optM (Imp.mapM (getByteArray unb64 t fuel)) json.preimageIndices).bind fun preimage =>
      (t.getData unb64 json.dataIdx).bind fun data =>
      (Imp.optM t.getString json.nameIdx).bind fun name =>
      .pure (.mk data name json.function preimage)

/-- `to_tagged_op`, the operation, serialize_json.rs:260-275. -/
def JsonTables.getOp (unb64 : String → Option Bytes) (t : JsonTables) (fuel : Nat) :
    JsonOp → Imp (Op ByteArray)
  | .code b =>
    match Opcode.ofByte b with
    | some o => .pure (.code o)
    | none => .pure (.invalid b)
  | .invalid b => .pure (.invalid b)
  | .pushBoolean b => .pure (.pushBoolean b)
  | .pushInteger i =>
    match Integer.new i.toInt with
    | .ok i => .pure (.pushInteger i)
    | .error _ => .fail .invalidInteger
  | .pushByteArray idx m => (t.getByteArray unb64 fuel idx).bind fun a => .pure (.pushByteArray a m)

/-- `to_tagged_op`, serialize_json.rs:259-313. -/
def JsonTables.getTaggedOp (unb64 : String → Option Bytes) (t : JsonTables) (fuel : Nat)
    (j : JsonTaggedOp) : Imp TaggedOp :=
  (t.getOp unb64 fuel j.op).bind fun op =>
  (t.getString j.srcFile).bind fun srcFile =>
  (Imp.mapM (fun (p : UInt32 × Nat) => (t.getString p.2).bind fun s => .pure (p.1, s)) j.srcCode).bind
    fun srcCode =>
  (Imp.optM (Imp.mapM (Imp.optM t.getString)) j.pushedNames).bind fun pushedNames =>
  (Imp.optM (Imp.mapM (Imp.optM t.getString)) j.altPushedNames).bind fun altPushedNames =>
  .pure ⟨op, srcFile, j.srcLine, j.srcColumn, srcCode, pushedNames, altPushedNames⟩

/-- `Sha256d::from_byte_array(..).map_err(|_| JsonError::InvalidHash)`, serialize_json.rs:168-169,
byte_array.rs:537-551. -/
def richHashOf (b : ByteArray) : Imp RichHash :=
  if h : b.data.length = 32 then .pure ⟨b, h⟩ else .fail .invalidHash

/-- One input of `make_tx`, serialize_json.rs:166-194. -/
def JsonTables.getInput (unb64 : String → Option Bytes) (t : JsonTables) (fuel : Nat)
    (j : JsonInput) : Imp RichInput :=
  (t.getByteArray unb64 fuel j.prevOutHash).bind fun b =>
  (richHashOf b).bind fun hash =>
  (Imp.mapM (t.getTaggedOp unb64 fuel) j.script).bind fun script =>
  (Imp.optM (Imp.mapM (t.getTaggedOp unb64 fuel)) j.lockScript).bind fun lockScript =>
  .pure ⟨hash, j.prevOutVout, script, j.sequence, lockScript, j.value, j.isP2sh, j.sigHashFlags⟩

/-- One output of `make_tx`, serialize_json.rs:198-207. -/
def JsonTables.getOutput (unb64 : String → Option Bytes) (t : JsonTables) (fuel : Nat)
    (j : JsonOutput) : Imp RichOutput :=
  (Imp.mapM (t.getTaggedOp unb64 fuel) j.script).bind fun script => .pure ⟨j.value, script⟩

/-- `make_tx`, serialize_json.rs:152-211 (the map of decoded data starts empty: `serde(skip)`). -/
def JsonTx.makeTx (unb64 : String → Option Bytes) (fuel : Nat) (j : JsonTx) :
    Option (Res JsonError RichTx) :=
  (((Imp.mapM (j.data.getInput unb64 fuel) j.inputs).bind fun inputs =>
    (Imp.mapM (j.data.getOutput unb64 fuel) j.outputs).bind fun outputs =>
    .pure (⟨j.version, inputs, outputs, j.lockTime⟩ : RichTx)) []).map (Res.map (·.2))

/-- `json_to_tx`, serialize_json.rs:110-113, up to the text layer. -/
def jsonToTx (unb64 : String → Option Bytes) (fuel : Nat) (d : JsonDoc) :
    Option (Res JsonError RichTx) :=
  match d.byteArrays.mapM JsonByteArray.deser with
  | none => some (.err .serde)
  | some byteArrays =>
    JsonTx.makeTx unb64 fuel
      ⟨⟨d.dataB64, byteArrays, d.strings⟩, d.version, d.inputs, d.outputs, d.lockTime⟩

end BCash
