import Verif.Model.Tx
import Verif.Model.Hash
import Verif.Model.Slp
import Verif.Model.TxBuilder

/-! # Storing values with serde — the `Serialize`/`Deserialize` implementations, hand-written and derived

`SVal` is serde's data model as a format stores it; turning it into text or bytes is the format's business
(`serde_json`, `bincode`, …; external). Strings are byte strings. -/

namespace BCash

/-- A value as a format stores it. `other` is any further value that every type here refuses to read (in
JSON: numbers that are not integers of the 64-bit types, strings with half of a surrogate pair, maps with
such a string for a key). -/
inductive SVal where
  | null
  | bool (b : Bool)
  | num (n : Int)
  | str (s : Bytes)
  | bytes (b : Bytes)
  | seq (vs : List SVal)
  | map (kvs : List (String × SVal))
  | other

/-- What matters about a format (external): whether it is human-readable (`is_human_readable`), whether it
stores structs with their field names (JSON) or as a sequence (bincode), and whether a byte string can be
read where a sequence of bytes was written (bincode: yes, both are a length and bytes; JSON, CBOR,
MessagePack: no). -/
structure Format where
  human : Bool
  structsAsMaps : Bool
  bytesFromSeq : Bool
deriving DecidableEq

/-- Errors of reading (kinds of `serde::de::Error`). -/
inductive SerdeError where
  | invalidType
  | invalidValue
  | invalidLength
  | missingField (name : String)
  | duplicateField (name : String)
  | unknownVariant
  | custom (e : Error)
  | integer (e : IntegerError)
deriving DecidableEq, Repr

/-- `Serialize` and `Deserialize` of a type. `write` is `none` where the code panics; `missing` is what a
derived `Deserialize` puts for an absent field of this type (`None` for options, otherwise an error). -/
structure Serde (α : Type) where
  write : Format → α → Option SVal
  read : Format → SVal → Res SerdeError α
  missing : Option α := none

/-- Reading the elements of a sequence. -/
def readAll {α : Type} (read : SVal → Res SerdeError α) : List SVal → Res SerdeError (List α)
  | [] => .ok []
  | v :: vs => (read v).bind fun x => (readAll read vs).bind fun xs => .ok (x :: xs)

namespace Serde
variable {α β σ : Type}

/-- serde's impls for the unsigned and signed machine integers. -/
def int (lo hi : Int) (toInt : α → Int) (ofInt : Int → α) : Serde α where
  write _ v := some (.num (toInt v))
  read _ v := match v with
    | .num n => if lo ≤ n ∧ n ≤ hi then .ok (ofInt n) else .err .invalidValue
    | _ => .err .invalidType

def u8 : Serde UInt8 := int 0 (2 ^ 8 - 1) (fun v => v.toNat) (fun n => UInt8.ofNat n.toNat)
def u32 : Serde UInt32 := int 0 (2 ^ 32 - 1) (fun v => v.toNat) (fun n => UInt32.ofNat n.toNat)
def u64 : Serde UInt64 := int 0 (2 ^ 64 - 1) (fun v => v.toNat) (fun n => UInt64.ofNat n.toNat)
def i32 : Serde Int32 := int (-2 ^ 31) (2 ^ 31 - 1) Int32.toInt Int32.ofInt

/-- serde's impl for `bool`. -/
def bool : Serde Bool where
  write _ v := some (.bool v)
  read _ v := match v with
    | .bool b => .ok b
    | _ => .err .invalidType

/-- serde's impl for `String`. -/
def string : Serde Bytes where
  write _ v := some (.str v)
  read _ v := match v with
    | .str s => .ok s
    | _ => .err .invalidType

/-- serde's impl for `Option<T>`. -/
def option (s : Serde α) : Serde (Option α) where
  write f v := match v with
    | none => some .null
    | some x => s.write f x
  read f v := match v with
    | .null => .ok none
    | v => (s.read f v).map some
  missing := some none

/-- serde's impl for `Vec<T>`. -/
def vec (s : Serde α) : Serde (List α) where
  write f v := (v.mapM (s.write f)).map .seq
  read f v := match v with
    | .seq vs => readAll (s.read f) vs
    | _ => .err .invalidType

/-- A newtype struct or another view of a type: `#[derive]` on `struct T(U)` stores the inner value. -/
def imap (s : Serde α) (pack : α → β) (unpack : β → α) : Serde β where
  write f v := s.write f (unpack v)
  read f v := (s.read f v).map pack

/-- `Serialize`/`Deserialize for ByteArray`, byte_array.rs:638-666. Reading in a binary format asks for a
borrowed byte string (`<&[u8]>::deserialize`), which also accepts a string. -/
def byteArray : Serde Bytes where
  write f v := if f.human then some (.str (hexEncode v)) else (vec u8).write f v
  read f v :=
    if f.human then
      match v with
      | .str s => match hexDecode s with
        | some d => .ok d
        | none => .err (.custom .fromHex)
      | _ => .err .invalidType
    else
      match v with
      | .bytes b => .ok b
      | .str s => .ok s
      | .seq _ => if f.bytesFromSeq then (vec u8).read f v else .err .invalidType
      | _ => .err .invalidType

/-- `Serialize`/`Deserialize for FixedByteArray`, byte_array.rs:711-756, for the hash types (little endian),
hash.rs:51-60: an array of `n` numbers in a binary format. -/
def hash (n : Nat) : Serde (Hash n) where
  write f v := if f.human then some (.str v.toJson) else (vec u8).write f v.1
  read f v :=
    if f.human then
      match v with
      | .str s => (Hash.fromJson n s).mapErr .custom
      | _ => .err .invalidType
    else
      match v with
      | .seq vs => (readAll (u8.read f) vs).bind fun d =>
          if h : d.length = n then .ok ⟨d, h⟩ else .err .invalidLength
      | _ => .err .invalidType

/-- `Serialize`/`Deserialize for Pubkey`, pubkey.rs:67-99. -/
def pubkey : Serde Pubkey where
  write f v := if f.human then some (.str v.toJson) else (vec u8).write f v.1
  read f v :=
    let check (d : Bytes) : Res SerdeError Pubkey :=
      if h : d.length = 33 then .ok ⟨d, h⟩ else .err .invalidLength
    if f.human then
      match v with
      | .str s => match hexDecode s with
        | some d => check d
        | none => .err (.custom .fromHex)
      | _ => .err .invalidType
    else ((vec u8).read f v).bind check

/-- `Serialize`/`Deserialize for Script`, script.rs:310-338: the consensus serialisation with its length. -/
def script : Serde Script where
  write f v := (Codec.script.ser v).bind fun data =>
    if f.human then some (.str (hexEncode data)) else (vec u8).write f data
  read f v :=
    (if f.human then
      match v with
      | .str s => match hexDecode s with
        | some d => .ok d
        | none => .err (.custom .fromHex)
      | _ => .err .invalidType
    else (vec u8).read f v).bind fun data => (Codec.script.deser data).mapErr .custom

/-- `Serialize`/`Deserialize for Integer`, integer.rs:417-434, by the `i32` inside. -/
def integer : Serde Int where
  write _ v := some (.num v)
  read f v := (i32.read f v).bind fun n => Res.ofExcept .integer (Integer.new n.toInt)

/-- `Serialize`/`Deserialize for UInteger`, integer.rs:436-453. -/
def uinteger : Serde Int where
  write _ v := some (.num v)
  read f v := (i32.read f v).bind fun n => Res.ofExcept .integer (UInteger.new n.toInt)

/-- serde's impl for `PhantomData<T>`: a unit struct. -/
def phantom : Serde Unit where
  write _ _ := some .null
  read _ v := match v with
    | .null => .ok ()
    | _ => .err .invalidType

/-- `#[derive]` on an enum without data, given its variants with their names: the name in a human-readable
format, the position in a binary one. -/
def unitEnum [DecidableEq α] (variants : List (Bytes × α)) : Serde α where
  write f v := (variants.findIdx? (fun p => p.2 = v)).bind fun i =>
    if f.human then (variants[i]?).map fun p => .str p.1 else some (.num i)
  read f v :=
    if f.human then
      match v with
      | .str s => match variants.find? (fun p => p.1 = s) with
        | some p => .ok p.2
        | none => .err .unknownVariant
      | _ => .err .invalidType
    else
      match v with
      | .num n => match (if 0 ≤ n then variants[n.toNat]? else none) with
        | some p => .ok p.2
        | none => .err .invalidValue
      | _ => .err .invalidType

/-! ## Derived structs -/

/-- The code derived for the fields of a struct: reading by name fills slots (`σ`, one option per field). -/
structure Fields (σ α : Type) where
  names : List String
  write : Format → α → Option (List SVal)
  readSeq : Format → List SVal → Res SerdeError (α × List SVal)
  empty : σ
  /-- an entry of a map; `none` for a name that is not a field (ignored) -/
  set : Format → String → SVal → σ → Option (Res SerdeError σ)
  finish : σ → Res SerdeError α

/-- No more fields. -/
def Fields.nil : Fields Unit Unit where
  names := []
  write _ _ := some []
  readSeq _ vs := .ok ((), vs)
  empty := ()
  set _ _ _ _ := none
  finish _ := .ok ()

/-- A field stored under a name, and the following ones. -/
def Fields.field (name : String) (s : Serde α) (fs : Fields σ β) :
    Fields (Option α × σ) (α × β) where
  names := name :: fs.names
  write f v := (s.write f v.1).bind fun x => (fs.write f v.2).map fun xs => x :: xs
  readSeq f vs := match vs with
    | [] => .err .invalidLength
    | v :: vs => (s.read f v).bind fun x => (fs.readSeq f vs).bind fun (y, vs) => .ok ((x, y), vs)
  empty := (none, fs.empty)
  set f k v slots :=
    if k = name then
      some (match slots.1 with
        | some _ => .err (.duplicateField name)
        | none => (s.read f v).map fun x => (some x, slots.2))
    else (fs.set f k v slots.2).map fun r => r.map fun t => (slots.1, t)
  finish slots :=
    (match slots.1 with
      | some x => Res.ok x
      | none => match s.missing with
        | some x => Res.ok x
        | none => Res.err (SerdeError.missingField name) : Res SerdeError α).bind fun x =>
    (fs.finish slots.2).bind fun y => .ok (x, y)

/-- The loop over the entries of a map. -/
def Fields.readMap (fs : Fields σ α) (f : Format) : List (String × SVal) → σ → Res SerdeError σ
  | [], slots => .ok slots
  | (k, v) :: kvs, slots =>
    match fs.set f k v slots with
    | none => readMap fs f kvs slots
    | some r => r.bind fun slots => readMap fs f kvs slots

/-- `#[derive(Serialize, Deserialize)]` on a struct. -/
def struct (fs : Fields σ α) : Serde α where
  write f v := (fs.write f v).map fun vs => if f.structsAsMaps then .map (fs.names.zip vs) else .seq vs
  read f v := match v with
    | .map kvs => (fs.readMap f kvs fs.empty).bind fs.finish
    | .seq vs => (fs.readSeq f vs).bind fun (x, rest) =>
        if rest.isEmpty then .ok x else .err .invalidLength
    | _ => .err .invalidType

open Fields

/-- derived for `SigHashFlags` by `bitflags!`, tx_preimage.rs:8-19: a struct with the bits. -/
def sigHashFlags : Serde SigHashFlags :=
  (struct (field "bits" u32 nil)).imap (fun (b, _) => b) (fun b => (b, ()))

/-- derived for `TxOutpoint`, tx.rs:12-17. -/
def txOutpoint : Serde TxOutpoint :=
  (struct (field "txHash" (hash 32) (field "vout" u32 nil))).imap (fun (h, v, _) => ⟨h, v⟩)
    (fun o => (o.txHash, o.vout, ()))

/-- derived for `TxInput`, tx.rs:20-38. -/
def txInput : Serde TxInput :=
  (struct (field "prevOut" txOutpoint (field "script" script (field "sequence" u32
    (field "lockScript" (option script) (field "value" (option u64) (field "isP2sh" (option bool)
    (field "sigHashFlags" (option (vec sigHashFlags)) nil)))))))).imap
    (fun (p, s, q, l, v, i, g, _) => ⟨p, s, q, l, v, i, g⟩)
    (fun i => (i.prevOut, i.script, i.sequence, i.lockScript, i.value, i.isP2sh, i.sigHashFlags, ()))

/-- derived for `TxOutput`, tx.rs:41-45. -/
def txOutput : Serde TxOutput :=
  (struct (field "value" u64 (field "script" script nil))).imap (fun (v, s, _) => ⟨v, s⟩)
    (fun o => (o.value, o.script, ()))

/-- derived for `UnhashedTx`, tx.rs:48-55. -/
def unhashedTx : Serde UnhashedTx :=
  (struct (field "version" i32 (field "inputs" (vec txInput) (field "outputs" (vec txOutput)
    (field "lockTime" u32 nil))))).imap (fun (v, i, o, l, _) => ⟨v, i, o, l⟩)
    (fun t => (t.version, t.inputs, t.outputs, t.lockTime, ()))

/-- derived for `Tx`, tx.rs:58-68. -/
def tx : Serde Tx :=
  (struct (field "unhashedTx" unhashedTx (field "hash" (hash 32) (field "raw" byteArray nil)))).imap
    (fun (u, h, r, _) => ⟨u, h, r⟩) (fun t => (t.unhashedTx, t.hash, t.raw, ()))

/-- derived for `UnsignedTxInput`, tx_builder.rs:14-20. -/
def unsignedTxInput : Serde UnsignedTxInput :=
  (struct (field "prevOut" txOutpoint (field "sequence" u32 (field "value" u64 nil)))).imap
    (fun (p, s, v, _) => ⟨p, s, v⟩) (fun i => (i.prevOut, i.sequence, i.value, ()))

/-- derived for `InputReference`, tx_builder.rs:56-60; `usize` has 64 bits. -/
def inputReference : Serde UInt64 :=
  (struct (field "phantom" phantom (field "input_idx" u64 nil))).imap (fun (_, i, _) => i)
    (fun i => ((), i, ()))

end Serde

/-! ## SLP -/

/-- `enum SlpAction`, slp lib.rs:58-72. -/
inductive SlpAction where
  | nonSlp | nonSlpBurn | slpParseError | slpUnsupportedVersion | slpV1Genesis | slpV1Mint | slpV1Send
  | slpNft1GroupGenesis | slpNft1GroupMint | slpNft1GroupSend | slpNft1UniqueChildGenesis
  | slpNft1UniqueChildSend
deriving DecidableEq, Repr

/-- `struct SlpToken`, slp lib.rs:51-56. -/
structure SlpToken where
  amount : UInt64
  isMintBaton : Bool
  action : SlpAction
deriving DecidableEq

/-- `struct SlpData`, slp lib.rs:32-35. -/
structure SlpData where
  tokenId : TokenId
deriving DecidableEq

/-- `struct SlpTxInput`, slp lib.rs:37-43. -/
structure SlpTxInput where
  index : UInt64
  token : SlpToken
  input : TxInput
  prevScript : Script
deriving DecidableEq

/-- `struct SlpTxOutput`, slp lib.rs:45-49. -/
structure SlpTxOutput where
  token : SlpToken
  output : TxOutput
deriving DecidableEq

/-- `struct SlpTx`, slp lib.rs:22-30. -/
structure SlpTx where
  version : Int32
  inputs : List SlpTxInput
  outputs : List SlpTxOutput
  lockTime : UInt32
  slpData : Option SlpData
  txHash : Hash256
deriving DecidableEq

/-- `SlpTx::into_unhashed_tx`, slp lib.rs:226-235. -/
def SlpTx.intoUnhashedTx (t : SlpTx) : UnhashedTx :=
  ⟨t.version, t.inputs.map (·.input), t.outputs.map (·.output), t.lockTime⟩

/-- `struct SlpUtxo`, slp lib.rs:74-79. -/
structure SlpUtxo where
  input : UnsignedTxInput
  slpToken : SlpToken
  slpData : Option SlpData

/-- `struct TokenMeta`, slp lib.rs:81-89. -/
structure TokenMeta where
  ticker : Bytes
  name : Bytes
  documentUrl : Bytes
  documentHash : Bytes
  decimals : UInt8
  slpTokenType : SlpTokenType
deriving DecidableEq

namespace Serde
open Fields

/-- The UTF-8 bytes of a name. -/
def text (s : String) : Bytes := s.toList.map fun c => UInt8.ofNat c.toNat

/-- derived for `SlpAction`, slp lib.rs:58-72. -/
def slpAction : Serde SlpAction := unitEnum
  [(text "NonSlp", .nonSlp), (text "NonSlpBurn", .nonSlpBurn), (text "SlpParseError", .slpParseError),
   (text "SlpUnsupportedVersion", .slpUnsupportedVersion), (text "SlpV1Genesis", .slpV1Genesis),
   (text "SlpV1Mint", .slpV1Mint), (text "SlpV1Send", .slpV1Send),
   (text "SlpNft1GroupGenesis", .slpNft1GroupGenesis), (text "SlpNft1GroupMint", .slpNft1GroupMint),
   (text "SlpNft1GroupSend", .slpNft1GroupSend),
   (text "SlpNft1UniqueChildGenesis", .slpNft1UniqueChildGenesis),
   (text "SlpNft1UniqueChildSend", .slpNft1UniqueChildSend)]

/-- derived for `SlpTokenType`, slp lib.rs:7-12. -/
def slpTokenType : Serde SlpTokenType := unitEnum
  [(text "Fungible", .fungible), (text "Nft1Child", .nft1Child), (text "Nft1Group", .nft1Group)]

/-- derived for `TokenId`, slp lib.rs:4-5: a newtype struct. -/
def tokenId : Serde TokenId := hash 32

/-- derived for `SlpToken`, slp lib.rs:51-56. -/
def slpToken : Serde SlpToken :=
  (struct (field "amount" u64 (field "is_mint_baton" bool (field "action" slpAction nil)))).imap
    (fun (a, b, c, _) => ⟨a, b, c⟩) (fun t => (t.amount, t.isMintBaton, t.action, ()))

/-- derived for `SlpData`, slp lib.rs:32-35. -/
def slpData : Serde SlpData :=
  (struct (field "token_id" tokenId nil)).imap (fun (i, _) => ⟨i⟩) (fun d => (d.tokenId, ()))

/-- derived for `SlpTxInput`, slp lib.rs:37-43; `usize` has 64 bits. -/
def slpTxInput : Serde SlpTxInput :=
  (struct (field "index" u64 (field "token" slpToken (field "input" txInput
    (field "prev_script" script nil))))).imap
    (fun (a, b, c, d, _) => ⟨a, b, c, d⟩) (fun i => (i.index, i.token, i.input, i.prevScript, ()))

/-- derived for `SlpTxOutput`, slp lib.rs:45-49. -/
def slpTxOutput : Serde SlpTxOutput :=
  (struct (field "token" slpToken (field "output" txOutput nil))).imap (fun (a, b, _) => ⟨a, b⟩)
    (fun o => (o.token, o.output, ()))

/-- derived for `SlpTx`, slp lib.rs:22-30. -/
def slpTx : Serde SlpTx :=
  (struct (field "version" i32 (field "inputs" (vec slpTxInput) (field "outputs" (vec slpTxOutput)
    (field "lock_time" u32 (field "slp_data" (option slpData) (field "tx_hash" (hash 32) nil))))))).imap
    (fun (a, b, c, d, e, g, _) => ⟨a, b, c, d, e, g⟩)
    (fun t => (t.version, t.inputs, t.outputs, t.lockTime, t.slpData, t.txHash, ()))

/-- derived for `SlpUtxo`, slp lib.rs:74-79. -/
def slpUtxo : Serde SlpUtxo :=
  (struct (field "input" unsignedTxInput (field "slp_token" slpToken
    (field "slp_data" (option slpData) nil)))).imap
    (fun (a, b, c, _) => ⟨a, b, c⟩) (fun u => (u.input, u.slpToken, u.slpData, ()))

/-- derived for `TokenMeta`, slp lib.rs:81-89. -/
def tokenMeta : Serde TokenMeta :=
  (struct (field "ticker" string (field "name" string (field "document_url" string
    (field "document_hash" (vec u8) (field "decimals" u8 (field "slp_token_type" slpTokenType nil))))))).imap
    (fun (a, b, c, d, e, g, _) => ⟨a, b, c, d, e, g⟩)
    (fun m => (m.ticker, m.name, m.documentUrl, m.documentHash, m.decimals, m.slpTokenType, ()))

end Serde
end BCash
