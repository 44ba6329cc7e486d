import Verif.Model.Tx

/-! # Consensus serialisation with provenance — `bitcoin-cash/src/bitcoin_code.rs`, `script.rs`, `hash.rs`,
`tx.rs`, `tx_preimage.rs`, `bitcoin-cash-code/src/lib.rs`

The same functions as in `Model/Codec.lean`, on arrays with names and provenance instead of their contents. -/

namespace BCash

/-- `trait BitcoinCode`, bitcoin_code.rs:9-11. `ser` is `none` where the code panics. -/
structure CodecP (α : Type) where
  ser : α → Option ByteArray
  deserRest : ByteArray → Res Error (α × ByteArray)

/-- `BitcoinCode::deser`, bitcoin_code.rs:12-18. -/
def CodecP.deser {α : Type} (c : CodecP α) (data : ByteArray) : Res Error α :=
  (c.deserRest data).bind fun (item, leftover) =>
    if leftover.data ≠ [] then .err (.byteArray (.leftoverBytes leftover.data)) else .ok item

/-- `read_size`, bitcoin_code.rs:21-27. The cursor position is the number of bytes read. -/
def readSizeP (data : ByteArray) : Res Error (Nat × ByteArray) :=
  (Res.ofExcept .io (readVarInt data.data)).bind fun (len, unread) =>
    (data.splitE (data.len - unread.length)).bind fun (_, rest) => .ok (len, rest)

/-- `FixedByteArray<[u8; n]>`, byte_array.rs:49-53: an array of `n` bytes. -/
abbrev FixedP (n : Nat) := { b : ByteArray // b.data.length = n }

/-- `FixedByteArray::from_byte_array`, byte_array.rs:541-553. -/
def FixedP.fromByteArray (n : Nat) (b : ByteArray) : Res Error (FixedP n) :=
  if h : b.data.length = n then .ok ⟨b, h⟩ else .err (.byteArray (.invalidSlice n b.data.length))

/-- `struct Script`, script.rs:9-12, with provenance (tags erased). -/
abbrev ScriptP := List (Op ByteArray)

namespace CodecP

/-- `BitcoinCode for ByteArray`, bitcoin_code.rs:29-39. -/
def bytes : CodecP ByteArray where
  ser v := some ((ByteArray.new "size" (encodeVarInt (UInt64.ofNat v.len))).concat v)
  deserRest data := (readSizeP data).bind fun (len, rest) => rest.splitE len

/-- `BitcoinCode for FixedByteArray`, bitcoin_code.rs:41-56, and for the hash types, hash.rs:279-333. -/
def fixed (n : Nat) : CodecP (FixedP n) where
  ser v := some v.1
  deserRest data := (data.splitE n).bind fun (left, right) =>
    (FixedP.fromByteArray n left).bind fun f => .ok (f, right)

/-- `self.iter().map(|item| item.ser())`, bitcoin_code.rs:60. -/
def serMany {α : Type} (c : CodecP α) : List α → Option (List ByteArray)
  | [] => some []
  | v :: vs => (c.ser v).bind fun b => (serMany c vs).bind fun bs => some (b :: bs)

/-- The loop of `Vec::deser_rest`, bitcoin_code.rs:68-72. -/
def deserMany {α : Type} (c : CodecP α) : Nat → ByteArray → Res Error (List α × ByteArray)
  | 0, data => .ok ([], data)
  | n + 1, data => (c.deserRest data).bind fun (item, rest) =>
      (deserMany c n rest).bind fun (items, rest) => .ok (item :: items, rest)

/-- `BitcoinCode for Vec<T>`, bitcoin_code.rs:58-75 (`elemSize` is `size_of::<T>()`). -/
def vec {α : Type} (elemSize : Nat) (c : CodecP α) : CodecP (List α) where
  ser v := (serMany c v).bind fun parts =>
    some ((ByteArray.new "size" (encodeVarInt (UInt64.ofNat v.length))).concat (.fromParts parts))
  deserRest data := (readSizeP data).bind fun (len, rest) =>
    if len * elemSize > isizeMax then .panic else deserMany c len rest

/-- `BitcoinCode for bool`, bitcoin_code.rs:77-86. -/
def bool : CodecP Bool where
  ser b := some (.newUnnamed [if b then 1 else 0])
  deserRest data := (data.splitE 1).bind fun (left, right) =>
    match left.data with
    | [] => .panic
    | b :: _ => .ok (b ≠ 0, right)

/-- `array_impls!`, bitcoin_code.rs:88-111. -/
def int (k : Nat) : CodecP (BitVec (8 * k)) where
  ser v := some (.newUnnamed (leBytes k v.toNat))
  deserRest data := (data.splitE k).bind fun (left, right) =>
    if left.data.length ≠ k then .panic else .ok (BitVec.ofNat (8 * k) (leVal left.data), right)

/-- `BitcoinCode for Script`, script.rs:298-308. -/
def script (opName : Opcode → String) : CodecP ScriptP where
  ser s := match serializeOpsBA opName s with
    | .ok b => bytes.ser b
    | _ => none
  deserRest data := (bytes.deserRest data).bind fun (code, rest) =>
    (deserializeOpsByteArray code).bind fun ops => .ok (ops, rest)

/-! ## Derived structs, bitcoin-cash-code/src/lib.rs:95-167 -/

/-- The code generated for the fields of a struct: the parts pushed by `ser`, and the `let`s of
`deser_rest`. -/
structure Fields (α : Type) where
  sers : α → Option (List ByteArray)
  deserRest : ByteArray → Res Error (α × ByteArray)

/-- No (more) fields. -/
def Fields.nil : Fields Unit where
  sers _ := some []
  deserRest data := .ok ((), data)

/-- A serialised field, lib.rs:133-139: `parts.push(self.name.ser().named("name"))` and
`let (name, data) = T::deser_rest(data)?`. -/
def Fields.field {α β : Type} (name : String) (c : CodecP α) (fs : Fields β) : Fields (α × β) where
  sers v := (c.ser v.1).bind fun b => (fs.sers v.2).bind fun bs => some (b.named name :: bs)
  deserRest data := (c.deserRest data).bind fun (x, data) =>
    (fs.deserRest data).bind fun (y, data) => .ok ((x, y), data)

/-- A skipped field, lib.rs:140-144: `let name = Default::default()`. -/
def Fields.skip {α β : Type} (default : α) (fs : Fields β) : Fields (α × β) where
  sers v := fs.sers v.2
  deserRest data := (fs.deserRest data).bind fun (y, data) => .ok ((default, y), data)

/-- The generated implementation, lib.rs:149-164: `ByteArray::from_parts(parts)`, and the fields packed in
the struct. -/
def struct {α : Type} (fs : Fields α) : CodecP α where
  ser v := (fs.sers v).map ByteArray.fromParts
  deserRest := fs.deserRest

/-- The field list as a struct: `pack` is the struct literal, `unpack` the field accesses. -/
def imap {α β : Type} (c : CodecP α) (pack : α → β) (unpack : β → α) : CodecP β where
  ser v := c.ser (unpack v)
  deserRest data := (c.deserRest data).bind fun (x, data) => .ok (pack x, data)

/-- `u32`. -/
def u32 : CodecP UInt32 := (int 4).imap UInt32.ofBitVec UInt32.toBitVec
/-- `i32`. -/
def i32 : CodecP Int32 := u32.imap Int32.ofUInt32 Int32.toUInt32
/-- `u64`. -/
def u64 : CodecP UInt64 := (int 8).imap UInt64.ofBitVec UInt64.toBitVec

end CodecP

/-! ## Transactions -/

/-- `struct TxOutpoint`, tx.rs:14-17. -/
structure TxOutpointP where
  txHash : FixedP 32
  vout : UInt32

/-- `struct TxInput`, tx.rs:22-38. -/
structure TxInputP where
  prevOut : TxOutpointP
  script : ScriptP
  sequence : UInt32
  lockScript : Option ScriptP
  value : Option UInt64
  isP2sh : Option Bool
  sigHashFlags : Option (List SigHashFlags)

/-- `struct TxOutput`, tx.rs:42-45. -/
structure TxOutputP where
  value : UInt64
  script : ScriptP

/-- `struct UnhashedTx`, tx.rs:50-55. -/
structure UnhashedTxP where
  version : Int32
  inputs : List TxInputP
  outputs : List TxOutputP
  lockTime : UInt32

/-- `struct TxPreimage`, tx_preimage.rs:23-34. -/
structure TxPreimageP where
  version : Int32
  hashPrevouts : FixedP 32
  hashSequence : FixedP 32
  outpoint : TxOutpointP
  scriptCode : ScriptP
  value : UInt64
  sequence : UInt32
  hashOutputs : FixedP 32
  lockTime : UInt32
  sigHashType : UInt32

/-- `struct Tx`, tx.rs:57-68. -/
structure TxP where
  unhashedTx : UnhashedTxP
  hash : FixedP 32
  raw : ByteArray

namespace CodecP
open Fields

/-- derived for `TxOutpoint`, tx.rs:11-17. -/
def txOutpoint : CodecP TxOutpointP :=
  (struct (field "tx_hash" (fixed 32) (field "vout" u32 nil))).imap
    (fun (h, v, _) => ⟨h, v⟩) (fun o => (o.txHash, o.vout, ()))

/-- derived for `TxInput`, tx.rs:19-38. -/
def txInput (opName : Opcode → String) : CodecP TxInputP :=
  (struct (field "prev_out" txOutpoint (field "script" (script opName) (field "sequence" u32
    (skip none (skip none (skip none (skip none nil)))))))).imap
    (fun (p, s, q, l, v, i, f, _) => ⟨p, s, q, l, v, i, f⟩)
    (fun i => (i.prevOut, i.script, i.sequence, i.lockScript, i.value, i.isP2sh, i.sigHashFlags, ()))

/-- derived for `TxOutput`, tx.rs:40-45. -/
def txOutput (opName : Opcode → String) : CodecP TxOutputP :=
  (struct (field "value" u64 (field "script" (script opName) nil))).imap
    (fun (v, s, _) => ⟨v, s⟩) (fun o => (o.value, o.script, ()))

/-- derived for `UnhashedTx`, tx.rs:47-55. -/
def unhashedTx (opName : Opcode → String) (sz : Layout) : CodecP UnhashedTxP :=
  (struct (field "version" i32 (field "inputs" (vec sz.txInput (txInput opName))
    (field "outputs" (vec sz.txOutput (txOutput opName)) (field "lock_time" u32 nil))))).imap
    (fun (v, i, o, l, _) => ⟨v, i, o, l⟩) (fun t => (t.version, t.inputs, t.outputs, t.lockTime, ()))

/-- derived for `TxPreimage`, tx_preimage.rs:21-34. -/
def txPreimage (opName : Opcode → String) : CodecP TxPreimageP :=
  (struct (field "version" i32 (field "hash_prevouts" (fixed 32) (field "hash_sequence" (fixed 32)
    (field "outpoint" txOutpoint (field "script_code" (script opName) (field "value" u64
    (field "sequence" u32 (field "hash_outputs" (fixed 32) (field "lock_time" u32
    (field "sig_hash_type" u32 nil))))))))))).imap
    (fun (a, b, c, d, e, f, g, h, i, j, _) => ⟨a, b, c, d, e, f, g, h, i, j⟩)
    (fun p => (p.version, p.hashPrevouts, p.hashSequence, p.outpoint, p.scriptCode, p.value,
      p.sequence, p.hashOutputs, p.lockTime, p.sigHashType, ()))

/-- `impl Default for UnhashedTx`, tx.rs:141-150, and `Sha256d::default()`. -/
def txDefaults : UnhashedTxP × FixedP 32 :=
  (⟨1, [], [], 0⟩, ⟨.newUnnamed (List.replicate 32 0), by simp [ByteArray.newUnnamed, ByteArray.data]⟩)

/-- derived for `Tx`, tx.rs:57-68. -/
def tx : CodecP TxP :=
  (struct (skip txDefaults.1 (skip txDefaults.2 (field "raw" bytes nil)))).imap
    (fun (u, h, r, _) => ⟨u, h, r⟩) (fun t => (t.unhashedTx, t.hash, t.raw, ()))

end CodecP
end BCash
