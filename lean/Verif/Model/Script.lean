import Verif.Model.Error
import Verif.Model.Opcode
import Verif.Model.ScriptNum

/-! # Script operations — `bitcoin-cash-base/src/op.rs`, `bitcoin-cash/src/script.rs`

`Op α` is parametric in the type of pushed arrays: `Op Bytes` (contents only) and `Op ByteArray`
(contents with provenance). `TaggedOp`'s debugging tags (source location, stack names) are erased:
`TaggedOp` equality compares the operation only (tagged_op.rs). -/

namespace BCash

/-- `enum Op`, op.rs:3-10. The `Integer` payload is given by its `i32` value. -/
inductive Op (α : Type) where
  | code (opcode : Opcode)
  | invalid (byte : UInt8)
  | pushByteArray (array : α) (isMinimal : Bool)
  | pushBoolean (boolean : Bool)
  | pushInteger (int : Int)
deriving DecidableEq, Repr

namespace Op

/-- Forgetting (or changing) the representation of pushed arrays. -/
def map {α β : Type} (f : α → β) : Op α → Op β
  | code c => code c
  | invalid b => invalid b
  | pushByteArray a m => pushByteArray (f a) m
  | pushBoolean b => pushBoolean b
  | pushInteger i => pushInteger i

/-- `PartialEq for Op`, op.rs:91-102: the minimality mark is not compared. -/
def beq : Op Bytes → Op Bytes → Bool
  | code c1, code c2 => c1 == c2
  | invalid b1, invalid b2 => b1 == b2
  | pushByteArray a1 _, pushByteArray a2 _ => a1 == a2
  | pushBoolean b1, pushBoolean b2 => b1 == b2
  | pushInteger i1, pushInteger i2 => i1 == i2
  | _, _ => false

/-- `Op::from_array`, op.rs:49-54. -/
def fromArray {α : Type} (a : α) : Op α := pushByteArray a true

end Op

/-- `enum PushPrefixTail`, script.rs:83-87. -/
inductive PushPrefixTail where
  | noTail
  | pushedData
deriving DecidableEq, Repr

/-- `serialize_push_prefix`, script.rs:89-132. Returns the bytes pushed to the (empty) output vector
and the tail; `none` is the error `PushTooLarge`. -/
def serializePushPrefix (bytes : Bytes) (isMinimal : Bool) : Option (Bytes × PushPrefixTail) :=
  let len := bytes.length
  if len = 0 ∧ isMinimal then some ([Opcode.OP_0.toByte], .noTail)
  else if len = 0 ∧ ¬ isMinimal then some ([Opcode.OP_PUSHDATA1.toByte, 0], .pushedData)
  else if len = 1 ∧ isMinimal then
    let value := bytes.getD 0 0
    if 0 < value.toNat ∧ value.toNat ≤ 16 then
      some ([Opcode.OP_1.toByte - 1 + value], .noTail)
    else if value = 0x81 then some ([Opcode.OP_1NEGATE.toByte], .noTail)
    else some ([1], .pushedData)
  else if len ≤ 0x4b then some ([UInt8.ofNat len], .pushedData)
  else if len ≤ 0xff then some ([Opcode.OP_PUSHDATA1.toByte, UInt8.ofNat len], .pushedData)
  else if len ≤ 0xffff then some (Opcode.OP_PUSHDATA2.toByte :: leBytes 2 len, .pushedData)
  else if len ≤ 0xffffffff then some (Opcode.OP_PUSHDATA4.toByte :: leBytes 4 len, .pushedData)
  else none

/-- `serialize_push_bytes`, script.rs:134-141 (contents). -/
def serializePushBytes (bytes : Bytes) (isMinimal : Bool) : Res Error Bytes :=
  match serializePushPrefix bytes isMinimal with
  | none => .err .pushTooLarge
  | some (vec, .noTail) => .ok vec
  | some (vec, .pushedData) => .ok (vec ++ bytes)

/-- `serialize_op`, script.rs:143-172 (contents). `unreachable!` is a panic. -/
def serializeOp : Op Bytes → Res Error Bytes
  | .code opcode => .ok [opcode.toByte]
  | .invalid b => .ok [b]
  | .pushBoolean b => .ok [if b then Opcode.OP_1.toByte else Opcode.OP_0.toByte]
  | .pushInteger int =>
    if int = -1 then .ok [Opcode.OP_1NEGATE.toByte]
    else if int = 0 then .ok [Opcode.OP_0.toByte]
    else if 1 ≤ int ∧ int ≤ 16 then
      match Opcode.ofByte (Opcode.OP_1.toByte + UInt8.ofNat int.toNat - 1) with
      | some opcode => .ok [opcode.toByte]
      | none => .panic
    else
      match encodeInt int with
      | .ok bs => serializePushBytes bs true
      | _ => .panic
  | .pushByteArray array isMinimal => serializePushBytes array isMinimal

/-- `serialize_ops`, script.rs:174-180 (contents): the first failing operation's error, else the
concatenation. -/
def serializeOps : List (Op Bytes) → Res Error Bytes
  | [] => .ok []
  | op :: ops => (serializeOp op).bind fun b => (serializeOps ops).bind fun bs => .ok (b ++ bs)

/-- `Read::read_exact` on a cursor over a slice. -/
def readExact (n : Nat) (input : Bytes) : Res Error (Bytes × Bytes) :=
  if input.length < n then .err (.io .unexpectedEof) else .ok (input.take n, input.drop n)

/-- script.rs:217-226 (and 274-282): the tail of a loop iteration, building the push operation from
the pushed contents and the leading byte. -/
def mkPush (byte : UInt8) (pushed : Bytes) : Res Error (Op Bytes) :=
  match serializePushPrefix pushed true with
  | none => .err .pushTooLarge
  | some (pre, _) =>
    match pre with
    | [] => .panic
    | p0 :: _ => .ok (.pushByteArray pushed (p0 = byte))

/-- `push_len` and the unread input after it, script.rs:190-208, or `none` if the byte is not a
push (then `ops.push(..); continue`). -/
def pushLen (byte : UInt8) (rest : Bytes) : Option (Res Error (Nat × Bytes)) :=
  if byte = 0 then none
  else if byte.toNat ≤ 0x4b then some (.ok (byte.toNat, rest))
  else if byte = Opcode.OP_PUSHDATA1.toByte then some (.ofExcept .io (readLE 1 rest))
  else if byte = Opcode.OP_PUSHDATA2.toByte then some (.ofExcept .io (readLE 2 rest))
  else if byte = Opcode.OP_PUSHDATA4.toByte then some (.ofExcept .io (readLE 4 rest))
  else none

/-- script.rs:191-194 and 208-215: the operation denoted by a non-push byte. -/
def codeOrInvalid {α : Type} (byte : UInt8) : Op α :=
  if byte = 0 then .code .OP_0
  else match Opcode.ofByte byte with
    | some opcode => .code opcode
    | none => .invalid byte

/-- One iteration of the loop of `deserialize_ops`, script.rs:187-227; the cursor is the unread
suffix (`i` always equals the cursor position). -/
def deserializeOp (byte : UInt8) (rest : Bytes) : Res Error (Op Bytes × Bytes) :=
  match pushLen byte rest with
  | none => .ok (codeOrInvalid byte, rest)
  | some r => r.bind fun (len, rest) => (readExact len rest).bind fun (pushed, rest) =>
      (mkPush byte pushed).bind fun op => .ok (op, rest)

/-- The loop of `deserialize_ops` with explicit fuel (one unit per iteration; every iteration
consumes at least one byte, so `input.length` units are enough: `deserializeOps_cons`). -/
def deserializeOpsLoop : Nat → Bytes → Res Error (List (Op Bytes))
  | _, [] => .ok []
  | 0, _ :: _ => .panic
  | fuel + 1, byte :: rest =>
    (deserializeOp byte rest).bind fun (op, rest) =>
      (deserializeOpsLoop fuel rest).bind fun ops => .ok (op :: ops)

/-- `deserialize_ops`, script.rs:182-229. -/
def deserializeOps (bytes : Bytes) : Res Error (List (Op Bytes)) :=
  deserializeOpsLoop bytes.length bytes

/-! ## The provenance-preserving parser and serialiser -/

/-- `ByteArray::split` with the `?` conversion into `Error`. -/
def ByteArray.splitE (b : ByteArray) (n : Nat) : Res Error (ByteArray × ByteArray) :=
  .ofExcept .byteArray (b.split n)

/-- `x.as_ref().try_into().unwrap()` into `[u8; k]`, then `from_le_bytes`. -/
def fromLeBytes (k : Nat) (b : Bytes) : Res Error Nat :=
  if b.length = k then .ok (leVal b) else .panic

/-- One iteration of the loop of `deserialize_ops_byte_array`, script.rs:236-283. -/
def deserializeOpBA (input : ByteArray) : Res Error (Op ByteArray × ByteArray) :=
  (input.splitE 1).bind fun (head, remainder) =>
    match head.data with
    | [] => .panic
    | byte :: _ =>
      let push (pushLen : Nat) (remainder : ByteArray) : Res Error (Op ByteArray × ByteArray) :=
        (remainder.splitE pushLen).bind fun (pushed, remainder) =>
          match serializePushPrefix pushed.data true with
          | none => .err .pushTooLarge
          | some (pre, _) =>
            match pre with
            | [] => .panic
            | p0 :: _ => .ok (.pushByteArray pushed (p0 = byte), remainder)
      if byte = 0 then .ok (.code .OP_0, remainder)
      else if byte.toNat ≤ 0x4b then push byte.toNat remainder
      else if byte = Opcode.OP_PUSHDATA1.toByte then
        (remainder.splitE 1).bind fun (l, remainder) =>
          match l.data with
          | [] => .panic
          | b :: _ => push b.toNat remainder
      else if byte = Opcode.OP_PUSHDATA2.toByte then
        (remainder.splitE 2).bind fun (l, remainder) =>
          (fromLeBytes 2 l.data).bind fun n => push n remainder
      else if byte = Opcode.OP_PUSHDATA4.toByte then
        (remainder.splitE 4).bind fun (l, remainder) =>
          (fromLeBytes 4 l.data).bind fun n => push n remainder
      else .ok (codeOrInvalid byte, remainder)

/-- The loop of `deserialize_ops_byte_array` with fuel. -/
def deserializeOpsBALoop : Nat → ByteArray → Res Error (List (Op ByteArray))
  | fuel, input =>
    if input.len = 0 then .ok []
    else match fuel with
      | 0 => .panic
      | fuel + 1 =>
        (deserializeOpBA input).bind fun (op, rest) =>
          (deserializeOpsBALoop fuel rest).bind fun ops => .ok (op :: ops)

/-- `deserialize_ops_byte_array`, script.rs:231-285. -/
def deserializeOpsByteArray (input : ByteArray) : Res Error (List (Op ByteArray)) :=
  deserializeOpsBALoop input.len input

/-- `serialize_push_bytes`, script.rs:134-141 (with provenance). -/
def serializePushBytesBA (bytes : ByteArray) (isMinimal : Bool) : Res Error ByteArray :=
  match serializePushPrefix bytes.data isMinimal with
  | none => .err .pushTooLarge
  | some (vec, .noTail) => .ok (.newUnnamed vec)
  | some (vec, .pushedData) => .ok ((ByteArray.newUnnamed vec).concat bytes)

/-- `serialize_op`, script.rs:143-172 (with provenance). The display names of opcodes
(`IntoStaticStr`) are taken from the function `opName`. -/
def serializeOpBA (opName : Opcode → String) : Op ByteArray → Res Error ByteArray
  | .code opcode => .ok (.new (opName opcode) [opcode.toByte])
  | .invalid b => .ok (.new "Invalid Opcode" [b])
  | .pushBoolean b => .ok (.new (if b then "OP_TRUE" else "OP_FALSE")
      [if b then Opcode.OP_1.toByte else Opcode.OP_0.toByte])
  | .pushInteger int =>
    if int = -1 then .ok (.new (opName .OP_1NEGATE) [Opcode.OP_1NEGATE.toByte])
    else if int = 0 then .ok (.new (opName .OP_0) [Opcode.OP_0.toByte])
    else if 1 ≤ int ∧ int ≤ 16 then
      match Opcode.ofByte (Opcode.OP_1.toByte + UInt8.ofNat int.toNat - 1) with
      | some opcode => .ok (.new (opName opcode) [opcode.toByte])
      | none => .panic
    else
      match encodeInt int with
      | .ok bs => serializePushBytesBA (.newUnnamed bs) true
      | _ => .panic
  | .pushByteArray array isMinimal => serializePushBytesBA array isMinimal

/-- `.map(serialize_op).collect::<Result<Vec<_>, _>>()`, script.rs:176-178. -/
def serializeAllBA (opName : Opcode → String) : List (Op ByteArray) → Res Error (List ByteArray)
  | [] => .ok []
  | op :: ops => (serializeOpBA opName op).bind fun b =>
      (serializeAllBA opName ops).bind fun bs => .ok (b :: bs)

/-- `serialize_ops`, script.rs:174-180 (with provenance). -/
def serializeOpsBA (opName : Opcode → String) (ops : List (Op ByteArray)) : Res Error ByteArray :=
  (serializeAllBA opName ops).map ByteArray.fromParts

/-! ## Scripts -/

/-- `struct Script`, script.rs:9-12 (tags erased, contents of arrays). -/
abbrev Script := List (Op Bytes)

/-- `Script::ser_ops`, script.rs:288-290 (`expect` turns an error into a panic; `none` = panic). -/
def Script.serOps (s : Script) : Option Bytes :=
  match serializeOps s with
  | .ok bs => some bs
  | _ => none

/-- the index found by the loop of `to_script_code`, script.rs:43-57; `found` is
`n_codeseps_found`. -/
def codesepIdx (nCodesep : Nat) : Nat → Nat → List (Op Bytes) → Option Nat
  | _, _, [] => none
  | found, idx, op :: ops =>
    match op with
    | .code .OP_CODESEPARATOR =>
      if nCodesep = found then some idx else codesepIdx nCodesep (found + 1) (idx + 1) ops
    | _ => codesepIdx nCodesep found (idx + 1) ops

/-- `Script::to_script_code`, script.rs:41-62. -/
def Script.toScriptCode (s : Script) (nCodesep : Option Nat) : Res Empty Script :=
  match nCodesep with
  | none => .ok (s.drop 0)
  | some n =>
    match codesepIdx n 0 0 s with
    | none => .panic
    | some idx => .ok (s.drop idx)

/-- `Script::to_script_code_first`, script.rs:64-75. -/
def Script.toScriptCodeFirst (s : Script) : Script :=
  match s.findIdx? (fun op => op.beq (.code .OP_CODESEPARATOR)) with
  | some idx => s.drop (idx + 1)
  | none => s

end BCash
