import Verif.Props.Derive
import Verif.Proofs.CodecP

/-! # C95: the structs of the library

The declarations of tx.rs and tx_preimage.rs, given to the macro, get the implementations that all theorems about
transactions speak about. -/

namespace BCash
open Spec Macro Spec.Derive
open Derive (Field ItemStruct World Record derived)

/-- The values of the fields of the library's structs. -/
inductive Spec.LibVal where
  | u32 (x : UInt32)
  | i32 (x : Int32)
  | u64 (x : UInt64)
  | hash (x : FixedP 32)
  | script (x : ScriptP)
  | bytes (x : ByteArray)
  | outpoint (x : TxOutpointP)
  | inputs (x : List TxInputP)
  | outputs (x : List TxOutputP)
  | tx (x : UnhashedTxP)
  | optScript (x : Option ScriptP)
  | optU64 (x : Option UInt64)
  | optBool (x : Option Bool)
  | optFlags (x : Option (List SigHashFlags))

/-- A serialisation of one type as one of the values of all types. -/
def Spec.asLib {α : Type} (c : CodecP α) (inj : α → LibVal) (proj : LibVal → Option α) : CodecP LibVal where
  ser v := (proj v).bind c.ser
  deserRest data := (c.deserRest data).bind fun (x, rest) => .ok (inj x, rest)

/-- The library as the surroundings of its structs: the implementations of `BitcoinCode` (bitcoin_code.rs,
script.rs, hash.rs, and for structs and vectors of structs the ones in question), `Default`, and the crate, which is
known as `crate`. -/
def Spec.library (opName : Opcode → String) (sz : Layout) : World LibVal where
  code
    | "u32" => some (asLib .u32 .u32 fun | .u32 x => some x | _ => none)
    | "i32" => some (asLib .i32 .i32 fun | .i32 x => some x | _ => none)
    | "u64" => some (asLib .u64 .u64 fun | .u64 x => some x | _ => none)
    | "Sha256d" => some (asLib (.fixed 32) .hash fun | .hash x => some x | _ => none)
    | "Script" => some (asLib (.script opName) .script fun | .script x => some x | _ => none)
    | "ByteArray" => some (asLib .bytes .bytes fun | .bytes x => some x | _ => none)
    | "TxOutpoint" => some (asLib .txOutpoint .outpoint fun | .outpoint x => some x | _ => none)
    | "Vec<TxInput>" => some (asLib (.vec sz.txInput (.txInput opName)) .inputs
        fun | .inputs x => some x | _ => none)
    | "Vec<TxOutput>" => some (asLib (.vec sz.txOutput (.txOutput opName)) .outputs
        fun | .outputs x => some x | _ => none)
    | _ => none
  dflt
    | "Option<Script>" => some (.optScript none)
    | "Option<u64>" => some (.optU64 none)
    | "Option<bool>" => some (.optBool none)
    | "Option<Vec<SigHashFlags>>" => some (.optFlags none)
    | "UnhashedTx" => some (.tx ⟨1, [], [], 0⟩)
    | "Sha256d" => some (.hash ⟨.newUnnamed (List.replicate 32 0), by simp [ByteArray.newUnnamed, ByteArray.data]⟩)
    | _ => none
  inScope := true
  crates c := c = "crate"

/-- A struct of the library: `#[bitcoin_code(crate = "crate")]` and other attributes. -/
def Spec.libStruct (name : String) (others : List Attribute) (fields : List Field) : ItemStruct :=
  ⟨⟨⟨"bitcoin_code", []⟩, .list [.nested (.nameValue ⟨"crate", []⟩ (.str "crate"))]⟩ :: others, name, false,
    .named fields⟩

/-- `#[serde(rename_all = "camelCase")]` -/
def Spec.camelCase : Attribute :=
  ⟨⟨"serde", []⟩, .list [.nested (.nameValue ⟨"rename_all", []⟩ (.str "camelCase"))]⟩

/-- A field, and a field marked `#[bitcoin_code(skip)]`. -/
def Spec.fieldDecl (name ty : String) : Field := ⟨[], name, ty⟩
def Spec.skipDecl (name ty : String) : Field := ⟨[skipMark ⟨"bitcoin_code", []⟩], name, ty⟩

/-- tx.rs:11-17 -/
def Spec.txOutpointDecl : ItemStruct :=
  libStruct "TxOutpoint" [camelCase] [fieldDecl "tx_hash" "Sha256d", fieldDecl "vout" "u32"]
def Spec.outpointFields (o : TxOutpointP) : Record LibVal := [("tx_hash", .hash o.txHash), ("vout", .u32 o.vout)]

/-- tx.rs:19-38 -/
def Spec.txInputDecl : ItemStruct :=
  libStruct "TxInput" [camelCase] [fieldDecl "prev_out" "TxOutpoint", fieldDecl "script" "Script",
    fieldDecl "sequence" "u32", skipDecl "lock_script" "Option<Script>", skipDecl "value" "Option<u64>",
    skipDecl "is_p2sh" "Option<bool>", skipDecl "sig_hash_flags" "Option<Vec<SigHashFlags>>"]
def Spec.inputFields (i : TxInputP) : Record LibVal :=
  [("prev_out", .outpoint i.prevOut), ("script", .script i.script), ("sequence", .u32 i.sequence),
    ("lock_script", .optScript i.lockScript), ("value", .optU64 i.value), ("is_p2sh", .optBool i.isP2sh),
    ("sig_hash_flags", .optFlags i.sigHashFlags)]

/-- tx.rs:40-45 -/
def Spec.txOutputDecl : ItemStruct :=
  libStruct "TxOutput" [] [fieldDecl "value" "u64", fieldDecl "script" "Script"]
def Spec.outputFields (o : TxOutputP) : Record LibVal := [("value", .u64 o.value), ("script", .script o.script)]

/-- tx.rs:47-55 -/
def Spec.unhashedTxDecl : ItemStruct :=
  libStruct "UnhashedTx" [camelCase] [fieldDecl "version" "i32", fieldDecl "inputs" "Vec<TxInput>",
    fieldDecl "outputs" "Vec<TxOutput>", fieldDecl "lock_time" "u32"]
def Spec.unhashedFields (t : UnhashedTxP) : Record LibVal :=
  [("version", .i32 t.version), ("inputs", .inputs t.inputs), ("outputs", .outputs t.outputs),
    ("lock_time", .u32 t.lockTime)]

/-- tx_preimage.rs:21-34 -/
def Spec.txPreimageDecl : ItemStruct :=
  libStruct "TxPreimage" [] [fieldDecl "version" "i32", fieldDecl "hash_prevouts" "Sha256d",
    fieldDecl "hash_sequence" "Sha256d", fieldDecl "outpoint" "TxOutpoint", fieldDecl "script_code" "Script",
    fieldDecl "value" "u64", fieldDecl "sequence" "u32", fieldDecl "hash_outputs" "Sha256d",
    fieldDecl "lock_time" "u32", fieldDecl "sig_hash_type" "u32"]
def Spec.preimageFields (p : TxPreimageP) : Record LibVal :=
  [("version", .i32 p.version), ("hash_prevouts", .hash p.hashPrevouts), ("hash_sequence", .hash p.hashSequence),
    ("outpoint", .outpoint p.outpoint), ("script_code", .script p.scriptCode), ("value", .u64 p.value),
    ("sequence", .u32 p.sequence), ("hash_outputs", .hash p.hashOutputs), ("lock_time", .u32 p.lockTime),
    ("sig_hash_type", .u32 p.sigHashType)]

/-- tx.rs:57-68 -/
def Spec.txDecl : ItemStruct :=
  libStruct "Tx" [camelCase] [skipDecl "unhashed_tx" "UnhashedTx", skipDecl "hash" "Sha256d",
    fieldDecl "raw" "ByteArray"]
def Spec.txFields (t : TxP) : Record LibVal :=
  [("unhashed_tx", .tx t.unhashedTx), ("hash", .hash t.hash), ("raw", .bytes t.raw)]

/-- The macro makes this implementation for the struct. -/
def Spec.Implements {α : Type} (lx : Lex) (W : World LibVal) (s : ItemStruct) (c : CodecP α)
    (fieldsOf : α → Record LibVal) : Prop :=
  ∃ d, derived lx W s = some d ∧ (∀ v, d.ser (fieldsOf v) = c.ser v) ∧
    ∀ data, d.deserRest data = (c.deserRest data).bind fun (v, rest) => .ok (fieldsOf v, rest)

theorem lib_implements {α : Type} (lx : Lex) (h : lx.isIdent "crate" = true) (W : World LibVal) (name : String)
    (others : List Attribute) (fields : List Field) (c : CodecP α) (fieldsOf : α → Record LibVal)
    (ho : others = [] ∨ others = [camelCase])
    (hp : ∀ f ∈ fields, f.attrs = [] ∨ f.attrs = [skipMark ⟨"bitcoin_code", []⟩])
    (hn : (fields.map Field.name).Nodup) (hf : Fits W (libStruct name others fields) "crate" fields)
    (hw : ∀ v, (Derive.runPushes W fields (fieldsOf v) (Derive.callsOf fields).pushes).map ByteArray.fromParts =
      c.ser v)
    (hr : ∀ data, Derive.readAll W fields data =
      (c.deserRest data).bind fun (v, rest) => .ok (fieldsOf v, rest)) :
    Implements lx W (libStruct name others fields) c fieldsOf := by
  have hg : Derive.generate lx (libStruct name others fields) =
      .ok (Derive.outputOf (libStruct name others fields) "crate" fields) := by
    rw [Derive.generate_ok_iff]
    refine ⟨"crate", fields, ⟨⟨.crates ["crate"] :: others.map .other, ?_, ?_, ?_⟩, rfl, ?_⟩, rfl⟩
    · rcases ho with rfl | rfl <;> rfl
    · rcases ho with rfl | rfl <;> simp [Mark.Ok, h, camelCase]
    · rcases ho with rfl | rfl <;> rfl
    · intro f hf
      rcases hp f hf with h | h
      · exact ⟨[], h⟩
      · exact ⟨[_], h⟩
  refine ⟨(Derive.outputOf (libStruct name others fields) "crate" fields).codec W fields, ?_, hw, ?_⟩
  · unfold derived
    rw [hg]
    have : (libStruct name others fields).fields = .named fields := rfl
    rw [this]
    dsimp only
    rw [if_pos ((Derive.compiles_iff W _ "crate" fields hn).mpr hf)]
  · intro data
    rw [Derive.codec_deserRest W _ _ fields hn, hr]

/-- **C95** (library): the implementations that all theorems about transactions speak about are what the macro makes
of the declarations of the structs. -/
theorem C95_library (lx : Lex) (h : lx.isIdent "crate" = true) (opName : Opcode → String) (sz : Layout) :
    Implements lx (library opName sz) txOutpointDecl CodecP.txOutpoint outpointFields ∧
    Implements lx (library opName sz) txInputDecl (CodecP.txInput opName) inputFields ∧
    Implements lx (library opName sz) txOutputDecl (CodecP.txOutput opName) outputFields ∧
    Implements lx (library opName sz) unhashedTxDecl (CodecP.unhashedTx opName sz) unhashedFields ∧
    Implements lx (library opName sz) txPreimageDecl (CodecP.txPreimage opName) preimageFields ∧
    Implements lx (library opName sz) txDecl CodecP.tx txFields := by
  have ok_bind : ∀ {ε α β : Type} (a : α) (f : α → Res ε β), (Res.ok a).bind f = f a := fun _ _ => rfl
  refine ⟨?_, ?_, ?_, ?_, ?_, ?_⟩
  · refine lib_implements lx h _ _ _ _ _ _ (.inr rfl) (by simp [fieldDecl]) (by decide) ?_ (fun _ => rfl) ?_
    · constructor <;> simp [fieldDecl, libStruct, library, Stored]
    · intro data
      simp only [Derive.readAll, fieldDecl, if_true, library, asLib, CodecP.txOutpoint, CodecP.imap, CodecP.struct,
        CodecP.Fields.field, CodecP.Fields.nil, Derive.Res.bind_assoc', ok_bind]
      rfl
  · refine lib_implements lx h _ _ _ _ _ _ (.inr rfl) (by simp [fieldDecl, skipDecl]) (by decide) ?_ (fun _ => rfl) ?_
    · constructor <;> simp [fieldDecl, skipDecl, libStruct, library, Stored]
    · intro data
      simp only [Derive.readAll, fieldDecl, skipDecl, if_true, library, asLib, CodecP.txInput, CodecP.imap,
        CodecP.struct, CodecP.Fields.field, CodecP.Fields.skip, CodecP.Fields.nil, Derive.Res.bind_assoc', ok_bind,
        reduceCtorEq, if_false]
      rfl
  · refine lib_implements lx h _ _ _ _ _ _ (.inl rfl) (by simp [fieldDecl]) (by decide) ?_ (fun _ => rfl) ?_
    · constructor <;> simp [fieldDecl, libStruct, library, Stored]
    · intro data
      simp only [Derive.readAll, fieldDecl, if_true, library, asLib, CodecP.txOutput, CodecP.imap, CodecP.struct,
        CodecP.Fields.field, CodecP.Fields.nil, Derive.Res.bind_assoc', ok_bind]
      rfl
  · refine lib_implements lx h _ _ _ _ _ _ (.inr rfl) (by simp [fieldDecl]) (by decide) ?_ (fun _ => rfl) ?_
    · constructor <;> simp [fieldDecl, libStruct, library, Stored]
    · intro data
      simp only [Derive.readAll, fieldDecl, if_true, library, asLib, CodecP.unhashedTx, CodecP.imap, CodecP.struct,
        CodecP.Fields.field, CodecP.Fields.nil, Derive.Res.bind_assoc', ok_bind]
      rfl
  · refine lib_implements lx h _ _ _ _ _ _ (.inl rfl) (by simp [fieldDecl]) (by decide) ?_ (fun _ => rfl) ?_
    · constructor <;> simp [fieldDecl, libStruct, library, Stored]
    · intro data
      simp only [Derive.readAll, fieldDecl, if_true, library, asLib, CodecP.txPreimage, CodecP.imap, CodecP.struct,
        CodecP.Fields.field, CodecP.Fields.nil, Derive.Res.bind_assoc', ok_bind]
      rfl
  · refine lib_implements lx h _ _ _ _ _ _ (.inr rfl) (by simp [fieldDecl, skipDecl]) (by decide) ?_ (fun _ => rfl) ?_
    · constructor <;> simp [fieldDecl, skipDecl, libStruct, library, Stored]
    · intro data
      simp only [Derive.readAll, fieldDecl, skipDecl, if_true, library, asLib, CodecP.tx, CodecP.imap,
        CodecP.struct, CodecP.Fields.field, CodecP.Fields.skip, CodecP.Fields.nil, Derive.Res.bind_assoc', ok_bind,
        reduceCtorEq, if_false]
      rfl

/-! ## Non-vacuity -/

def deriveLex : Lex := ⟨Char.isAlphanum, Char.isWhitespace, fun s => s.toList.all Char.isAlphanum⟩

example : deriveLex.isIdent "crate" = true ∧ deriveLex.isIdent "bitcoin::cash" = false := by decide

/-- A documented struct whose second crate is a path. -/
example : Derive.deriveMacro deriveLex (.struct ⟨[⟨⟨"doc", []⟩, .value (.str "A ticket.")⟩,
      ⟨⟨"bitcoin_code", []⟩, .list [.nested (.nameValue ⟨"crate", []⟩ (.str "crate")),
        .nested (.nameValue ⟨"crate", []⟩ (.str "bitcoin::cash"))]⟩], "Ticket", false, .unit⟩) = .panic :=
  C95_bad_crate_panics deriveLex _ [.other ⟨⟨"doc", []⟩, .value (.str "A ticket.")⟩] _ [] rfl
    (fun m hm => by
      rcases List.mem_singleton.mp hm with rfl
      exact ⟨by simp, by simp⟩)
    ⟨["crate"], "bitcoin::cash", [], rfl, by decide, by decide⟩

/-- An enum; a struct without fields. -/
example : (∃ e, Derive.deriveMacro deriveLex .other = .err e) ∧
    ∃ e, Derive.deriveMacro deriveLex (.struct ⟨[], "Ticket", false, .unit⟩) = .err e := ⟨⟨_, rfl⟩, _, rfl⟩

/-- A struct with a stored field, a field with `#[serde(skip)]` and another stored field. -/
def derivedExample : ItemStruct :=
  libStruct "Ticket" [⟨⟨"doc", []⟩, .value (.str "A ticket.")⟩]
    [fieldDecl "seat" "u32", ⟨[skipMark ⟨"serde", []⟩], "price", "Option<u64>"⟩, fieldDecl "buyer" "Sha256d"]

/-- It is accepted; the price is not written, and nothing is read for it. -/
example : ∃ c, derived deriveLex (library (fun _ => "") ⟨1, 1⟩) derivedExample = some c ∧
    (c.ser [("seat", .u32 5), ("price", .optU64 (some 3)), ("buyer", .hash ⟨.newUnnamed (List.replicate 32 9), rfl⟩)]).map
      ByteArray.data = some ([5, 0, 0, 0] ++ List.replicate 32 9) ∧
    ∃ v rest, c.deserRest (.newUnnamed ([5, 0, 0, 0] ++ List.replicate 32 9 ++ [1])) = .ok (v, rest) ∧
      rest.data = [1] ∧ v.lookup "price" = some (.optU64 none) :=
  ⟨_, rfl, rfl, _, _, rfl, rfl, rfl⟩

example : ((derivedExample.fields = .named [fieldDecl "seat" "u32",
    ⟨[skipMark ⟨"serde", []⟩], "price", "Option<u64>"⟩, fieldDecl "buyer" "Sha256d"]) ∧
    ["seat", "price", "buyer"].Nodup) := ⟨rfl, by decide⟩

/-- The conditions of the round trip and of canonical reading: hashes. -/
theorem hash_reads_back (x : FixedP 32) : ReadsBack (asLib (.fixed 32) .hash
      fun | .hash x => some x | _ => none) (fun v w => ∃ a b : FixedP 32, v = .hash a ∧ w = .hash b ∧ a.1.data = b.1.data)
    (.hash x) := by
  intro b hb data rest hd
  simp only [asLib, CodecP.fixed, Option.bind_some, Option.some.injEq] at hb
  subst hb
  have hs := splitE_bytes data 32
  have hlen : x.1.data.length = 32 := x.2
  unfold splitBytes at hs
  rw [if_neg (by rw [hd, List.length_append, hlen]; omega)] at hs
  simp only [asLib, CodecP.fixed]
  cases hh : data.splitE 32 with
  | err e => rw [hh] at hs; cases hs
  | panic => rw [hh] at hs; cases hs
  | ok p =>
    rw [hh] at hs
    cases hs with
    | ok h =>
      obtain ⟨l, r⟩ := p
      obtain ⟨h1, h2⟩ := h
      dsimp only at h1 h2
      rw [hd, List.take_left' hlen] at h1
      rw [hd, List.drop_left' hlen] at h2
      have hl : l.data.length = 32 := by rw [h1]; exact hlen
      simp only [Res.bind, FixedP.fromByteArray, dif_pos hl]
      exact ⟨_, _, rfl, ⟨x, ⟨l, hl⟩, rfl, rfl, h1.symm⟩, h2⟩

theorem hash_canonical : Canonical (asLib (.fixed 32) .hash fun | .hash x => some x | _ => none) := by
  intro data v rest h
  simp only [asLib, CodecP.fixed] at h
  have hs := splitE_bytes data 32
  cases hh : data.splitE 32 with
  | err e => rw [hh] at h; simp [Res.bind] at h
  | panic => rw [hh] at h; simp [Res.bind] at h
  | ok p =>
    obtain ⟨l, r⟩ := p
    rw [hh] at h hs
    unfold splitBytes at hs
    split at hs
    · cases hs
    · cases hs with
      | ok h' =>
        obtain ⟨h1, h2⟩ := h'
        dsimp only at h1 h2
        simp only [Res.bind, FixedP.fromByteArray] at h
        by_cases hl : l.data.length = 32
        · simp only [dif_pos hl, Res.ok.injEq, Prod.mk.injEq] at h
          obtain ⟨rfl, rfl⟩ := h
          refine ⟨l, rfl, ?_⟩
          rw [h1, h2, List.take_append_drop]
        · simp only [dif_neg hl] at h
          cases h

/-- Two hashes with a field that is not stored between them. -/
def pairFields : List Derive.Field :=
  [fieldDecl "first" "Sha256d", ⟨[skipMark ⟨"bitcoin_code", []⟩], "price", "Option<u64>"⟩, fieldDecl "second" "Sha256d"]

def pairStruct : ItemStruct := libStruct "Pair" [] pairFields

def pairValue : Record LibVal := [("first", .hash ⟨.newUnnamed (List.replicate 32 8), rfl⟩),
  ("price", .optU64 (some 3)), ("second", .hash ⟨.newUnnamed (List.replicate 32 9), rfl⟩)]

/-- The types of the stored fields of the pair. -/
theorem pair_stored (f : Derive.Field) (hf : f ∈ pairFields) (hs : Stored f) :
    f = fieldDecl "first" "Sha256d" ∨ f = fieldDecl "second" "Sha256d" := by
  simp only [pairFields, List.mem_cons, List.not_mem_nil, or_false] at hf
  rcases hf with rfl | rfl | rfl
  · exact .inl rfl
  · simp [Stored, skipMark] at hs
  · exact .inr rfl

/-- The pair is written as its two hashes; read back it has them, and no price. -/
example : ∃ c, derived deriveLex (library (fun _ => "") ⟨1, 1⟩) pairStruct = some c ∧
    ReadsBack c (Kept (library (fun _ => "") ⟨1, 1⟩)
      (fun v w => ∃ a b : FixedP 32, v = .hash a ∧ w = .hash b ∧ a.1.data = b.1.data) pairFields) pairValue ∧
    Canonical c := by
  refine ⟨_, rfl, ?_, ?_⟩
  · refine C95_round_trip deriveLex (library (fun _ => "") ⟨1, 1⟩) pairStruct _ pairFields rfl rfl (by decide) _ pairValue rfl ?_
    intro f x cf hm hs hc
    simp only [pairFields, pairValue, List.zip_cons_cons, List.zip_nil_right, List.mem_cons,
      List.not_mem_nil, or_false, Prod.mk.injEq] at hm
    rcases hm with ⟨rfl, _, rfl⟩ | ⟨rfl, _, rfl⟩ | ⟨rfl, _, rfl⟩
    · cases hc; exact hash_reads_back _
    · simp [Stored, skipMark] at hs
    · cases hc; exact hash_reads_back _
  · refine C95_canonical deriveLex (library (fun _ => "") ⟨1, 1⟩) pairStruct _ pairFields rfl rfl (by decide) ?_
    intro f cf hf hs hc
    rcases pair_stored f hf hs with rfl | rfl <;> (cases hc; exact hash_canonical)

/-- Reading 40 bytes fails at the second hash. -/
example : ∃ c, derived deriveLex (library (fun _ => "") ⟨1, 1⟩) pairStruct = some c ∧
    ∃ e, c.deserRest (.newUnnamed (List.replicate 40 7)) = .err e ∧
      ∃ before f after cf r mid, pairFields = before ++ f :: after ∧ Stored f ∧
      (library (fun _ => "") ⟨1, 1⟩).code f.ty = some cf ∧
      Reads (library (fun _ => "") ⟨1, 1⟩) before (.newUnnamed (List.replicate 40 7)) r mid ∧
      cf.deserRest mid = .err e :=
  ⟨_, rfl, _, rfl, (C95_read_errors deriveLex (library (fun _ => "") ⟨1, 1⟩) pairStruct _ pairFields rfl rfl (by decide) _ _).1.mp rfl⟩

/-- A struct without documentation on its fields, one with, one with a field `data`, one with generics. -/
example : (∃ c, derived deriveLex (library (fun _ => "") ⟨1, 1⟩) (libStruct "A" [] [fieldDecl "a" "u32"]) = some c) ∧
    derived deriveLex (library (fun _ => "") ⟨1, 1⟩)
      (libStruct "A" [] [⟨[⟨⟨"doc", []⟩, .value (.str "the a")⟩], "a", "u32"⟩]) = none ∧
    (∃ o, Derive.generate deriveLex (libStruct "A" [] [fieldDecl "data" "u32"]) = .ok o) ∧
    derived deriveLex (library (fun _ => "") ⟨1, 1⟩) (libStruct "A" [] [fieldDecl "data" "u32"]) = none ∧
    derived deriveLex (library (fun _ => "") ⟨1, 1⟩) ⟨[], "A", true, .named [fieldDecl "a" "u32"]⟩ = none :=
  ⟨⟨_, rfl⟩, rfl, ⟨_, rfl⟩, rfl, rfl⟩

end BCash
