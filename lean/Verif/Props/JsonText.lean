import Verif.Proofs.JsonBounds
import Verif.Props.Integer

/-! # C94: JSON texts of transactions and other stored values -/

namespace BCash
open Spec Json JsonText Serde

/-- Spec: importing the text ends with result `r` (for every sufficiently large limit on the recursion
depth). -/
def Spec.TextImportsTo (unb64 : String → Option Bytes) (text : List Char) (r : Res JsonError RichTx) : Prop :=
  ∃ n, ∀ fuel, n ≤ fuel → textToTx unb64 fuel text = some r

/-- Spec: importing the text recurses without end. -/
def Spec.TextImportDiverges (unb64 : String → Option Bytes) (text : List Char) : Prop :=
  ∀ fuel, textToTx unb64 fuel text = none

/-- Spec: the text is JSON, and what it holds is a document with these contents. -/
def Spec.TextOf (text : List Char) (j : JsonTx) : Prop := ∃ v, Json.IsText text v ∧ At.jsonTx j v

/-! ## Exported texts -/

/-- **C94** (indices): every index in an exported document points into its table, and preimages come before
the arrays they are preimages of. -/
theorem C94_indices (b64 : Bytes → String) (tx : RichTx) (j : JsonTx) (hj : j = JsonTx.fromTx b64 tx) :
    (∀ i ∈ j.toDoc.usedArrays, i < j.data.byteArrays.length) ∧
    (∀ o ∈ j.toDoc.allOps, ∀ k ∈ o.stringIdx, k < j.data.strings.length) ∧
    ∀ (k : Nat) (e : JsonByteArray), j.data.byteArrays[k]? = some e →
      e.dataIdx < j.data.dataB64.length ∧ (∀ n, e.nameIdx = some n → n < j.data.strings.length) ∧
      ∀ is, e.preimageIndices = some is → ∀ i ∈ is, i < k := by
  subst hj
  obtain ⟨h1, h2, h3⟩ := step_tx b64 tx
  have ha : ∀ {t : JsonTables} {o : JsonTaggedOp}, OpIn t o → ∀ i ∈ o.arrayIdx, i < t.byteArrays.length := by
    intro t o ho i hi
    unfold JsonTaggedOp.arrayIdx at hi
    split at hi
    · rename_i idx m e
      rw [List.mem_singleton] at hi
      subst hi
      exact ho.op _ _ e
    · cases hi
  have hn : ∀ {t : JsonTables} (l : Option (List (Option Nat))),
      (∀ l', l = some l' → ∀ x ∈ l', ∀ k, x = some k → StrIn t k) →
      ∀ k ∈ (l.getD []).filterMap id, k < t.strings.length := by
    intro t l h k hk
    cases l with
    | none => cases hk
    | some l =>
      obtain ⟨x, hx, e⟩ := List.mem_filterMap.mp hk
      exact h l rfl x hx k e
  have hst : ∀ {t : JsonTables} {o : JsonTaggedOp}, OpIn t o → ∀ k ∈ o.stringIdx, k < t.strings.length := by
    intro t o ho k hk
    unfold JsonTaggedOp.stringIdx at hk
    rw [List.mem_append, List.mem_append, List.mem_cons] at hk
    rcases hk with ((rfl | hk) | hk) | hk
    · exact ho.srcFile
    · obtain ⟨p, hp, rfl⟩ := List.mem_map.mp hk
      exact ho.srcCode p hp
    · exact hn _ ho.names k hk
    · exact hn _ ho.alt k hk
  have hops : ∀ i ∈ (JsonTx.fromTx b64 tx).inputs, ∀ o ∈ i.script ++ i.lockScript.getD [],
      OpIn (JsonTx.fromTx b64 tx).data o := by
    intro i hi o ho
    rcases List.mem_append.mp ho with ho | ho
    · exact (h2 i hi).script o ho
    · cases e : i.lockScript with
      | none => rw [e] at ho; cases ho
      | some l => rw [e] at ho; exact (h2 i hi).lock l e o ho
  refine ⟨?_, ?_, h1⟩
  · intro i hi
    unfold JsonDoc.usedArrays at hi
    rcases List.mem_append.mp hi with hi | hi
    · obtain ⟨x, hx, hi⟩ := List.mem_flatMap.mp hi
      rcases List.mem_cons.mp hi with rfl | hi
      · exact (h2 x hx).hash
      · obtain ⟨o, ho, hi⟩ := List.mem_flatMap.mp hi
        exact ha (hops x hx o ho) i hi
    · obtain ⟨x, hx, hi⟩ := List.mem_flatMap.mp hi
      obtain ⟨o, ho, hi⟩ := List.mem_flatMap.mp hi
      exact ha (h3 x hx o ho) i hi
  · intro o ho
    unfold JsonDoc.allOps at ho
    rcases List.mem_append.mp ho with ho | ho
    · obtain ⟨x, hx, ho⟩ := List.mem_flatMap.mp ho
      exact hst (hops x hx o ho)
    · obtain ⟨x, hx, ho⟩ := List.mem_flatMap.mp ho
      exact hst (h3 x hx o ho)

/-- Lists without duplicates whose elements are all in `l` are no longer than `l`. -/
theorem length_le_of_nodup {α : Type} {l l' : List α} (hn : l.Nodup) (h : ∀ x ∈ l, x ∈ l') :
    l.length ≤ l'.length := (hn.subperm h).length_le

/-- The tables of an exported document are no longer than the transaction has arrays and strings. -/
theorem tables_small (b64 : Bytes → String) (tx : RichTx) :
    (JsonTx.fromTx b64 tx).data.byteArrays.length ≤ (txArrays tx).length ∧
    (JsonTx.fromTx b64 tx).data.dataB64.length ≤ (txArrays tx).length ∧
    (JsonTx.fromTx b64 tx).data.strings.length ≤ (txStrings tx).length := by
  refine ⟨?_, ?_, ?_⟩
  · have := C93_entries b64 tx
    rw [← this]
    exact Nat.le_of_eq (List.length_map ..).symm
  · obtain ⟨ds, h1, h2, h3⟩ := C93_data b64 tx
    have h1 : (JsonTx.fromTx b64 tx).data.dataB64 = ds.map b64 := h1
    rw [h1, List.length_map]
    calc ds.length ≤ ((txArrays tx).map (·.data)).length := length_le_of_nodup h2 fun d hd => by
          obtain ⟨a, ha, e⟩ := (h3 d).mp hd
          exact List.mem_map.mpr ⟨a, ha, e⟩
      _ = _ := List.length_map ..
  · obtain ⟨h1, h2⟩ := C93_strings b64 tx
    exact length_le_of_nodup h1 fun s hs => (h2 s).mp hs

/-- Indices of machine size. -/
theorem below_of_small {b64 : Bytes → String} {tx : RichTx} (ha : (txArrays tx).length ≤ 2 ^ 64)
    (hs : (txStrings tx).length ≤ 2 ^ 64) : Below (2 ^ 64) (JsonTx.fromTx b64 tx) := by
  obtain ⟨s1, s2, s3⟩ := tables_small b64 tx
  obtain ⟨h1, h2, h3⟩ := step_tx b64 tx
  have str : ∀ k, StrIn (JsonTx.fromTx b64 tx).data k → k < 2 ^ 64 := fun k hk => by
    unfold StrIn at hk; omega
  have arr : ∀ k, ArrIn (JsonTx.fromTx b64 tx).data k → k < 2 ^ 64 := fun k hk => by
    unfold ArrIn at hk; omega
  have op : ∀ o, OpIn (JsonTx.fromTx b64 tx).data o → OpBelow (2 ^ 64) o := fun o ho =>
    ⟨fun i m e => arr _ (ho.op i m e), str _ ho.srcFile, fun p hp => str _ (ho.srcCode p hp),
     fun l hl x hx k hk => str _ (ho.names l hl x hx k hk), fun l hl x hx k hk => str _ (ho.alt l hl x hx k hk)⟩
  refine ⟨fun e he => ?_, fun i hi => arr _ (h2 i hi).hash, fun i hi o ho => op o ((h2 i hi).script o ho),
    fun i hi l hl o ho => op o ((h2 i hi).lock l hl o ho), fun i hi o ho => op o (h3 i hi o ho)⟩
  obtain ⟨k, hk⟩ := List.getElem?_of_mem he
  obtain ⟨e1, e2, e3⟩ := h1 k e hk
  refine ⟨by omega, fun n hn => str n (e2 n hn), fun is his i hi => ?_⟩
  have hlt : k < (JsonTx.fromTx b64 tx).data.byteArrays.length := by
    by_contra hc
    rw [List.getElem?_eq_none (by omega)] at hk
    cases hk
  have := e3 is his i hi
  omega

/-- **C94** (export): the text of a transaction is JSON for the document of its tables, inputs and outputs.
(A transaction has fewer than `2^64` byte arrays and strings.) -/
theorem C94_export (b64 : Bytes → String) (tx : RichTx) (ha : (txArrays tx).length ≤ 2 ^ 64)
    (hs : (txStrings tx).length ≤ 2 ^ 64) :
    ∃ text, txToText b64 tx = some text ∧ Json.IsText text (Doc.jsonTx (JsonTx.fromTx b64 tx)) ∧
      TextOf text (JsonTx.fromTx b64 tx) := by
  have hb := below_of_small (b64 := b64) ha hs
  obtain ⟨text, h1, h2, _⟩ := read_write (.jsonTx hb)
  refine ⟨text, ?_, h2, _, h2, at_jsonTx hb⟩
  have : Serde.jsonTx.write .json (JsonTx.fromTx b64 tx) = _ := Writes.jsonTx rfl rfl _ trivial
  simp only [txToText, Serde.toText, this, Option.bind_some, h1]

/-! ## Imported texts -/

theorem makeTx_toDoc (unb64 : String → Option Bytes) (fuel : Nat) (j : JsonTx) :
    jsonToTx unb64 fuel j.toDoc = j.makeTx unb64 fuel := by
  have : (j.data.byteArrays.map JsonByteArray.ser).mapM JsonByteArray.deser = some j.data.byteArrays := by
    generalize j.data.byteArrays = l
    induction l with
    | nil => rfl
    | cons e l ih => rw [List.map_cons, List.mapM_cons, C42_entry_roundtrip, ih]; rfl
  unfold jsonToTx JsonTx.toDoc
  dsimp only
  rw [this]

/-- Reading a text as a document, exactly. -/
theorem ofText_iff (text : List Char) (j : JsonTx) : Serde.jsonTx.ofText text = .ok j ↔ TextOf text j := by
  unfold Serde.ofText TextOf
  cases h : JsonText.read text with
  | none =>
    constructor
    · intro e; cases e
    · rintro ⟨v, h1, _⟩
      rw [(read_iff text v).mpr h1] at h
      cases h
  | some v =>
    have hv := (read_iff text v).mp h
    have : (Serde.jsonTx.read .json v).mapErr some = .ok j ↔ Serde.jsonTx.read .json v = .ok j := by
      cases Serde.jsonTx.read .json v <;> simp [Res.mapErr]
    dsimp only
    rw [this, Reads.jsonTx v j]
    constructor
    · intro h1; exact ⟨v, hv, h1⟩
    · rintro ⟨w, hw, h1⟩
      rw [(read_iff text w).mpr hw] at h
      cases h
      exact h1

theorem ofText_ne_panic (text : List Char) : Serde.jsonTx.ofText text ≠ .panic := by
  unfold Serde.ofText
  cases JsonText.read text with
  | none => simp
  | some v =>
    have := jsonTx_ne_panic (f := .json) v
    intro h
    apply this
    revert h
    dsimp only
    cases Serde.jsonTx.read .json v <;> simp [Res.mapErr]

/-- A text holds at most one document. -/
theorem C94_unambiguous (text : List Char) (j j' : JsonTx) (h : TextOf text j) (h' : TextOf text j') : j = j' := by
  have h1 := (ofText_iff text j).mpr h
  rw [(ofText_iff text j').mpr h'] at h1
  cases h1
  rfl

/-- **C94** (import): a text that holds a document is imported as that document, whatever the white space,
the escapes in strings, the order of the fields and further fields. -/
theorem C94_import (unb64 : String → Option Bytes) (fuel : Nat) (text : List Char) (j : JsonTx)
    (h : TextOf text j) : textToTx unb64 fuel text = jsonToTx unb64 fuel j.toDoc := by
  rw [makeTx_toDoc]
  unfold textToTx
  rw [(ofText_iff text j).mpr h]

/-- **C94** (errors): every other text is rejected with a deserialisation error. -/
theorem C94_rejects (unb64 : String → Option Bytes) (fuel : Nat) (text : List Char)
    (h : ¬ ∃ j, TextOf text j) : textToTx unb64 fuel text = some (.err .serde) := by
  unfold textToTx
  cases e : Serde.jsonTx.ofText text with
  | ok j => exact absurd ⟨j, (ofText_iff text j).mp e⟩ h
  | err e => rfl
  | panic => exact absurd e (ofText_ne_panic text)

/-- **C94** (accepted texts): importing a text gives a transaction exactly if the text holds a document that
describes it. -/
theorem C94_accepts (unb64 : String → Option Bytes) (text : List Char) (tx : RichTx) :
    TextImportsTo unb64 text (.ok tx) ↔ ∃ j t, TextOf text j ∧ TxAt unb64 j.toDoc t tx := by
  constructor
  · rintro ⟨n, hn⟩
    by_cases h : ∃ j, TextOf text j
    · obtain ⟨j, hj⟩ := h
      have : ImportsTo unb64 j.toDoc (.ok tx) := ⟨n, fun fuel hf => by rw [← C94_import unb64 fuel text j hj]; exact hn fuel hf⟩
      obtain ⟨t, ht⟩ := (C43_accepts unb64 _ tx).mp this
      exact ⟨j, t, hj, ht⟩
    · have := hn n (Nat.le_refl _)
      rw [C94_rejects unb64 n text h] at this
      cases this
  · rintro ⟨j, t, hj, ht⟩
    obtain ⟨n, hn⟩ := (C43_accepts unb64 _ tx).mpr ⟨t, ht⟩
    exact ⟨n, fun fuel hf => by rw [C94_import unb64 fuel text j hj]; exact hn fuel hf⟩

/-- **C94** (crashes): importing a text panics or recurses without end only if it holds a document that uses an
entry that does not exist, or that is (indirectly) its own preimage. -/
theorem C94_crashes_partial (unb64 : String → Option Bytes) (text : List Char)
    (h : TextImportsTo unb64 text .panic ∨ TextImportDiverges unb64 text) :
    ∃ j, TextOf text j ∧ ∃ i, Uses j.toDoc j.data i ∧ (j.data.byteArrays.length ≤ i ∨ LeadsTo j.data i i) := by
  by_cases hj : ∃ j, TextOf text j
  · obtain ⟨j, hj⟩ := hj
    refine ⟨j, hj, ?_⟩
    have key : ∀ t, TablesOf j.toDoc t → t = j.data := by
      rintro ⟨d, b, s⟩ ⟨h1, h2, h3'⟩
      dsimp only at h1 h2 h3'
      have : b = j.data.byteArrays := by
        have h3 : (j.data.byteArrays.map JsonByteArray.ser).Forall₂ (fun v e => JsonByteArray.deser v = some e) b := h3'
        revert h3
        clear h1 h2 h3'
        generalize j.data.byteArrays = l
        intro h3
        induction l generalizing b with
        | nil => cases h3; rfl
        | cons e l ih =>
          cases h3 with
          | cons a c =>
            rw [C42_entry_roundtrip] at a
            cases a
            rw [ih _ c]
      rw [h1, h2, this]
      rfl
    have hlen : j.toDoc.byteArrays.length = j.data.byteArrays.length := List.length_map ..
    rcases h with ⟨n, hn⟩ | h
    · have : ImportsTo unb64 j.toDoc .panic := ⟨n, fun fuel hf => by rw [← C94_import unb64 fuel text j hj]; exact hn fuel hf⟩
      obtain ⟨t, ht, i, hi, hl⟩ := C43_panics unb64 _ this
      rw [key t ht] at hi
      exact ⟨i, hi, .inl (hlen ▸ hl)⟩
    · have : ImportDiverges unb64 j.toDoc := fun fuel => by rw [← C94_import unb64 fuel text j hj]; exact h fuel
      obtain ⟨t, ht, i, hi, hl⟩ := C43_endless unb64 _ this
      rw [key t ht] at hi hl
      exact ⟨i, hi, .inr hl⟩
  · rcases h with ⟨n, hn⟩ | h
    · have := hn n (Nat.le_refl _)
      rw [C94_rejects unb64 n text hj] at this
      cases this
    · have := h 0
      rw [C94_rejects unb64 0 text hj] at this
      cases this

/-! ## There and back -/

/-- **C94** (round trip): the text of a transaction is imported as the same transaction, with all its debugging
information. -/
theorem C94_roundtrip (b64 : Bytes → String) (unb64 : String → Option Bytes)
    (hb : ∀ d, unb64 (b64 d) = some d) (tx : RichTx)
    (hint : ∀ t ∈ tx.allOps, ∀ i, t.op = .pushInteger i → InScriptRange i)
    (ha : (txArrays tx).length ≤ 2 ^ 64) (hs : (txStrings tx).length ≤ 2 ^ 64) :
    ∃ text, txToText b64 tx = some text ∧ TextImportsTo unb64 text (.ok tx) := by
  obtain ⟨text, h1, _, h2⟩ := C94_export b64 tx ha hs
  obtain ⟨n, hn⟩ := C42_roundtrip b64 unb64 hb tx hint
  exact ⟨text, h1, n, fun fuel hf => by rw [C94_import unb64 fuel text _ h2]; exact hn fuel hf⟩

/-- **C94** (round trip) with standard base64. -/
theorem C94_roundtrip_base64 (tx : RichTx)
    (hint : ∀ t ∈ tx.allOps, ∀ i, t.op = .pushInteger i → InScriptRange i)
    (ha : (txArrays tx).length ≤ 2 ^ 64) (hs : (txStrings tx).length ≤ 2 ^ 64) :
    ∃ text, txToText Base64.encode tx = some text ∧ TextImportsTo Base64.decode text (.ok tx) :=
  C94_roundtrip _ _ Base64.decode_encode tx hint ha hs


example : (txArrays exampleRichTx).length ≤ 2 ^ 64 ∧ (txStrings exampleRichTx).length ≤ 2 ^ 64 := by
  have h1 : (txArrays exampleRichTx).length = 5 := by decide +kernel
  have h2 : (txStrings exampleRichTx).length = 11 := by decide +kernel
  omega

/-- A transaction with one output that pushes a named array. -/
def smallRichTx : RichTx :=
  ⟨1, [], [⟨5, [⟨.pushByteArray (.mk [1, 2] (some "a\"b") .sha256 none) true, "", 3, 4, [(7, "é")], none, some []⟩]⟩], 0⟩

/-- Its text. -/
def smallText : String :=
  "{\"data\":{\"data_b64\":[\"AQI=\"],\"byte_arrays\":[[0,\"Sha256\",0]],\"strings\":[\"a\\\"b\",\"\",\"é\"]}," ++
  "\"version\":1,\"inputs\":[],\"outputs\":[{\"value\":5,\"script\":[{\"op\":{\"PushByteArray\":{\"array_idx\":0," ++
  "\"is_minimal\":true}},\"src_file\":1,\"src_line\":3,\"src_column\":4,\"src_code\":[[7,2]]," ++
  "\"pushed_names\":null,\"alt_pushed_names\":[]}]}],\"lock_time\":0}"


example : txToText Base64.encode smallRichTx = some smallText.toList := by decide +kernel

/-- The same document, edited: white space, another order of the fields, further fields, an escape, an absent
option, and the function of the array given as a map. -/
def editedText : String :=
  " { \"lock_time\" : 0,\n \"comment\": [1.5e3, {\"x\": \"\\ud800\"}], \"version\":1,\"inputs\":[ ]," ++
  "\"outputs\":[{\"script\":[{\"op\":{\"PushByteArray\":{\"array_idx\":0," ++
  "\"is_minimal\":true}},\"src_file\":1,\"src_line\":3,\"src_column\":4,\"src_code\":[[7,2]]," ++
  "\"alt_pushed_names\":[]}], \"value\":5}]," ++
  "\"data\":[[\"\\u0041QI=\"],[[0,{\"Sha256\":null},0]],[\"a\\\"b\",\"\",\"\\u00e9\"]]}\n"

deriving instance DecidableEq for JsonOp, JsonTaggedOp, JsonInput, JsonOutput, JsonTables, JsonTx

example : Serde.jsonTx.ofText editedText.toList = .ok (JsonTx.fromTx Base64.encode smallRichTx) := by
  decide +kernel

example : textToTx Base64.decode 1 "{}".toList = some (.err .serde) ∧
    textToTx Base64.decode 1 "{\"data\"".toList = some (.err .serde) := ⟨by rfl, by rfl⟩

/-- A text with an outpoint hash that is not in the table. -/
def danglingText : String :=
  "{\"data\":{\"data_b64\":[],\"byte_arrays\":[],\"strings\":[]},\"version\":1,\"inputs\":[{\"prev_out_hash\":0," ++
  "\"prev_out_vout\":0,\"script\":[],\"sequence\":0}],\"outputs\":[],\"lock_time\":0}"

/-- **C94 fails** (crashes): a text with a dangling index makes the import panic. -/
theorem C94_dangling_fails (unb64 : String → Option Bytes) : TextImportsTo unb64 danglingText.toList .panic := by
  refine ⟨1, fun fuel hf => ?_⟩
  obtain ⟨k, rfl⟩ : ∃ k, fuel = k + 1 := ⟨fuel - 1, by omega⟩
  have h : Serde.jsonTx.ofText danglingText.toList =
      .ok ⟨⟨[], [], []⟩, 1, [⟨0, 0, [], 0, none, none, none, none⟩], [], 0⟩ := by decide +kernel
  unfold textToTx
  rw [h]
  rfl

/-! ## Other stored values -/

/-- The texts of a token's metadata are strings (in Rust they are by their type). -/
def Stored.Utf8 : (t : Stored) → t.Val → Prop
  | .slpTokenMeta, m => ∃ a b c : String, m.ticker = utf8 a ∧ m.name = utf8 b ∧ m.documentUrl = utf8 c
  | .vec t, v => ∀ x ∈ (show List t.Val from v), t.Utf8 x
  | _, _ => True

namespace Serde
open JsonText

theorem writable_hex (b : Bytes) : Writable (Doc.hex b) := by
  obtain ⟨s, h⟩ := hexEncode_utf8 b
  unfold Doc.hex
  rw [← h]
  exact .str s

theorem writable_name (s : String) (h : ∀ c ∈ s.toList, c.toNat < 128) : Writable (Doc.name s) := by
  obtain ⟨t, ht⟩ := utf8_ascii (b := s.toList.map fun c => UInt8.ofNat c.toNat) (by
    intro x hx
    obtain ⟨c, hc, rfl⟩ := List.mem_map.mp hx
    have := h c hc
    rw [UInt8.toNat_ofNat']
    omega)
  unfold Doc.name
  rw [← ht]
  exact .str t

theorem writable_flags (b : SigHashFlags) : Writable (Doc.flags b) := .record (.u32 b)
theorem writable_outpoint (o : TxOutpoint) : Writable (Doc.outpoint o) := .record ⟨writable_hex _, .u32 _⟩
theorem writable_input (i : TxInput) : Writable (Doc.input i) :=
  .record ⟨writable_outpoint _, writable_hex _, .u32 _, .opt fun _ _ => writable_hex _, .opt fun v _ => .u64 v,
    .opt fun b _ => .bool b, .opt fun _ _ => .list fun b _ => writable_flags b⟩
theorem writable_output (o : TxOutput) : Writable (Doc.output o) := .record ⟨.u64 _, writable_hex _⟩
theorem writable_unhashedTx (t : UnhashedTx) : Writable (Doc.unhashedTx t) :=
  .record ⟨.i32 _, .list fun i _ => writable_input i, .list fun o _ => writable_output o, .u32 _⟩
theorem writable_unsignedInput (i : UnsignedTxInput) : Writable (Doc.unsignedInput i) :=
  .record ⟨writable_outpoint _, .u32 _, .u64 _⟩
theorem writable_tokenType (t : SlpTokenType) : Writable (Doc.tokenType t) := by
  cases t <;> exact writable_name _ (by decide)
theorem writable_action (t : SlpAction) : Writable (Doc.action t) := by
  cases t <;> exact writable_name _ (by decide)
theorem writable_token (t : SlpToken) : Writable (Doc.token t) := .record ⟨.u64 _, .bool _, writable_action _⟩
theorem writable_slpData (d : SlpData) : Writable (Doc.slpData d) := .record (writable_hex _)
theorem writable_slpInput (i : SlpTxInput) : Writable (Doc.slpInput i) :=
  .record ⟨.u64 _, writable_token _, writable_input _, writable_hex _⟩
theorem writable_slpOutput (o : SlpTxOutput) : Writable (Doc.slpOutput o) :=
  .record ⟨writable_token _, writable_output _⟩
theorem writable_slpTx (t : SlpTx) : Writable (Doc.slpTx t) :=
  .record ⟨.i32 _, .list fun i _ => writable_slpInput i, .list fun o _ => writable_slpOutput o, .u32 _,
    .opt fun d _ => writable_slpData d, writable_hex _⟩

theorem writable_doc : (t : Stored) → (v : t.Val) → t.Ok v → t.Utf8 v → Writable (t.doc v)
  | .bytes, _, _, _ => writable_hex _
  | .hash _, _, _, _ => writable_hex _
  | .pubkey, _, _, _ => writable_hex _
  | .script, _, _, _ => writable_hex _
  | .integer, (v : Int), h, _ => by
    have h : InScriptRange v := ((new_ok_iff v v).mp h).2
    unfold InScriptRange at h
    exact .num ⟨by omega, by omega⟩
  | .uinteger, (v : Int), h, _ => by
    have h : UInteger.new v = .ok v := h
    have h' : InI32 v := by
      unfold UInteger.new at h
      by_contra hc
      rw [if_neg hc] at h
      split at h <;> cases h
    unfold InI32 at h'
    exact .num ⟨by omega, by omega⟩
  | .flags, v, _, _ => writable_flags v
  | .outpoint, v, _, _ => writable_outpoint v
  | .input, v, _, _ => writable_input v
  | .output, v, _, _ => writable_output v
  | .unhashedTx, v, _, _ => writable_unhashedTx v
  | .tx, v, _, _ => .record ⟨writable_unhashedTx v.unhashedTx, writable_hex _, writable_hex _⟩
  | .unsignedInput, v, _, _ => writable_unsignedInput v
  | .inputReference, (v : UInt64), _, _ => .record ⟨.null, .u64 v⟩
  | .slpTokenType, v, _, _ => writable_tokenType v
  | .slpAction, v, _, _ => writable_action v
  | .slpTokenId, _, _, _ => writable_hex _
  | .slpToken, v, _, _ => writable_token v
  | .slpData, v, _, _ => writable_slpData v
  | .slpInput, v, _, _ => writable_slpInput v
  | .slpOutput, v, _, _ => writable_slpOutput v
  | .slpTx, v, _, _ => writable_slpTx v
  | .slpUtxo, (v : SlpUtxo), _, _ =>
    .record ⟨writable_unsignedInput v.input, writable_token v.slpToken, .opt fun d _ => writable_slpData d⟩
  | .slpTokenMeta, (v : TokenMeta), _, h => by
    obtain ⟨a, b, c, h1, h2, h3⟩ := h
    refine .record ⟨?_, ?_, ?_, .list fun b _ => .u8 b, ?_, writable_tokenType _⟩
    · show Writable (.str v.ticker); rw [h1]; exact .str a
    · show Writable (.str v.name); rw [h2]; exact .str b
    · show Writable (.str v.documentUrl); rw [h3]; exact .str c
    · exact .u8 _
  | .vec t, v, h, h' => .list fun x hx => writable_doc t x (h x hx) (h' x hx)

end Serde

/-- **C94** (stored values): every well-formed value of every stored type can be written as JSON text; the text is
JSON for the document of the value, and reading it gives the same value, scripts being in parsed form. -/
theorem C94_stored (t : Stored) (v : t.Val) (hv : t.Ok v) (hu : t.Utf8 v) :
    ∃ text w, t.serde.toText v = some text ∧ Json.IsText text (t.doc v) ∧ t.serde.ofText text = .ok w ∧
      t.Same v w := by
  have hl := C80_layout .json rfl rfl t v hv
  obtain ⟨x, w, h1, h2, h3⟩ := C80_stored_partial .json t v hv (.inl rfl)
  rw [hl] at h1
  cases h1
  obtain ⟨text, e1, e2, e3⟩ := read_write (writable_doc t v hv hu)
  refine ⟨text, w, ?_, e2, ?_, h3⟩
  · simp only [Serde.toText, hl, Option.bind_some, e1]
  · unfold Serde.ofText
    rw [e3]
    dsimp only
    rw [h2]
    rfl

/-- **C94** (stored values, formatting): reading depends only on the value the text stands for; a text that is not
JSON is rejected. -/
theorem C94_formatting (t : Stored) (text : List Char) :
    (∀ v, Json.IsText text v → t.serde.ofText text = (t.serde.read .json v).mapErr some) ∧
    ((¬ ∃ v, Json.IsText text v) → t.serde.ofText text = .err none) := by
  constructor
  · intro v hv
    unfold Serde.ofText
    rw [(read_iff text v).mpr hv]
  · intro h
    unfold Serde.ofText
    cases e : JsonText.read text with
    | none => rfl
    | some v => exact absurd ⟨v, (read_iff text v).mp e⟩ h

example : Serde.unhashedTx.toText exampleTx ≠ none ∧ Stored.Ok .unhashedTx exampleTx :=
  ⟨by
    obtain ⟨text, _, h, _⟩ := C94_stored .unhashedTx exampleTx exampleTx_ok trivial
    have h : Serde.unhashedTx.toText exampleTx = some text := h
    rw [h]; simp, exampleTx_ok⟩

example : Serde.txOutput.toText ⟨546, [.code .OP_DUP]⟩ = some "{\"value\":546,\"script\":\"0176\"}".toList := by
  decide +kernel

end BCash
