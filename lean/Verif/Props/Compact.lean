import Verif.Proofs.Compact
import Verif.Props.Import

/-! # C93: size of JSON documents -/

namespace BCash
open Spec Json

/-- **C93** (strings): the table of strings of an exported document holds exactly the strings of the
transaction, each once. -/
theorem C93_strings (b64 : Bytes → String) (tx : RichTx) :
    (txToJson b64 tx).strings.Nodup ∧ ∀ s, s ∈ (txToJson b64 tx).strings ↔ s ∈ txStrings tx := by
  obtain ⟨data, h, hg⟩ := grow_tx (b64 := b64) tx
  unfold txToJson
  dsimp only
  rw [h]
  refine ⟨hg.tidy.strings, fun s => (hg.strings s).trans ?_⟩
  simp [JsonData.empty]

/-- **C93** (data): the table of data holds the text of exactly the byte data of the transaction and its
recorded preimages, each once. -/
theorem C93_data (b64 : Bytes → String) (tx : RichTx) :
    ∃ ds : List Bytes, (txToJson b64 tx).dataB64 = ds.map b64 ∧ ds.Nodup ∧
      ∀ d, d ∈ ds ↔ ∃ a ∈ txArrays tx, a.data = d := by
  obtain ⟨data, h, hg⟩ := grow_tx (b64 := b64) tx
  obtain ⟨ds, h1, h2, h3⟩ := hg.tidy.datas
  refine ⟨ds, ?_, h2, fun d => ?_⟩
  · unfold txToJson
    dsimp only
    rw [h, h1]
  · have := hg.datas d
    rw [List.mem_map] at this
    have hne : ¬ ∃ i, (d, i) ∈ JsonData.empty.dataIndices := by
      rintro ⟨i, h⟩
      cases h
    rw [or_iff_right hne] at this
    rw [← this]
    constructor
    · intro hd
      obtain ⟨i, hi⟩ := List.getElem?_of_mem hd
      exact ⟨i, (h3 d i).mpr hi⟩
    · rintro ⟨i, hi⟩
      exact List.mem_of_getElem? ((h3 d i).mp hi)

/-- **C93** (entries): one entry per byte array of the transaction and recorded preimage (equal arrays
are not shared). -/
theorem C93_entries (b64 : Bytes → String) (tx : RichTx) :
    (txToJson b64 tx).byteArrays.length = (txArrays tx).length := by
  obtain ⟨data, h, hg⟩ := grow_tx (b64 := b64) tx
  unfold txToJson
  dsimp only
  rw [h, List.length_map, hg.count]
  simp [JsonData.empty]

/-- The array whose recorded preimages double `n` times. -/
def doubled : Nat → ByteArray
  | 0 => .mk [] none .plain none
  | n + 1 => .mk [] none .plain (some [doubled n, doubled n])

/-- The entries of a table in which every entry names the one before twice. -/
def doublingEntries (n : Nat) : List JVal :=
  .num 0 :: (List.range n).map fun k => .arr [.num 0, .fn .plain, .null, .arr [.num k, .num k]]

/-- A document of `n + 1` entries with one output that pushes the last one. -/
def doublingDoc (n : Nat) : JsonDoc :=
  ⟨[""], doublingEntries n, [""], 1, [], [⟨0, [⟨.pushByteArray n true, 0, 0, 0, [], none, none⟩]⟩], 0⟩

/-- The transaction it describes. -/
def doublingTx (n : Nat) : RichTx :=
  ⟨1, [], [⟨0, [⟨.pushByteArray (doubled n) true, "", 0, 0, [], none, none⟩]⟩], 0⟩

theorem recorded_doubled (n : Nat) : (recorded (doubled n)).length + 1 = 2 ^ (n + 1) := by
  induction n with
  | zero => rfl
  | succ n ih =>
    unfold doubled recorded recordedMany recordedMany recordedMany
    simp only [List.length_cons, List.length_append, List.length_nil]
    rw [Nat.pow_succ]
    omega

/-- **C93 fails** (import): the transaction of a document can hold exponentially more arrays than the
document has entries (although each entry names at most two preimages); exporting it again gives
exponentially many entries. -/
theorem C93_import_fails (n : Nat) :
    ImportsTo Base64.decode (doublingDoc n) (.ok (doublingTx n)) ∧
      (doublingDoc n).byteArrays.length = n + 1 ∧
      (txToJson Base64.encode (doublingTx n)).byteArrays.length + 1 = 2 ^ (n + 1) := by
  refine ⟨?_, ?_, ?_⟩
  · rw [C43_accepts]
    have htab : ∀ l : List Nat, List.Forall₂ (fun v e => JsonByteArray.deser v = some e)
        (l.map fun k => JVal.arr [.num 0, .fn .plain, .null, .arr [.num k, .num k]])
        (l.map fun k => ⟨0, .plain, none, some [k, k]⟩) := by
      intro l
      induction l with
      | nil => exact .nil
      | cons k l ih => exact .cons rfl ih
    let t : JsonTables := ⟨[""], ⟨0, .plain, none, none⟩ :: (List.range n).map
      fun k => ⟨0, .plain, none, some [k, k]⟩, [""]⟩
    have key : ∀ k, k ≤ n → ArrayAt Base64.decode t k (doubled k) := by
      intro k
      induction k with
      | zero =>
        intro _
        exact .entry (e := ⟨0, .plain, none, none⟩) rfl rfl (by decide +kernel) .none .none
      | succ k ih =>
        intro hk
        have h := ih (by omega)
        refine .entry (e := ⟨0, .plain, none, some [k, k]⟩) ?_ rfl (by decide +kernel) .none
          (.some (.cons h (.cons h .nil)))
        show ((List.range n).map _)[k]? = _
        rw [List.getElem?_map, List.getElem?_range (by omega)]
        rfl
    exact ⟨t, ⟨rfl, rfl, .cons rfl (htab _)⟩, rfl, .nil, .cons ⟨rfl, .cons ⟨.array (key n (Nat.le_refl _)), rfl,
      rfl, rfl, .nil, .none, .none⟩ .nil⟩ .nil, rfl⟩
  · simp [doublingDoc, doublingEntries]
  · rw [C93_entries]
    unfold txArrays txOps doublingTx
    simpa [opArrays] using recorded_doubled n

/-- The strings and data of `exampleRichTx` (compare its exported tables in `Props/Json`). -/
example : txStrings exampleRichTx = ["prev", "ab", "x", "ab", "a.rs", "let x;", "a.rs", "x", "a.rs", "b.rs", ""] ∧
    (txArrays exampleRichTx).map (·.data) = [List.replicate 32 7, [1, 2], [1], [9], [2]] ∧
    (txToJson Base64.encode exampleRichTx).byteArrays.length = 5 := by
  refine ⟨by decide +kernel, by decide +kernel, ?_⟩
  rw [C93_entries]
  decide +kernel

end BCash
