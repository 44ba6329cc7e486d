import Verif.Proofs.Json
import Verif.Spec.Import
import Verif.Proofs.Base64

/-! # C42, C43: JSON export and import -/

namespace BCash
open Spec Json

/-- Spec: importing the document ends with result `r` (for every sufficiently large limit on the
recursion depth). -/
def Spec.ImportsTo (unb64 : String → Option Bytes) (d : JsonDoc) (r : Res JsonError RichTx) : Prop :=
  ∃ n, ∀ fuel, n ≤ fuel → jsonToTx unb64 fuel d = some r

/-- Spec: importing the document recurses without end. -/
def Spec.ImportDiverges (unb64 : String → Option Bytes) (d : JsonDoc) : Prop :=
  ∀ fuel, jsonToTx unb64 fuel d = none

/-- Spec: all script operations of a transaction. -/
def RichTx.allOps (tx : RichTx) : List TaggedOp :=
  tx.inputs.flatMap (fun i => i.script ++ i.lockScript.getD []) ++ tx.outputs.flatMap (·.script)

/-! ## C42 -/

theorem mapM_num (idxs : List Nat) : idxs.mapM (JVal.num? ∘ JVal.num) = some idxs := by
  induction idxs with
  | nil => rfl
  | cons i l ih => rw [List.mapM_cons, ih]; rfl

/-- **C42** (table entries): the hand-written JSON form of a table entry is read back as the same
entry. -/
theorem C42_entry_roundtrip (e : JsonByteArray) : JsonByteArray.deser e.ser = some e := by
  obtain ⟨d, f, n, p⟩ := e
  cases p with
  | some idxs =>
    cases n <;> cases f <;>
      simp [JsonByteArray.ser, JsonByteArray.deser, JVal.num?, JVal.fn?, JVal.optNum?, JVal.optNums?,
        mapM_num]
  | none =>
    cases n <;> cases f <;>
      simp [JsonByteArray.ser, JsonByteArray.deser, JVal.num?, JVal.fn?, JVal.optNum?]

theorem mapM_entries (l : List JsonByteArray) :
    (l.map JsonByteArray.ser).mapM JsonByteArray.deser = some l := by
  rw [List.mapM_map]
  induction l with
  | nil => rfl
  | cons e l ih =>
    rw [List.mapM_cons, ih, Function.comp_apply, C42_entry_roundtrip]
    rfl

/-- **C42**: exporting a transaction and importing the document gives back the same transaction with
all its debugging information: source locations, names, and for every pushed array and outpoint hash
the name, function and recorded preimages, arbitrarily deep. (The base64 codec is assumed to decode
what it encoded.) -/
theorem C42_roundtrip (b64 : Bytes → String) (unb64 : String → Option Bytes)
    (hb : ∀ d, unb64 (b64 d) = some d) (tx : RichTx)
    (hint : ∀ t ∈ tx.allOps, ∀ i, t.op = .pushInteger i → InScriptRange i) :
    ImportsTo unb64 (txToJson b64 tx) (.ok tx) := by
  have hin : ∀ i ∈ tx.inputs, InputOk i := by
    intro i hi
    constructor
    · intro t ht
      exact hint t (List.mem_append_left _ (List.mem_flatMap.mpr
        ⟨i, hi, List.mem_append_left _ ht⟩))
    · intro l hl t ht
      exact hint t (List.mem_append_left _ (List.mem_flatMap.mpr
        ⟨i, hi, List.mem_append_right _ (by rw [hl]; exact ht)⟩))
  have hout : ∀ o ∈ tx.outputs, OpsOk o.script := by
    intro o ho t ht
    exact hint t (List.mem_append_right _ (List.mem_flatMap.mpr ⟨o, ho, ht⟩))
  obtain ⟨g1, e1, n1, y1⟩ := exports_mapState (exports_input hb) .empty tx.inputs hin good_empty
  obtain ⟨g2, e2, n2, y2⟩ := exports_mapState (exports_output hb) _ tx.outputs hout g1
  refine ⟨n1 + n2, fun fuel hf => ?_⟩
  have y1' := y1.mono e2 (n' := n1 + n2) (by omega)
  have y2' := y2.mono (Ext.refl _) (n' := n1 + n2) (by omega)
  have y : Yields unb64 _ (n1 + n2) (fun t k =>
      (Imp.mapM (fun j => t.getInput unb64 k j)
        (mapState (JsonInput.fromInput b64) .empty tx.inputs).2).bind fun inputs =>
      (Imp.mapM (fun j => t.getOutput unb64 k j)
        (mapState (JsonOutput.fromOutput b64) (mapState (JsonInput.fromInput b64) .empty tx.inputs).1
          tx.outputs).2).bind fun outputs =>
      Imp.pure (RichTx.mk tx.version inputs outputs tx.lockTime)) tx :=
    Yields.bind y1' (Yields.bind y2' (Yields.pure _))
  obtain ⟨m, _, hm⟩ := y _ (Ext.refl _) fuel hf [] (by intro d i h; cases h)
  unfold jsonToTx txToJson
  dsimp only
  rw [mapM_entries]
  dsimp only
  unfold JsonTx.makeTx JsonTx.fromTx
  dsimp only at hm ⊢
  rw [hm]
  rfl

/-- **C42** with standard base64. -/
theorem C42_roundtrip_base64 (tx : RichTx)
    (hint : ∀ t ∈ tx.allOps, ∀ i, t.op = .pushInteger i → InScriptRange i) :
    ImportsTo Base64.decode (txToJson Base64.encode tx) (.ok tx) :=
  C42_roundtrip _ _ Base64.decode_encode tx hint

/-- A transaction with nested provenance (a named concatenation whose first part is itself a hash),
source locations, an integer push, a lock script and an invalid byte. -/
def exampleRichTx : RichTx where
  version := 1
  inputs := [{
    prevHash := ⟨.mk (List.replicate 32 7) (some "prev") .sha256 none, rfl⟩
    prevVout := 3
    script := [⟨.pushByteArray (.mk [1, 2] (some "ab") .plain
        (some [.mk [1] none .hash160 (some [.mk [9] (some "x") .plain none]), .mk [2] (some "ab") .plain none]))
        true, "a.rs", 1, 2, [(0, "let x;"), (3, "a.rs")], some [some "x", none], none⟩,
      ⟨.pushInteger (-5), "a.rs", 2, 2, [], none, some []⟩]
    sequence := 0xffffffff
    lockScript := some [⟨.code .OP_DUP, "b.rs", 1, 2, [], none, none⟩]
    value := some 1000
    isP2sh := some false
    sigHashFlags := none }]
  outputs := [⟨5, [⟨.invalid 0xf0, "", 0, 0, [], none, none⟩]⟩]
  lockTime := 0

example : ∀ t ∈ exampleRichTx.allOps, ∀ i, t.op = .pushInteger i → InScriptRange i := by
  intro t ht i h
  simp [exampleRichTx, RichTx.allOps] at ht
  rcases ht with rfl | rfl | rfl | rfl <;> simp at h
  subst h
  unfold InScriptRange
  omega

/-- The tables of the exported document: equal strings and equal data are stored once. -/
example : (txToJson Base64.encode exampleRichTx).strings = ["prev", "x", "ab", "a.rs", "let x;", "b.rs", ""] ∧
    (txToJson Base64.encode exampleRichTx).dataB64 =
      ["BwcHBwcHBwcHBwcHBwcHBwcHBwcHBwcHBwcHBwcHBwc=", "CQ==", "AQ==", "Ag==", "AQI="] := by
  constructor <;> decide +kernel

/-! ## C43 -/

/-- A document with the given byte array entries and one input whose outpoint hash is entry `0`. -/
def oneInputDoc (byteArrays : List JVal) : JsonDoc :=
  ⟨[], byteArrays, [], 1, [⟨0, 0, [], 0, none, none, none, none⟩], [], 0⟩

/-- **C43 fails** (panic): an index of a byte array beyond the table makes the import panic. -/
theorem C43_index_fails (unb64 : String → Option Bytes) :
    ImportsTo unb64 (oneInputDoc []) .panic := by
  refine ⟨1, fun fuel hf => ?_⟩
  obtain ⟨k, rfl⟩ : ∃ k, fuel = k + 1 := ⟨fuel - 1, by omega⟩
  rfl

/-- **C43 fails** (termination): an entry recorded as its own preimage makes the import recurse without
end. -/
theorem C43_cycle_fails (unb64 : String → Option Bytes) :
    ImportDiverges unb64 (oneInputDoc [.arr [.num 0, .fn .plain, .null, .arr [.num 0]]]) := by
  intro fuel
  have key : ∀ fuel m, JsonTables.getByteArray unb64
      ⟨[], [⟨0, .plain, none, some [0]⟩], []⟩ fuel 0 m = none := by
    intro fuel
    induction fuel with
    | zero => intro m; rfl
    | succ k ih =>
      intro m
      simp only [JsonTables.getByteArray, List.getElem?_cons_zero, Imp.bind, Imp.optM, Imp.mapM]
      rw [ih]
      rfl
  have h := key fuel []
  simp only [jsonToTx, oneInputDoc, JsonTx.makeTx, Imp.mapM, Imp.bind, JsonTables.getInput,
    JsonByteArray.deser, JVal.num?, JVal.fn?, JVal.optNum?, JVal.optNums?, List.mapM_cons,
    List.mapM_nil, Option.pure_def, Option.bind_eq_bind, Option.bind_some, Option.map_some]
  rw [h]
  rfl

/-- The step ends and does not panic. -/
def Imp.Total {α : Type} (x : Imp α) : Prop := ∀ m, ∃ r, x m = some r ∧ r ≠ .panic

theorem Imp.Total.pure {α : Type} (a : α) : Total (Imp.pure a) := fun m => ⟨_, rfl, by simp⟩
theorem Imp.Total.fail {α : Type} (e : JsonError) : Total (Imp.fail e : Imp α) :=
  fun m => ⟨_, rfl, by simp⟩

theorem Imp.Total.bind {α β : Type} {x : Imp α} {f : α → Imp β} (hx : x.Total)
    (hf : ∀ a, (f a).Total) : (x.bind f).Total := by
  intro m
  obtain ⟨r, hr, hne⟩ := hx m
  unfold Imp.bind
  rw [hr, Option.bind_some]
  cases r with
  | ok p => exact hf p.2 p.1
  | err e => exact ⟨_, rfl, by simp⟩
  | panic => exact absurd rfl hne

theorem Imp.Total.mapM {α β : Type} {f : α → Imp β} {l : List α} (h : ∀ a ∈ l, (f a).Total) :
    (Imp.mapM f l).Total := by
  induction l with
  | nil => exact Imp.Total.pure _
  | cons a l ih =>
    exact (h a List.mem_cons_self).bind fun b =>
      (ih fun a ha => h a (List.mem_cons_of_mem _ ha)).bind fun bs => Imp.Total.pure _

theorem Imp.Total.optM {α β : Type} {f : α → Imp β} {o : Option α} (h : ∀ a, o = some a → (f a).Total) :
    (Imp.optM f o).Total := by
  cases o with
  | none => exact Imp.Total.pure _
  | some a => exact (h a rfl).bind fun b => Imp.Total.pure _

theorem getString_total (t : JsonTables) (i : Nat) : (t.getString i).Total := by
  unfold JsonTables.getString
  split
  · exact Imp.Total.pure _
  · exact Imp.Total.fail _

theorem getData_total (unb64 : String → Option Bytes) (t : JsonTables) (i : Nat) :
    (t.getData unb64 i).Total := by
  intro m
  unfold JsonTables.getData
  split
  · exact ⟨_, rfl, by simp⟩
  · split
    · exact ⟨_, rfl, by simp⟩
    · split
      · exact ⟨_, rfl, by simp⟩
      · exact ⟨_, rfl, by simp⟩

theorem getByteArray_total {unb64 : String → Option Bytes} {t : JsonTables} {rank : Nat → Nat}
    (hp : ∀ (i : Nat) (e : JsonByteArray), t.byteArrays[i]? = some e →
      ∀ idxs, e.preimageIndices = some idxs → ∀ j ∈ idxs, j < t.byteArrays.length ∧ rank j < rank i)
    (fuel : Nat) : ∀ i, i < t.byteArrays.length → rank i < fuel →
      (t.getByteArray unb64 fuel i).Total := by
  induction fuel with
  | zero => intro i _ h; omega
  | succ k ih =>
    intro i hi hr
    have he := List.getElem?_eq_getElem hi
    simp only [JsonTables.getByteArray]
    rw [he]
    dsimp only
    refine Imp.Total.bind (Imp.Total.optM fun idxs hidx => Imp.Total.mapM fun j hj => ?_) fun _ =>
      (getData_total _ _ _).bind fun _ => (Imp.Total.optM fun _ _ => getString_total _ _).bind
        fun _ => Imp.Total.pure _
    obtain ⟨h1, h2⟩ := hp i _ he idxs hidx j hj
    exact ih j h1 (by omega)

theorem getTaggedOp_total {unb64 : String → Option Bytes} {t : JsonTables} {fuel : Nat}
    {j : JsonTaggedOp} (h : ∀ i ∈ j.arrayIdx, (t.getByteArray unb64 fuel i).Total) :
    (t.getTaggedOp unb64 fuel j).Total := by
  refine Imp.Total.bind ?_ fun _ => (getString_total _ _).bind fun _ =>
    (Imp.Total.mapM fun _ _ => (getString_total _ _).bind fun _ => Imp.Total.pure _).bind fun _ =>
    (Imp.Total.optM fun _ _ => Imp.Total.mapM fun _ _ => Imp.Total.optM fun _ _ =>
      getString_total _ _).bind fun _ =>
    (Imp.Total.optM fun _ _ => Imp.Total.mapM fun _ _ => Imp.Total.optM fun _ _ =>
      getString_total _ _).bind fun _ => Imp.Total.pure _
  unfold JsonTaggedOp.arrayIdx at h
  unfold JsonTables.getOp
  cases hop : j.op with
  | code b => dsimp only; split <;> exact Imp.Total.pure _
  | invalid b => exact Imp.Total.pure _
  | pushBoolean b => exact Imp.Total.pure _
  | pushInteger i =>
    dsimp only
    split
    · exact Imp.Total.pure _
    · exact Imp.Total.fail _
  | pushByteArray i m =>
    rw [hop] at h
    exact (h i List.mem_cons_self).bind fun _ => Imp.Total.pure _

theorem rank_bound (rank : Nat → Nat) (n : Nat) : ∃ N, ∀ i, i < n → rank i < N := by
  induction n with
  | zero => exact ⟨0, fun i h => absurd h (Nat.not_lt_zero i)⟩
  | succ n ih =>
    obtain ⟨N, h⟩ := ih
    refine ⟨N + rank n + 1, fun i hi => ?_⟩
    rcases Nat.lt_succ_iff_lt_or_eq.mp hi with h' | rfl
    · have := h i h'; omega
    · omega

/-- **C43**, the part that holds: if all byte array indices of a document are in range and the preimage
indices are acyclic (every entry has a higher rank than its preimages), then importing ends with a
transaction or an error, whatever the remaining contents (string and data indices, base64 text,
integers, hash lengths, malformed entries) are. -/
theorem C43_acyclic_partial (unb64 : String → Option Bytes) (d : JsonDoc) (rank : Nat → Nat)
    (hp : ∀ (i : Nat) (v : JVal) (e : JsonByteArray), d.byteArrays[i]? = some v →
      JsonByteArray.deser v = some e → ∀ idxs, e.preimageIndices = some idxs →
      ∀ j ∈ idxs, j < d.byteArrays.length ∧ rank j < rank i)
    (hu : ∀ i ∈ d.usedArrays, i < d.byteArrays.length) :
    ∃ n, ∀ fuel, n ≤ fuel → ∃ r, jsonToTx unb64 fuel d = some r ∧ r ≠ .panic := by
  obtain ⟨N, hN⟩ := rank_bound rank d.byteArrays.length
  refine ⟨N, fun fuel hf => ?_⟩
  unfold jsonToTx
  cases hd : d.byteArrays.mapM JsonByteArray.deser with
  | none => exact ⟨_, rfl, by simp⟩
  | some bas =>
    have hmap : ∀ (l : List JVal) (r : List JsonByteArray), l.mapM JsonByteArray.deser = some r →
        l.length = r.length ∧ ∀ (i : Nat) (e : JsonByteArray), r[i]? = some e →
          ∃ v, l[i]? = some v ∧ JsonByteArray.deser v = some e := by
      intro l
      induction l with
      | nil => intro r hr; cases hr; exact ⟨rfl, fun i e h => by simp at h⟩
      | cons v l ih =>
        intro r hr
        rw [List.mapM_cons] at hr
        obtain ⟨a, ha, hr⟩ := Option.bind_eq_some_iff.mp hr
        obtain ⟨as, has, hr⟩ := Option.bind_eq_some_iff.mp hr
        cases hr
        obtain ⟨h1, h2⟩ := ih as has
        refine ⟨by simp [h1], fun i e he => ?_⟩
        cases i with
        | zero => cases he; exact ⟨v, rfl, ha⟩
        | succ i => exact h2 i e he
    obtain ⟨hlen, hent⟩ := hmap _ _ hd
    have htot : ∀ i ∈ d.usedArrays, ((⟨d.dataB64, bas, d.strings⟩ : JsonTables).getByteArray unb64
        fuel i).Total := by
      intro i hi
      have hi' := hu i hi
      refine getByteArray_total (rank := rank) ?_ fuel i (by dsimp only; omega)
        (Nat.lt_of_lt_of_le (hN i hi') hf)
      intro i e he idxs hidx j hj
      obtain ⟨v, hv, hve⟩ := hent i e he
      have := hp i v e hv hve idxs hidx j hj
      dsimp only
      rw [← hlen]
      exact this
    have hop : ∀ (l : List JsonTaggedOp), (∀ i ∈ l.flatMap (·.arrayIdx), i ∈ d.usedArrays) →
        (Imp.mapM ((⟨d.dataB64, bas, d.strings⟩ : JsonTables).getTaggedOp unb64 fuel) l).Total := by
      intro l hl
      refine Imp.Total.mapM fun j hj => getTaggedOp_total fun i hi => htot i (hl i ?_)
      exact List.mem_flatMap.mpr ⟨j, hj, hi⟩
    dsimp only
    unfold JsonTx.makeTx
    dsimp only
    have key : ((Imp.mapM ((⟨d.dataB64, bas, d.strings⟩ : JsonTables).getInput unb64 fuel)
        d.inputs).bind fun inputs =>
        (Imp.mapM ((⟨d.dataB64, bas, d.strings⟩ : JsonTables).getOutput unb64 fuel) d.outputs).bind
        fun outputs => .pure (⟨d.version, inputs, outputs, d.lockTime⟩ : RichTx)).Total := by
      refine (Imp.Total.mapM fun i hi => ?_).bind fun _ => (Imp.Total.mapM fun o ho => ?_).bind fun _ =>
        Imp.Total.pure _
      · have hsub : ∀ x ∈ i.prevOutHash :: (i.script ++ i.lockScript.getD []).flatMap (·.arrayIdx),
            x ∈ d.usedArrays := fun x hx =>
          List.mem_append_left _ (List.mem_flatMap.mpr ⟨i, hi, hx⟩)
        refine (htot _ (hsub _ List.mem_cons_self)).bind fun b => Imp.Total.bind ?_ fun _ =>
          (hop i.script fun x hx => hsub x (List.mem_cons_of_mem _ ?_)).bind fun _ =>
          (Imp.Total.optM fun l hl => hop l fun x hx => hsub x (List.mem_cons_of_mem _ ?_)).bind
            fun _ => Imp.Total.pure _
        · unfold richHashOf
          split
          · exact Imp.Total.pure _
          · exact Imp.Total.fail _
        · rw [List.flatMap_append]; exact List.mem_append_left _ hx
        · rw [List.flatMap_append, hl]; exact List.mem_append_right _ hx
      · refine (hop o.script fun x hx => ?_).bind fun _ => Imp.Total.pure _
        exact List.mem_append_right _ (List.mem_flatMap.mpr ⟨o, ho, hx⟩)
    obtain ⟨r, hr, hne⟩ := key []
    rw [hr]
    cases r with
    | ok p => exact ⟨_, rfl, by simp [Res.map]⟩
    | err e => exact ⟨_, rfl, by simp [Res.map]⟩
    | panic => exact absurd rfl hne

/-- A document with two entries, the second recorded as computed from the first, the data of the second
not valid base64: the hypotheses of `C43_acyclic_partial` hold (rank = position). -/
def exampleJsonDoc : JsonDoc :=
  ⟨["CQ==", "?"], [.num 0, .arr [.num 1, .fn .sha256, .null, .arr [.num 0]]], [], 1,
   [⟨1, 0, [], 0, none, none, none, none⟩], [], 0⟩

example : (∀ (i : Nat) (v : JVal) (e : JsonByteArray), exampleJsonDoc.byteArrays[i]? = some v →
      JsonByteArray.deser v = some e → ∀ idxs, e.preimageIndices = some idxs →
      ∀ j ∈ idxs, j < exampleJsonDoc.byteArrays.length ∧ id j < id i) ∧
    (∀ i ∈ exampleJsonDoc.usedArrays, i < exampleJsonDoc.byteArrays.length) := by
  constructor
  · intro i v e hv he idxs hidx j hj
    match i, hv with
    | 0, hv => cases hv; cases he; cases hidx
    | 1, hv =>
      cases hv
      cases he
      cases hidx
      simp at hj
      subst hj
      exact ⟨by decide, by decide⟩
  · decide

example : ImportsTo Base64.decode exampleJsonDoc (.err .decodeError) := by
  refine ⟨2, fun fuel hf => ?_⟩
  obtain ⟨k, rfl⟩ : ∃ k, fuel = k + 2 := ⟨fuel - 2, by omega⟩
  rfl

end BCash
