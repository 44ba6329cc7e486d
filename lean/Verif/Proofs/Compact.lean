import Verif.Proofs.Json
import Verif.Spec.Compact

/-! # Exported documents store every string and all data once -/

namespace BCash.Json
open Spec

variable {b64 : Bytes → String}

/-- The tables and the lookup maps agree; nothing is stored twice. -/
structure Tidy (b64 : Bytes → String) (data : JsonData) : Prop where
  strings : data.tables.strings.Nodup
  strIdx : ∀ s i, data.stringIndices s = some i ↔ data.tables.strings[i]? = some s
  datas : ∃ ds : List Bytes, data.tables.dataB64 = ds.map b64 ∧ ds.Nodup ∧
    ∀ d i, (d, i) ∈ data.dataIndices ↔ ds[i]? = some d

/-- From `data` to `data'` the strings `ss`, the byte data `bs` and `n` entries are added. -/
structure Grow (b64 : Bytes → String) (data data' : JsonData) (ss : List String) (bs : List Bytes)
    (n : Nat) : Prop where
  tidy : Tidy b64 data'
  strings : ∀ s, s ∈ data'.tables.strings ↔ s ∈ data.tables.strings ∨ s ∈ ss
  datas : ∀ d, (∃ i, (d, i) ∈ data'.dataIndices) ↔ (∃ i, (d, i) ∈ data.dataIndices) ∨ d ∈ bs
  count : data'.tables.byteArrays.length = data.tables.byteArrays.length + n

theorem Grow.refl {data : JsonData} (h : Tidy b64 data) : Grow b64 data data [] [] 0 :=
  ⟨h, by simp, by simp, rfl⟩

theorem Grow.trans {d0 d1 d2 : JsonData} {s1 s2 : List String} {b1 b2 : List Bytes} {n1 n2 : Nat}
    (h : Grow b64 d0 d1 s1 b1 n1) (h' : Grow b64 d1 d2 s2 b2 n2) :
    Grow b64 d0 d2 (s1 ++ s2) (b1 ++ b2) (n1 + n2) :=
  ⟨h'.tidy, fun s => by rw [h'.strings, h.strings, List.mem_append, or_assoc],
    fun d => by rw [h'.datas, h.datas, List.mem_append, or_assoc],
    by rw [h'.count, h.count, Nat.add_assoc]⟩

theorem Grow.congr {d0 d1 : JsonData} {s1 s2 : List String} {b1 b2 : List Bytes} {n1 n2 : Nat}
    (h : Grow b64 d0 d1 s1 b1 n1) (hs : ∀ s, s ∈ s1 ↔ s ∈ s2) (hb : ∀ d, d ∈ b1 ↔ d ∈ b2) (hn : n1 = n2) :
    Grow b64 d0 d1 s2 b2 n2 :=
  ⟨h.tidy, fun s => by rw [h.strings, hs], fun d => by rw [h.datas, hb], by rw [h.count, hn]⟩

/-- Every call of `f` adds what its argument holds. -/
def Adds {α β : Type} (b64 : Bytes → String) (f : JsonData → α → JsonData × β) (S : α → List String)
    (B : α → List Bytes) (N : α → Nat) : Prop :=
  ∀ data a, Tidy b64 data → Grow b64 data (f data a).1 (S a) (B a) (N a)

theorem adds_mapState {α β : Type} {f : JsonData → α → JsonData × β} {S : α → List String}
    {B : α → List Bytes} {N : α → Nat} (h : Adds b64 f S B N) :
    Adds b64 (mapState f) (fun l => l.flatMap S) (fun l => l.flatMap B) (fun l => (l.map N).sum) := by
  intro data l
  induction l generalizing data with
  | nil => intro ht; exact Grow.refl ht
  | cons a l ih =>
    intro ht
    have h1 := h data a ht
    exact h1.trans (ih _ h1.tidy)

theorem adds_optState {α β : Type} {f : JsonData → α → JsonData × β} {S : α → List String}
    {B : α → List Bytes} {N : α → Nat} (h : Adds b64 f S B N) :
    Adds b64 (optState f) (fun o => o.toList.flatMap S) (fun o => o.toList.flatMap B)
      (fun o => (o.toList.map N).sum) := by
  intro data o ht
  cases o with
  | none => exact Grow.refl ht
  | some a =>
    refine (h data a ht).congr (fun s => ?_) (fun d => ?_) ?_ <;> simp

theorem adds_string : Adds b64 JsonData.insertString (fun s => [s]) (fun _ => []) (fun _ => 0) := by
  intro data s ht
  unfold JsonData.insertString
  cases hs : data.stringIndices s with
  | some i =>
    have := List.mem_of_getElem? ((ht.strIdx s i).mp hs)
    exact ⟨ht, fun u => by
      dsimp only
      constructor
      · exact Or.inl
      · rintro (h | h)
        · exact h
        · rw [List.mem_singleton.mp h]; exact this, by simp, rfl⟩
  | none =>
    have hnew : s ∉ data.tables.strings := by
      intro hm
      obtain ⟨i, hi⟩ := List.getElem?_of_mem hm
      rw [(ht.strIdx s i).mpr hi] at hs
      cases hs
    dsimp only
    refine ⟨⟨?_, ?_, ht.datas⟩, fun u => by simp, fun d => by simp, rfl⟩
    · dsimp only
      rw [List.nodup_append]
      refine ⟨ht.strings, by simp, fun a ha b hb => ?_⟩
      rw [List.mem_singleton.mp hb]
      rintro rfl
      exact hnew ha
    · intro u i
      dsimp only
      by_cases hu : u = s
      · subst hu
        rw [if_pos rfl]
        constructor
        · intro h
          cases h
          rw [List.getElem?_append_right (Nat.le_refl _), Nat.sub_self]
          rfl
        · intro h
          by_cases hi : i < data.tables.strings.length
          · rw [List.getElem?_append_left hi] at h
            exact absurd (List.mem_of_getElem? h) hnew
          · rw [List.getElem?_append_right (by omega)] at h
            have : i - data.tables.strings.length = 0 := by
              by_contra hne
              rw [List.getElem?_eq_none (by simp; omega)] at h
              cases h
            congr 1
            omega
      · rw [if_neg hu, ht.strIdx]
        by_cases hi : i < data.tables.strings.length
        · rw [List.getElem?_append_left hi]
        · rw [List.getElem?_append_right (by omega), List.getElem?_eq_none (by omega)]
          constructor
          · intro h; cases h
          · intro h
            have := List.mem_of_getElem? h
            exact absurd (List.mem_singleton.mp this) hu

theorem adds_data : Adds b64 (JsonData.ensureData b64) (fun _ => []) (fun d => [d]) (fun _ => 0) := by
  intro data d ht
  unfold JsonData.ensureData
  obtain ⟨ds, h1, h2, h3⟩ := ht.datas
  cases hd : data.dataIndices.byLeft d with
  | some i =>
    have := byLeft_mem hd
    exact ⟨ht, by simp, fun u => by
      dsimp only
      constructor
      · exact Or.inl
      · rintro (h | h)
        · exact h
        · rw [List.mem_singleton.mp h]; exact ⟨i, this⟩, rfl⟩
  | none =>
    have hnone : ∀ i, (d, i) ∉ data.dataIndices := by
      intro i hm
      unfold DataMap.byLeft at hd
      have := Option.map_eq_none_iff.mp hd
      have := List.find?_eq_none.mp this _ hm
      simp at this
    have hnew : d ∉ ds := by
      intro hm
      obtain ⟨i, hi⟩ := List.getElem?_of_mem hm
      exact hnone i ((h3 d i).mpr hi)
    have hlen : data.tables.dataB64.length = ds.length := by rw [h1, List.length_map]
    have hmem : ∀ u i, (u, i) ∈ data.dataIndices.insert d data.tables.dataB64.length ↔
        (u = d ∧ i = ds.length) ∨ (u, i) ∈ data.dataIndices := by
      intro u i
      unfold DataMap.insert
      rw [List.mem_cons, List.mem_filter, hlen, Prod.mk.injEq]
      constructor
      · rintro (h | h)
        · exact Or.inl h
        · exact Or.inr h.1
      · rintro (h | h)
        · exact Or.inl h
        · refine Or.inr ⟨h, ?_⟩
          simp only [decide_eq_true_eq]
          refine ⟨?_, ?_⟩
          · rintro rfl; exact hnone _ h
          · rintro rfl
            have := (h3 _ _).mp h
            rw [List.getElem?_eq_none (Nat.le_refl _)] at this
            cases this
    dsimp only
    refine ⟨⟨ht.strings, ht.strIdx, ds ++ [d], ?_, ?_, ?_⟩, fun s => by simp, fun u => ?_, rfl⟩
    · dsimp only
      rw [h1, List.map_append]
      rfl
    · rw [List.nodup_append]
      refine ⟨h2, by simp, fun a ha b hb => ?_⟩
      rw [List.mem_singleton.mp hb]
      rintro rfl
      exact hnew ha
    · intro u i
      dsimp only
      rw [hmem, h3]
      by_cases hi : i < ds.length
      · rw [List.getElem?_append_left hi]
        constructor
        · rintro (h | h)
          · omega
          · exact h
        · exact Or.inr
      · rw [List.getElem?_append_right (by omega), List.getElem?_eq_none (by omega)]
        constructor
        · rintro (⟨rfl, rfl⟩ | h)
          · rw [Nat.sub_self]; rfl
          · cases h
        · intro h
          left
          have hu := List.mem_singleton.mp (List.mem_of_getElem? h)
          refine ⟨hu, ?_⟩
          by_contra hne
          rw [List.getElem?_eq_none (by simp; omega)] at h
          cases h
    · dsimp only
      constructor
      · rintro ⟨i, h⟩
        rcases (hmem u i).mp h with h | h
        · exact Or.inr (List.mem_singleton.mpr h.1)
        · exact Or.inl ⟨i, h⟩
      · rintro (⟨i, h⟩ | h)
        · exact ⟨i, (hmem u i).mpr (Or.inr h)⟩
        · exact ⟨ds.length, (hmem u _).mpr (Or.inl ⟨List.mem_singleton.mp h, rfl⟩)⟩

theorem grow_push (data : JsonData) (ht : Tidy b64 data) (d : Bytes) (name : Option String) (f : Function)
    (idxs : Option (List Nat)) :
    Grow b64 data (data.pushByteArray b64 d name f idxs).1 name.toList [d] 1 := by
  have h1 := adds_optState (adds_string (b64 := b64)) data name ht
  have h2 := adds_data (b64 := b64) _ d h1.tidy
  have h3 := h1.trans h2
  refine ⟨⟨h3.tidy.strings, h3.tidy.strIdx, h3.tidy.datas⟩, fun s => ?_, fun u => ?_, ?_⟩
  · refine (h3.strings s).trans ?_
    simp
  · refine (h3.datas u).trans ?_
    simp
  · show (_ ++ [_]).length = _
    rw [List.length_append]
    have := h3.count
    have hz : ∀ o : Option String, (o.toList.map (fun _ => 0)).sum = 0 := by
      intro o; cases o <;> rfl
    dsimp only at this
    rw [hz] at this
    have e : ∀ x y : Nat, x = y + (0 + 0) → x + 1 = y + 1 := by intro x y h; omega
    exact e _ _ this

/-- The strings of arrays. -/
def aNames (as : List ByteArray) : List String := as.filterMap (·.name)
/-- The data of arrays. -/
def aDatas (as : List ByteArray) : List Bytes := as.map (·.data)

mutual
theorem grow_array : ∀ (a : ByteArray) (data : JsonData), Tidy b64 data →
    Grow b64 data (data.insertByteArray b64 a).1 (aNames (recorded a)) (aDatas (recorded a))
      (recorded a).length
  | .mk d name f none, data, ht => by
    unfold JsonData.insertByteArray recorded
    refine (grow_push data ht d name f none).congr (fun s => ?_) (fun u => ?_) rfl
    · cases name <;> simp [aNames, ByteArray.name]
    · simp [aDatas, ByteArray.data]
  | .mk d name f (some ps), data, ht => by
    have h1 := grow_many ps data ht
    unfold JsonData.insertByteArray recorded
    dsimp only
    refine (h1.trans (grow_push _ h1.tidy d name f _)).congr (fun s => ?_) (fun u => ?_) ?_
    · cases name <;> simp [aNames, ByteArray.name, or_comm]
    · simp [aDatas, ByteArray.data, or_comm]
    · simp
theorem grow_many : ∀ (ps : List ByteArray) (data : JsonData), Tidy b64 data →
    Grow b64 data (data.insertMany b64 ps).1 (aNames (recordedMany ps)) (aDatas (recordedMany ps))
      (recordedMany ps).length
  | [], data, ht => by
    unfold JsonData.insertMany recordedMany
    exact Grow.refl ht
  | p :: ps, data, ht => by
    have h1 := grow_array p data ht
    have h2 := grow_many ps _ h1.tidy
    unfold JsonData.insertMany recordedMany
    dsimp only
    refine (h1.trans h2).congr (fun s => ?_) (fun u => ?_) ?_
    · simp [aNames]
    · simp [aDatas]
    · simp
end

theorem grow_op (data : JsonData) (ht : Tidy b64 data) (o : TaggedOp) :
    Grow b64 data (JsonOp.fromOp b64 data o.op).1 (aNames (opArrays o)) (aDatas (opArrays o))
      (opArrays o).length := by
  unfold opArrays
  cases o.op with
  | pushByteArray a m => exact grow_array a data ht
  | code c => exact Grow.refl ht
  | invalid c => exact Grow.refl ht
  | pushBoolean c => exact Grow.refl ht
  | pushInteger c => exact Grow.refl ht

theorem sum_zero {α : Type} (l : List α) : (l.map fun _ => 0).sum = 0 := by
  induction l with
  | nil => rfl
  | cons a l ih => simpa using ih

theorem sum_zero' {α : Type} (l : List (List α)) : (l.map fun l => (l.map fun _ => 0).sum).sum = 0 := by
  induction l with
  | nil => rfl
  | cons a l ih => simpa [sum_zero] using ih

theorem adds_names : Adds b64 (optState (mapState (optState JsonData.insertString)))
    (fun o => (o.getD []).filterMap id) (fun _ => []) (fun _ => 0) := by
  intro data o ht
  refine (adds_optState (adds_mapState (adds_optState (adds_string (b64 := b64)))) data o ht).congr
    (fun s => ?_) (fun u => ?_) ?_
  · cases o <;> simp
  · simp
  · cases o with
    | none => rfl
    | some l =>
      induction l with
      | nil => rfl
      | cons a l ih => cases a <;> simpa using ih

theorem adds_code : Adds b64 (mapState (fun data (p : UInt32 × String) =>
    let (data, idx) := JsonData.insertString data p.2
    (data, (p.1, idx)))) (fun l => l.map (·.2)) (fun _ => []) (fun _ => 0) := by
  intro data l ht
  have h : Adds b64 (fun data (p : UInt32 × String) =>
    let (data, idx) := JsonData.insertString data p.2
    (data, (p.1, idx))) (fun p => [p.2]) (fun _ => []) (fun _ => 0) :=
    fun data p ht => adds_string data p.2 ht
  refine (adds_mapState h data l ht).congr (fun s => ?_) (fun u => ?_) (sum_zero _)
  · simp [eq_comm]
  · simp

theorem adds_taggedOp : Adds b64 (JsonTaggedOp.fromTaggedOp b64)
    (fun o => aNames (opArrays o) ++ opStrings o) (fun o => aDatas (opArrays o))
    (fun o => (opArrays o).length) := by
  intro data o ht
  have h1 := grow_op data ht o
  have h2 := adds_string (b64 := b64) _ o.srcFile h1.tidy
  have h3 := adds_code (b64 := b64) _ o.srcCode h2.tidy
  have h4 := adds_names (b64 := b64) _ o.pushedNames h3.tidy
  have h5 := adds_names (b64 := b64) _ o.altPushedNames h4.tidy
  refine (((h1.trans h2).trans h3).trans (h4.trans h5)).congr (fun s => ?_) (fun u => ?_) ?_
  · unfold opStrings
    simp only [List.mem_append, List.mem_cons, List.not_mem_nil, or_false, List.cons_append]
    constructor
    · rintro (((h | h) | h) | (h | h)) <;> simp [h]
    · rintro (h | h | (h | h) | h) <;> simp [h]
  · simp
  · simp

theorem adds_ops : Adds b64 (makeJsonOps b64)
    (fun l => aNames (l.flatMap opArrays) ++ l.flatMap opStrings) (fun l => aDatas (l.flatMap opArrays))
    (fun l => (l.flatMap opArrays).length) := by
  intro data l ht
  refine (adds_mapState adds_taggedOp data l ht).congr (fun s => ?_) (fun u => ?_) ?_
  · simp only [aNames, List.mem_flatMap, List.mem_append, List.mem_filterMap]
    constructor
    · rintro ⟨o, ho, ⟨a, ha, h⟩ | h⟩
      · exact Or.inl ⟨a, ⟨o, ho, ha⟩, h⟩
      · exact Or.inr ⟨o, ho, h⟩
    · rintro (⟨a, ⟨o, ho, ha⟩, h⟩ | ⟨o, ho, h⟩)
      · exact ⟨o, ho, Or.inl ⟨a, ha, h⟩⟩
      · exact ⟨o, ho, Or.inr h⟩
  · simp only [aDatas, List.mem_flatMap, List.mem_map]
    constructor
    · rintro ⟨o, ho, a, ha, h⟩; exact ⟨a, ⟨o, ho, ha⟩, h⟩
    · rintro ⟨a, ⟨o, ho, ha⟩, h⟩; exact ⟨o, ho, a, ha, h⟩
  · dsimp only; rw [List.length_flatMap]

/-- The operations of an input. -/
def inOps (i : RichInput) : List TaggedOp := i.script ++ i.lockScript.getD []
/-- The arrays of an input. -/
def inArrays (i : RichInput) : List ByteArray := recorded i.prevHash.1 ++ (inOps i).flatMap opArrays

theorem adds_input : Adds b64 (JsonInput.fromInput b64)
    (fun i => aNames (inArrays i) ++ (inOps i).flatMap opStrings) (fun i => aDatas (inArrays i))
    (fun i => (inArrays i).length) := by
  intro data i ht
  have h1 := grow_array (b64 := b64) i.prevHash.1 data ht
  have h2 := adds_ops _ i.script h1.tidy
  have h3 := adds_optState adds_ops _ i.lockScript h2.tidy
  refine ((h1.trans h2).trans h3).congr (fun s => ?_) (fun u => ?_) ?_
  · unfold inArrays inOps aNames
    dsimp only
    cases i.lockScript with
    | none =>
      simp only [Option.toList_none, List.flatMap_nil, List.append_nil, Option.getD_none,
        List.filterMap_append, List.mem_append]
      exact ⟨fun h => by rcases h with h | h | h <;> simp [h],
        fun h => by rcases h with (h | h) | h <;> simp [h]⟩
    | some l =>
      simp only [Option.toList_some, List.flatMap_cons, List.flatMap_nil, List.append_nil, Option.getD_some,
        List.filterMap_append, List.flatMap_append, List.mem_append]
      exact ⟨fun h => by rcases h with (h | h | h) | h | h <;> simp [h],
        fun h => by rcases h with (h | h | h) | h | h <;> simp [h]⟩
  · unfold inArrays inOps aDatas
    dsimp only
    cases i.lockScript with
    | none => simp
    | some l => simp [List.flatMap_append]
  · unfold inArrays inOps
    dsimp only
    cases i.lockScript with
    | none => simp
    | some l => simp [List.flatMap_append]; omega

theorem adds_output : Adds b64 (JsonOutput.fromOutput b64)
    (fun o => aNames (o.script.flatMap opArrays) ++ o.script.flatMap opStrings)
    (fun o => aDatas (o.script.flatMap opArrays)) (fun o => (o.script.flatMap opArrays).length) :=
  fun data o ht => adds_ops data o.script ht

theorem tidy_empty : Tidy b64 .empty :=
  ⟨List.nodup_nil, fun s i => by simp [JsonData.empty], [], rfl, List.nodup_nil,
    fun d i => by simp [JsonData.empty]⟩

/-- Everything an export stores. -/
theorem grow_tx (tx : RichTx) :
    ∃ data, (JsonTx.fromTx b64 tx).data = data.tables ∧
      Grow b64 .empty data (txStrings tx) ((txArrays tx).map (·.data)) (txArrays tx).length := by
  have h1 := adds_mapState adds_input .empty tx.inputs (tidy_empty (b64 := b64))
  have h2 := adds_mapState adds_output _ tx.outputs h1.tidy
  refine ⟨_, rfl, (h1.trans h2).congr (fun s => ?_) (fun u => ?_) ?_⟩
  · simp only [aNames, inArrays, inOps, txStrings, txArrays, txOps, List.mem_flatMap, List.mem_append,
      List.mem_filterMap]
    constructor
    · rintro (⟨i, hi, ⟨a, ha | ⟨o, ho, ha⟩, h⟩ | ⟨o, ho, h⟩⟩ | ⟨i, hi, ⟨a, ⟨o, ho, ha⟩, h⟩ | ⟨o, ho, h⟩⟩)
      · exact Or.inl ⟨a, Or.inl ⟨i, hi, ha⟩, h⟩
      · exact Or.inl ⟨a, Or.inr ⟨o, Or.inl ⟨i, hi, ho⟩, ha⟩, h⟩
      · exact Or.inr ⟨o, Or.inl ⟨i, hi, ho⟩, h⟩
      · exact Or.inl ⟨a, Or.inr ⟨o, Or.inr ⟨i, hi, ho⟩, ha⟩, h⟩
      · exact Or.inr ⟨o, Or.inr ⟨i, hi, ho⟩, h⟩
    · rintro (⟨a, ⟨i, hi, ha⟩ | ⟨o, ⟨i, hi, ho⟩ | ⟨i, hi, ho⟩, ha⟩, h⟩ | ⟨o, ⟨i, hi, ho⟩ | ⟨i, hi, ho⟩, h⟩)
      · exact Or.inl ⟨i, hi, Or.inl ⟨a, Or.inl ha, h⟩⟩
      · exact Or.inl ⟨i, hi, Or.inl ⟨a, Or.inr ⟨o, ho, ha⟩, h⟩⟩
      · exact Or.inr ⟨i, hi, Or.inl ⟨a, ⟨o, ho, ha⟩, h⟩⟩
      · exact Or.inl ⟨i, hi, Or.inr ⟨o, ho, h⟩⟩
      · exact Or.inr ⟨i, hi, Or.inr ⟨o, ho, h⟩⟩
  · simp only [aDatas, inArrays, inOps, txArrays, txOps, List.mem_flatMap, List.mem_append,
      List.mem_map]
    constructor
    · rintro (⟨i, hi, a, ha | ⟨o, ho, ha⟩, h⟩ | ⟨i, hi, a, ⟨o, ho, ha⟩, h⟩)
      · exact ⟨a, Or.inl ⟨i, hi, ha⟩, h⟩
      · exact ⟨a, Or.inr ⟨o, Or.inl ⟨i, hi, ho⟩, ha⟩, h⟩
      · exact ⟨a, Or.inr ⟨o, Or.inr ⟨i, hi, ho⟩, ha⟩, h⟩
    · rintro ⟨a, ⟨i, hi, ha⟩ | ⟨o, ⟨i, hi, ho⟩ | ⟨i, hi, ho⟩, ha⟩, h⟩
      · exact Or.inl ⟨i, hi, a, Or.inl ha, h⟩
      · exact Or.inl ⟨i, hi, a, Or.inr ⟨o, ho, ha⟩, h⟩
      · exact Or.inr ⟨i, hi, a, ⟨o, ho, ha⟩, h⟩
  · unfold inArrays inOps txArrays txOps
    simp only [List.length_append, List.flatMap_append]
    have key : ∀ l : List RichInput, (l.map fun i => (recorded i.prevHash.1).length +
        ((i.script.flatMap opArrays).length + ((i.lockScript.getD []).flatMap opArrays).length)).sum =
        (l.flatMap fun i => recorded i.prevHash.1).length +
        ((l.flatMap fun i => i.script ++ i.lockScript.getD []).flatMap opArrays).length := by
      intro l
      induction l with
      | nil => rfl
      | cons i l ih =>
        simp only [List.map_cons, List.sum_cons, ih, List.flatMap_cons, List.flatMap_append,
          List.length_append]
        omega
    rw [key]
    have key2 : ∀ l : List RichOutput, (l.map fun o => (o.script.flatMap opArrays).length).sum =
        ((l.flatMap (·.script)).flatMap opArrays).length := by
      intro l
      induction l with
      | nil => rfl
      | cons i l ih =>
        simp only [List.map_cons, List.sum_cons, ih, List.flatMap_cons, List.flatMap_append,
          List.length_append]
    rw [key2]
    omega

end BCash.Json
