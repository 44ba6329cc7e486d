import Verif.Proofs.Import
import Verif.Props.Json

/-! # C43: exactly which documents are imported, and as what -/

namespace BCash
open Spec Json

/-- **C43** (accepted documents): importing gives a transaction exactly if the document describes one,
and then it gives the described transaction: every index is resolved in the tables, preimages all the
way down; the numbers are copied. -/
theorem C43_accepts (unb64 : String → Option Bytes) (d : JsonDoc) (tx : RichTx) :
    ImportsTo unb64 d (.ok tx) ↔ ∃ t, TxAt unb64 d t tx := by
  constructor
  · rintro ⟨n, h⟩
    have := jsonToTx_justified (unb64 := unb64) d n
    rw [h n (Nat.le_refl _)] at this
    exact this
  · rintro ⟨t, h⟩
    exact jsonToTx_reads h

/-- **C43** (rejected documents): the reported error names something that is wrong with the document. -/
theorem C43_errors (unb64 : String → Option Bytes) (d : JsonDoc) (e : JsonError)
    (h : ImportsTo unb64 d (.err e)) : Wrong unb64 d e := by
  obtain ⟨n, h⟩ := h
  have := jsonToTx_justified (unb64 := unb64) d n
  rw [h n (Nat.le_refl _)] at this
  exact this

/-- **C43** (panics): the import panics only if the document uses an entry of the table of byte arrays
that does not exist. -/
theorem C43_panics (unb64 : String → Option Bytes) (d : JsonDoc) (h : ImportsTo unb64 d .panic) :
    ∃ t, TablesOf d t ∧ ∃ i, Uses d t i ∧ d.byteArrays.length ≤ i := by
  obtain ⟨n, h⟩ := h
  have := jsonToTx_justified (unb64 := unb64) d n
  rw [h n (Nat.le_refl _)] at this
  obtain ⟨t, ht, i, hi, hl⟩ := this
  exact ⟨t, ht, i, hi, by rw [ht.2.2.length_eq]; exact hl⟩

/-- **C43** (recursion): without a used entry that is (indirectly) its own preimage, the recursion is
never deeper than the table is long. -/
theorem C43_depth (unb64 : String → Option Bytes) (d : JsonDoc)
    (h : ∀ t, TablesOf d t → ∀ i, Uses d t i → ¬ LeadsTo t i i) :
    ∃ r, ImportsTo unb64 d r ∧ jsonToTx unb64 (d.byteArrays.length + 1) d = some r := by
  have := jsonToTx_justified (unb64 := unb64) d (d.byteArrays.length + 1)
  cases hr : jsonToTx unb64 (d.byteArrays.length + 1) d with
  | some r => exact ⟨r, ⟨_, fun fuel hf => keeps_doc_le d hf hr⟩, rfl⟩
  | none =>
    rw [hr] at this
    obtain ⟨t, ht, i, hi, hc⟩ := this
    obtain ⟨k, hk, hkk⟩ := chain_cycle hc (by rw [ht.2.2.length_eq]; omega)
    exact absurd hkk (h t ht k ⟨i, hi, hk⟩)

/-- **C43** (endless recursion): only if the document uses an entry that is (indirectly) its own
preimage. -/
theorem C43_endless (unb64 : String → Option Bytes) (d : JsonDoc) (h : ImportDiverges unb64 d) :
    ∃ t, TablesOf d t ∧ ∃ i, Uses d t i ∧ LeadsTo t i i := by
  by_contra hc
  obtain ⟨r, _, hr⟩ := C43_depth unb64 d fun t ht i hu hl => hc ⟨t, ht, i, hu, hl⟩
  rw [h] at hr
  cases hr

/-! ## The exact set -/

/-- An array that a used entry describes contains the arrays of all entries the entry leads to. -/
theorem leads_smaller {unb64 : String → Option Bytes} {t : JsonTables} {i j : Nat} (h : LeadsTo t i j) :
    ∀ a, ArrayAt unb64 t i a → ∃ b, ArrayAt unb64 t j b ∧ sizeOf b < sizeOf a := by
  have one : ∀ i j, NamesPreimage t i j → ∀ a, ArrayAt unb64 t i a →
      ∃ b, ArrayAt unb64 t j b ∧ sizeOf b < sizeOf a := by
    rintro i j ⟨e, is, he, hidx, hj⟩ a ha
    cases ha with
    | @entry _ e' s data name preimage he' hs hd hn hp =>
      rw [he] at he'
      cases he'
      rw [hidx] at hp
      cases hp with
      | @some _ as h =>
        have key : ∀ (is : List Nat) (as : List ByteArray), ArraysAt unb64 t is as → j ∈ is →
            ∃ b, ArrayAt unb64 t j b ∧ b ∈ as := by
          intro is as h hj
          replace h := forall₂_of_arraysAt h
          induction h with
          | nil => cases hj
          | cons h _ ih =>
            rcases List.mem_cons.mp hj with rfl | hj
            · exact ⟨_, h, List.mem_cons_self⟩
            · obtain ⟨b, hb, hm⟩ := ih hj
              exact ⟨b, hb, List.mem_cons_of_mem _ hm⟩
        obtain ⟨b, hb, hm⟩ := key is as h hj
        refine ⟨b, hb, ?_⟩
        have := List.sizeOf_lt_of_mem hm
        simp only [ByteArray.mk.sizeOf_spec, Option.some.sizeOf_spec]
        omega
  induction h with
  | one h => exact one _ _ h
  | step h _ ih =>
    intro a ha
    obtain ⟨b, hb, h1⟩ := one _ _ h a ha
    obtain ⟨c, hc, h2⟩ := ih b hb
    exact ⟨c, hc, by omega⟩

theorem arrayAt_no_cycle {unb64 : String → Option Bytes} {t : JsonTables} {i : Nat} (h : LeadsTo t i i) :
    ∀ (n : Nat) (a : ByteArray), sizeOf a = n → ¬ ArrayAt unb64 t i a := by
  intro n
  induction n using Nat.strong_induction_on with
  | _ n ih =>
    intro a hn ha
    obtain ⟨b, hb, hlt⟩ := leads_smaller h a ha
    exact ih (sizeOf b) (by omega) b rfl hb

/-- All entries used by a document that describes a transaction describe an array. -/
theorem used_arrayAt {unb64 : String → Option Bytes} {d : JsonDoc} {t : JsonTables} {tx : RichTx}
    (h : TxAt unb64 d t tx) {i : Nat} (hi : Uses d t i) : ∃ a, ArrayAt unb64 t i a := by
  have ops : ∀ (l : List JsonTaggedOp) (r : List TaggedOp), List.Forall₂ (TaggedOpAt unb64 t) l r →
      ∀ i ∈ l.flatMap (·.arrayIdx), ∃ a, ArrayAt unb64 t i a := by
    intro l r h
    induction h with
    | nil => intro i hi; simp at hi
    | @cons j o l r h _ ih =>
      intro i hi
      rw [List.flatMap_cons] at hi
      rcases List.mem_append.mp hi with hi | hi
      · unfold JsonTaggedOp.arrayIdx at hi
        have := h.op
        generalize o.op = q at this
        cases hop : j.op <;> rw [hop] at hi this <;> simp only [List.not_mem_nil, List.mem_singleton] at hi
        subst hi
        cases this with
        | array h => exact ⟨_, h⟩
      · exact ih i hi
  have base : ∀ i ∈ d.usedArrays, ∃ a, ArrayAt unb64 t i a := by
    intro i hi
    rcases List.mem_append.mp hi with hi | hi
    · have key : ∀ (l : List JsonInput) (r : List RichInput), List.Forall₂ (InputAt unb64 t) l r →
          ∀ j ∈ l, ∃ x, InputAt unb64 t j x := by
        intro l r h
        induction h with
        | nil => intro j hj; cases hj
        | cons h _ ih =>
          intro j hj
          rcases List.mem_cons.mp hj with rfl | hj
          · exact ⟨_, h⟩
          · exact ih j hj
      obtain ⟨j, hj, hi⟩ := List.mem_flatMap.mp hi
      obtain ⟨x, hx⟩ := key _ _ h.inputs j hj
      rcases List.mem_cons.mp hi with rfl | hi
      · exact ⟨_, hx.prevHash⟩
      · rw [List.flatMap_append] at hi
        rcases List.mem_append.mp hi with hi | hi
        · exact ops _ _ hx.script i hi
        · have hl := hx.lockScript
          cases hlock : j.lockScript with
          | none => rw [hlock] at hi; simp at hi
          | some l =>
            rw [hlock] at hi hl
            generalize x.lockScript = y at hl
            cases hl with
            | some h => exact ops _ _ h i hi
    · have key : ∀ (l : List JsonOutput) (r : List RichOutput),
          List.Forall₂ (fun j o => o.value = j.value ∧ j.script.Forall₂ (TaggedOpAt unb64 t) o.script) l r →
          ∀ j ∈ l, ∃ x, j.script.Forall₂ (TaggedOpAt unb64 t) x := by
        intro l r h
        induction h with
        | nil => intro j hj; cases hj
        | cons h _ ih =>
          intro j hj
          rcases List.mem_cons.mp hj with rfl | hj
          · exact ⟨_, h.2⟩
          · exact ih j hj
      obtain ⟨j, hj, hi⟩ := List.mem_flatMap.mp hi
      obtain ⟨x, hx⟩ := key _ _ h.outputs j hj
      exact ops _ _ hx i hi
  obtain ⟨u, hu, h⟩ := hi
  obtain ⟨a, ha⟩ := base u hu
  rcases h with rfl | h
  · exact ⟨a, ha⟩
  · obtain ⟨b, hb, _⟩ := leads_smaller h a ha
    exact ⟨b, hb⟩

/-- **C43**, exactly: a document with nothing else wrong makes the import panic or recurse without end
if and only if it uses an entry that does not exist or that is (indirectly) its own preimage. -/
theorem C43_exact_partial (unb64 : String → Option Bytes) (d : JsonDoc) (hw : ∀ e, ¬ Wrong unb64 d e) :
    (ImportsTo unb64 d .panic ∨ ImportDiverges unb64 d) ↔
      ∃ t, TablesOf d t ∧ ∃ i, Uses d t i ∧ (d.byteArrays.length ≤ i ∨ LeadsTo t i i) := by
  constructor
  · rintro (h | h)
    · obtain ⟨t, ht, i, hi, hl⟩ := C43_panics unb64 d h
      exact ⟨t, ht, i, hi, Or.inl hl⟩
    · obtain ⟨t, ht, i, hi, hl⟩ := C43_endless unb64 d h
      exact ⟨t, ht, i, hi, Or.inr hl⟩
  · rintro ⟨t, ht, i, hi, hbad⟩
    by_cases hd : ImportDiverges unb64 d
    · exact Or.inr hd
    · obtain ⟨n, hn⟩ : ∃ n, jsonToTx unb64 n d ≠ none := by
        by_contra hc
        exact hd fun fuel => by
          by_contra h
          exact hc ⟨fuel, h⟩
      obtain ⟨r, hr⟩ := Option.ne_none_iff_exists'.mp hn
      have himp : ImportsTo unb64 d r := ⟨n, fun fuel hf => keeps_doc_le d hf hr⟩
      cases r with
      | panic => exact Or.inl himp
      | err e => exact absurd (C43_errors unb64 d e himp) (hw e)
      | ok tx =>
        obtain ⟨t', h⟩ := (C43_accepts unb64 d tx).mp himp
        have htt : t' = t := by
          obtain ⟨a1, a2, a3⟩ := t'
          obtain ⟨b1, b2, b3⟩ := t
          obtain ⟨h1, h2, h3⟩ := h.tables
          obtain ⟨k1, k2, k3⟩ := ht
          have := (mapM_deser.mpr h3).symm.trans (mapM_deser.mpr k3)
          dsimp only at *
          cases this
          rw [h1, h2, k1, k2]
        subst htt
        obtain ⟨a, ha⟩ := used_arrayAt h hi
        rcases hbad with hbad | hbad
        · cases ha with
          | entry he _ _ _ _ =>
            have := (List.getElem?_eq_some_iff.mp he).1
            rw [ht.2.2.length_eq] at hbad
            omega
        · exact absurd ha (arrayAt_no_cycle hbad _ a rfl)

/-- `exampleRichTx` exported: a document that describes a transaction. -/
example : ∃ t, TxAt Base64.decode (txToJson Base64.encode exampleRichTx) t exampleRichTx := by
  refine (C43_accepts _ _ _).mp (C42_roundtrip_base64 _ ?_)
  intro o ho i h
  simp [exampleRichTx, RichTx.allOps] at ho
  rcases ho with rfl | rfl | rfl | rfl <;> simp at h
  subst h
  unfold InScriptRange
  omega

/-- A document with one output that pushes the concatenation of an array with itself. -/
def exampleCatDoc : JsonDoc :=
  ⟨["CQ==", "CQk="], [.arr [.num 1, .fn .plain, .num 1, .arr [.num 1, .num 1]], .num 0], ["a.rs", "xx"], 1, [],
   [⟨7, [⟨.pushByteArray 0 true, 0, 3, 4, [], none, some [none, some 1]⟩]⟩], 0⟩

/-- The described transaction, from the tables alone. -/
example : ∃ t, TxAt Base64.decode exampleCatDoc t ⟨1, [], [⟨7, [⟨.pushByteArray (.mk [9, 9] (some "xx") .plain
    (some [.mk [9] none .plain none, .mk [9] none .plain none])) true, "a.rs", 3, 4, [], none,
    some [none, some "xx"]⟩]⟩], 0⟩ := by
  have h1 : ArrayAt Base64.decode ⟨["CQ==", "CQk="], [⟨1, .plain, some 1, some [1, 1]⟩, ⟨0, .plain, none, none⟩],
      ["a.rs", "xx"]⟩ 1 (.mk [9] none .plain none) :=
    .entry (e := ⟨0, .plain, none, none⟩) rfl rfl (by decide +kernel) .none .none
  refine ⟨⟨["CQ==", "CQk="], [⟨1, .plain, some 1, some [1, 1]⟩, ⟨0, .plain, none, none⟩], ["a.rs", "xx"]⟩,
    ⟨rfl, rfl, .cons rfl (.cons rfl .nil)⟩, rfl, .nil, .cons ⟨rfl, .cons ⟨.array ?_, rfl, rfl, rfl, .nil, .none,
      .some (.cons .none (.cons (.some rfl) .nil))⟩ .nil⟩ .nil, rfl⟩
  exact .entry (e := ⟨1, .plain, some 1, some [1, 1]⟩) rfl rfl (by decide +kernel) (.some rfl)
    (.some (.cons h1 (.cons h1 .nil)))

/-- Nothing but the index is wrong with the document of `C43_index_fails`. -/
example (unb64 : String → Option Bytes) : ∀ e, ¬ Wrong unb64 (oneInputDoc []) e := by
  have empty : ∀ t, TablesOf (oneInputDoc []) t → t.byteArrays = [] := by
    intro t ht
    have := ht.2.2.length_eq
    exact List.length_eq_zero_iff.mp this.symm
  intro e h
  cases h with
  | entry hv _ => cases hv
  | dataIdx ht _ he _ => rw [empty _ ht] at he; cases he
  | data ht _ he _ _ => rw [empty _ ht] at he; cases he
  | name ht _ he _ _ => rw [empty _ ht] at he; cases he
  | string hj _ _ => simp [oneInputDoc, JsonDoc.allOps] at hj
  | hash ht _ ha _ =>
    cases ha with
    | entry he _ _ _ _ => rw [empty _ ht] at he; cases he
  | integer hj _ _ => simp [oneInputDoc, JsonDoc.allOps] at hj

/-- No entry of `exampleJsonDoc` is its own preimage. -/
example : ∀ t, TablesOf exampleJsonDoc t → ∀ i, Uses exampleJsonDoc t i → ¬ LeadsTo t i i := by
  rintro t ⟨_, _, ht⟩ i _ h
  have htab : t.byteArrays = [⟨0, .plain, none, none⟩, ⟨1, .sha256, none, some [0]⟩] := by
    have := mapM_deser.mpr ht
    exact (Option.some.inj (Eq.trans (by rfl) this)).symm
  have down : ∀ i j, LeadsTo t i j → j < i := by
    intro i j h
    have one : ∀ i j, NamesPreimage t i j → j < i := by
      rintro i j ⟨e, is, he, hidx, hj⟩
      rw [htab] at he
      match i, he with
      | 0, he => cases he; cases hidx
      | 1, he =>
        cases he
        cases hidx
        simp at hj
        omega
    induction h with
    | one h => exact one _ _ h
    | step h _ ih => exact Nat.lt_trans ih (one _ _ h)
  exact Nat.lt_irrefl _ (down _ _ h)

end BCash
