import Verif.Model.Json
import Verif.Spec.Integer
import Verif.Proofs.Script
import Mathlib.Tactic.ByContra

/-! # Export and import of JSON documents: the table-extension argument -/

namespace BCash
namespace Json
open Spec

/-- `t'` has at least the entries of `t`, at the same positions. -/
structure Ext (t t' : JsonTables) : Prop where
  data : t.dataB64 <+: t'.dataB64
  arrays : t.byteArrays <+: t'.byteArrays
  strings : t.strings <+: t'.strings

theorem Ext.refl (t : JsonTables) : Ext t t :=
  ⟨List.prefix_refl _, List.prefix_refl _, List.prefix_refl _⟩

theorem Ext.trans {a b c : JsonTables} (h : Ext a b) (h' : Ext b c) : Ext a c :=
  ⟨h.data.trans h'.data, h.arrays.trans h'.arrays, h.strings.trans h'.strings⟩

theorem prefix_getElem? {α : Type} {l l' : List α} {i : Nat} {a : α} (h : l <+: l')
    (ha : l[i]? = some a) : l'[i]? = some a := by
  obtain ⟨s, rfl⟩ := h
  have hlt : i < l.length := by
    by_contra hc
    rw [List.getElem?_eq_none (by omega)] at ha
    cases ha
  rw [List.getElem?_append_left hlt]
  exact ha

variable (b64 : Bytes → String) (unb64 : String → Option Bytes)

/-- The lookup maps of the exporter point to what they say. -/
structure Good (data : JsonData) : Prop where
  strings : ∀ s i, data.stringIndices s = some i → data.tables.strings[i]? = some s
  data : ∀ d i, (d, i) ∈ data.dataIndices → data.tables.dataB64[i]? = some (b64 d)

/-- The map of decoded data of the importer holds what decoding gives. -/
def CacheOk (t : JsonTables) (m : DataMap) : Prop :=
  ∀ d i, (d, i) ∈ m → ∃ s, t.dataB64[i]? = some s ∧ unb64 s = some d

/-- Reading with `x` from (any extension of) the tables gives `a`, at any depth limit from `n` on. -/
def Yields {α : Type} (t : JsonTables) (n : Nat) (x : JsonTables → Nat → Imp α) (a : α) : Prop :=
  ∀ t', Ext t t' → ∀ fuel, n ≤ fuel → ∀ m, CacheOk unb64 t' m →
    ∃ m', CacheOk unb64 t' m' ∧ x t' fuel m = some (.ok (m', a))

variable {b64 unb64}

theorem Yields.mono {α : Type} {t t' : JsonTables} {n n' : Nat} {x : JsonTables → Nat → Imp α} {a : α}
    (h : Yields unb64 t n x a) (he : Ext t t') (hn : n ≤ n') : Yields unb64 t' n' x a :=
  fun t'' he' fuel hf m hm => h t'' (he.trans he') fuel (Nat.le_trans hn hf) m hm

theorem Yields.pure {α : Type} {t : JsonTables} {n : Nat} (a : α) :
    Yields unb64 t n (fun _ _ => Imp.pure a) a :=
  fun _ _ _ _ m hm => ⟨m, hm, rfl⟩

theorem Yields.bind {α β : Type} {t : JsonTables} {n : Nat} {x : JsonTables → Nat → Imp α} {a : α}
    {f : JsonTables → Nat → α → Imp β} {b : β} (hx : Yields unb64 t n x a)
    (hf : Yields unb64 t n (fun t k => f t k a) b) :
    Yields unb64 t n (fun t k => (x t k).bind (f t k)) b := by
  intro t' he fuel hn m hm
  obtain ⟨m1, h1, e1⟩ := hx t' he fuel hn m hm
  obtain ⟨m2, h2, e2⟩ := hf t' he fuel hn m1 h1
  refine ⟨m2, h2, ?_⟩
  dsimp only [Imp.bind]
  rw [e1]
  exact e2

/-- Exporting with `f` and reading with `g` are inverse on the values satisfying `P`. -/
def Exports {α β : Type} (b64 : Bytes → String) (unb64 : String → Option Bytes) (P : α → Prop)
    (f : JsonData → α → JsonData × β) (g : JsonTables → Nat → β → Imp α) : Prop :=
  ∀ data a, P a → Good b64 data → Good b64 (f data a).1 ∧ Ext data.tables (f data a).1.tables ∧
    ∃ n, Yields unb64 (f data a).1.tables n (fun t k => g t k (f data a).2) a

theorem exports_mapState {α β : Type} {P : α → Prop} {f : JsonData → α → JsonData × β}
    {g : JsonTables → Nat → β → Imp α} (h : Exports b64 unb64 P f g) :
    Exports b64 unb64 (fun l => ∀ a ∈ l, P a) (mapState f) (fun t k => Imp.mapM (g t k)) := by
  intro data l
  induction l generalizing data with
  | nil => intro _ hg; exact ⟨hg, Ext.refl _, 0, Yields.pure _⟩
  | cons a l ih =>
    intro hP hg
    obtain ⟨g1, e1, n1, y1⟩ := h data a (hP a List.mem_cons_self) hg
    obtain ⟨g2, e2, n2, y2⟩ := ih (f data a).1 (fun x hx => hP x (List.mem_cons_of_mem _ hx)) g1
    refine ⟨g2, e1.trans e2, max n1 n2, ?_⟩
    have y1' := y1.mono e2 (Nat.le_max_left n1 n2)
    have y2' := y2.mono (Ext.refl _) (Nat.le_max_right n1 n2)
    exact Yields.bind y1' (Yields.bind y2' (Yields.pure _))

theorem exports_optState {α β : Type} {P : α → Prop} {f : JsonData → α → JsonData × β}
    {g : JsonTables → Nat → β → Imp α} (h : Exports b64 unb64 P f g) :
    Exports b64 unb64 (fun o => ∀ a, o = some a → P a) (optState f) (fun t k => Imp.optM (g t k)) := by
  intro data o hP hg
  cases o with
  | none => exact ⟨hg, Ext.refl _, 0, Yields.pure _⟩
  | some a =>
    obtain ⟨g1, e1, n1, y1⟩ := h data a (hP a rfl) hg
    exact ⟨g1, e1, n1, Yields.bind y1 (Yields.pure _)⟩

theorem getString_ok {t : JsonTables} {i : Nat} {s : String} (h : t.strings[i]? = some s) :
    Yields unb64 t 0 (fun t _ => t.getString i) s := by
  intro t' he fuel _ m hm
  refine ⟨m, hm, ?_⟩
  dsimp only [JsonTables.getString]
  rw [prefix_getElem? he.strings h]
  rfl

theorem exports_string : Exports b64 unb64 (fun _ => True) JsonData.insertString
    (fun t _ i => t.getString i) := by
  intro data s _ hg
  unfold JsonData.insertString
  cases hs : data.stringIndices s with
  | some i => exact ⟨hg, Ext.refl _, 0, getString_ok (hg.strings s i hs)⟩
  | none =>
    dsimp only
    refine ⟨⟨?_, hg.data⟩, ⟨List.prefix_refl _, List.prefix_refl _, List.prefix_append _ _⟩, 0,
      getString_ok ?_⟩
    · intro u i hu
      dsimp only at hu ⊢
      split at hu
      · next e =>
        cases hu
        rw [e, List.getElem?_append_right (Nat.le_refl _), Nat.sub_self]
        rfl
      · exact prefix_getElem? (List.prefix_append _ _) (hg.strings u i hu)
    · dsimp only
      rw [List.getElem?_append_right (Nat.le_refl _), Nat.sub_self]
      rfl

theorem byLeft_mem {m : DataMap} {d : Bytes} {i : Nat} (h : m.byLeft d = some i) : (d, i) ∈ m := by
  unfold DataMap.byLeft at h
  obtain ⟨p, hp, rfl⟩ := Option.map_eq_some_iff.mp h
  have h1 := List.find?_some hp
  have h2 := List.mem_of_find?_eq_some hp
  simp only [decide_eq_true_eq] at h1
  rw [← h1]; exact h2

theorem byRight_mem {m : DataMap} {d : Bytes} {i : Nat} (h : m.byRight i = some d) : (d, i) ∈ m := by
  unfold DataMap.byRight at h
  obtain ⟨p, hp, rfl⟩ := Option.map_eq_some_iff.mp h
  have h1 := List.find?_some hp
  have h2 := List.mem_of_find?_eq_some hp
  simp only [decide_eq_true_eq] at h1
  rw [← h1]; exact h2

theorem insert_mem {m : DataMap} {d d' : Bytes} {i i' : Nat} (h : (d', i') ∈ m.insert d i) :
    (d' = d ∧ i' = i) ∨ (d', i') ∈ m := by
  unfold DataMap.insert at h
  rcases List.mem_cons.mp h with h | h
  · left; cases h; exact ⟨rfl, rfl⟩
  · right; exact (List.mem_filter.mp h).1

theorem getData_ok {t : JsonTables} {i : Nat} {s : String} {d : Bytes}
    (h : t.dataB64[i]? = some s) (hd : unb64 s = some d) :
    Yields unb64 t 0 (fun t _ => t.getData unb64 i) d := by
  intro t' he fuel _ m hm
  have h' := prefix_getElem? he.data h
  dsimp only [JsonTables.getData]
  cases hr : m.byRight i with
  | some d' =>
    obtain ⟨s', hs', hd'⟩ := hm d' i (byRight_mem hr)
    rw [h'] at hs'
    cases hs'
    rw [hd] at hd'
    cases hd'
    exact ⟨m, hm, rfl⟩
  | none =>
    dsimp only
    rw [h']
    dsimp only
    rw [hd]
    refine ⟨_, ?_, rfl⟩
    intro d' i' hmem
    rcases insert_mem hmem with ⟨rfl, rfl⟩ | hmem
    · exact ⟨s, h', hd⟩
    · exact hm d' i' hmem

theorem exports_data (hb : ∀ d, unb64 (b64 d) = some d) :
    Exports b64 unb64 (fun _ => True) (JsonData.ensureData b64) (fun t _ i => t.getData unb64 i) := by
  intro data d _ hg
  unfold JsonData.ensureData
  cases hs : data.dataIndices.byLeft d with
  | some i => exact ⟨hg, Ext.refl _, 0, getData_ok (hg.data d i (byLeft_mem hs)) (hb d)⟩
  | none =>
    dsimp only
    refine ⟨⟨hg.strings, ?_⟩, ⟨List.prefix_append _ _, List.prefix_refl _, List.prefix_refl _⟩, 0,
      getData_ok ?_ (hb d)⟩
    · intro d' i hm
      dsimp only at hm ⊢
      rcases insert_mem hm with ⟨rfl, rfl⟩ | hm
      · rw [List.getElem?_append_right (Nat.le_refl _), Nat.sub_self]
        rfl
      · exact prefix_getElem? (List.prefix_append _ _) (hg.data d' i hm)
    · dsimp only
      rw [List.getElem?_append_right (Nat.le_refl _), Nat.sub_self]
      rfl

theorem pushByteArray_ok (hb : ∀ d, unb64 (b64 d) = some d) (data : JsonData) (hg : Good b64 data)
    (d : Bytes) (name : Option String) (f : Function) (idxs : Option (List Nat))
    (ps : Option (List ByteArray)) (n : Nat)
    (hp : Yields unb64 data.tables n
      (fun t k => Imp.optM (Imp.mapM (t.getByteArray unb64 k)) idxs) ps) :
    let r := data.pushByteArray b64 d name f idxs
    Good b64 r.1 ∧ Ext data.tables r.1.tables ∧
      Yields unb64 r.1.tables (n + 1) (fun t k => t.getByteArray unb64 k r.2) (.mk d name f ps) := by
  intro r
  obtain ⟨g1, e1, n1, y1⟩ := exports_optState (exports_string (unb64 := unb64)) data name
    (fun _ _ => trivial) hg
  obtain ⟨g2, e2, n2, y2⟩ := exports_data hb (optState JsonData.insertString data name).1 d trivial g1
  have hr : r = data.pushByteArray b64 d name f idxs := rfl
  unfold JsonData.pushByteArray at hr
  dsimp only at hr
  have e3 : Ext (JsonData.ensureData b64 (optState JsonData.insertString data name).1 d).1.tables
      r.1.tables := by
    rw [hr]
    exact ⟨List.prefix_refl _, List.prefix_append _ _, List.prefix_refl _⟩
  refine ⟨?_, (e1.trans e2).trans e3, ?_⟩
  · rw [hr]; exact ⟨g2.strings, g2.data⟩
  · have hentry : r.1.tables.byteArrays[r.2]? = some
        ⟨(JsonData.ensureData b64 (optState JsonData.insertString data name).1 d).2, f,
          (optState JsonData.insertString data name).2, idxs⟩ := by
      rw [hr]
      dsimp only
      rw [List.getElem?_append_right (Nat.le_refl _), Nat.sub_self]
      rfl
    intro t' he fuel hn m hm
    obtain ⟨fuel, rfl⟩ : ∃ k, fuel = k + 1 := ⟨fuel - 1, by omega⟩
    have he' := prefix_getElem? he.arrays hentry
    have hall := ((e1.trans e2).trans e3).trans he
    obtain ⟨m1, c1, q1⟩ := hp t' hall fuel (by omega) m hm
    have hk : ∀ k, n2 ≤ k → ∃ m2, CacheOk unb64 t' m2 ∧ t'.getData unb64 _ m1 = some (.ok (m2, d)) :=
      fun k hk => y2 t' (e3.trans he) k hk m1 c1
    obtain ⟨m2, c2, q2⟩ := hk n2 (Nat.le_refl _)
    obtain ⟨m3, c3, q3⟩ := y1 t' ((e2.trans e3).trans he) n1 (Nat.le_refl _) m2 c2
    refine ⟨m3, c3, ?_⟩
    simp only [JsonTables.getByteArray, he', Imp.bind]
    dsimp only at q1 q3
    rw [q1]
    simp only [Option.bind_some]
    rw [q2]
    simp only [Option.bind_some]
    rw [q3]
    rfl

mutual
theorem insertByteArray_ok (hb : ∀ d, unb64 (b64 d) = some d) : ∀ (a : ByteArray) (data : JsonData),
    Good b64 data →
    Good b64 (data.insertByteArray b64 a).1 ∧ Ext data.tables (data.insertByteArray b64 a).1.tables ∧
      ∃ n, Yields unb64 (data.insertByteArray b64 a).1.tables n
        (fun t k => t.getByteArray unb64 k (data.insertByteArray b64 a).2) a
  | .mk d name f none, data, hg => by
    have h := pushByteArray_ok hb data hg d name f none none 0 (Yields.pure _)
    rw [JsonData.insertByteArray]
    exact ⟨h.1, h.2.1, _, h.2.2⟩
  | .mk d name f (some ps), data, hg => by
    obtain ⟨g1, e1, n, y1⟩ := insertMany_ok hb ps data hg
    have h := pushByteArray_ok hb (JsonData.insertMany b64 data ps).1 g1 d name f
      (some (JsonData.insertMany b64 data ps).2) (some ps) n (Yields.bind y1 (Yields.pure _))
    rw [JsonData.insertByteArray]
    exact ⟨h.1, e1.trans h.2.1, _, h.2.2⟩

theorem insertMany_ok (hb : ∀ d, unb64 (b64 d) = some d) : ∀ (ps : List ByteArray) (data : JsonData),
    Good b64 data →
    Good b64 (JsonData.insertMany b64 data ps).1 ∧
      Ext data.tables (JsonData.insertMany b64 data ps).1.tables ∧
      ∃ n, Yields unb64 (JsonData.insertMany b64 data ps).1.tables n
        (fun t k => Imp.mapM (t.getByteArray unb64 k) (JsonData.insertMany b64 data ps).2) ps
  | [], data, hg => by
    rw [JsonData.insertMany]
    exact ⟨hg, Ext.refl _, 0, Yields.pure _⟩
  | p :: ps, data, hg => by
    obtain ⟨g1, e1, n1, y1⟩ := insertByteArray_ok hb p data hg
    obtain ⟨g2, e2, n2, y2⟩ := insertMany_ok hb ps (data.insertByteArray b64 p).1 g1
    rw [JsonData.insertMany]
    refine ⟨g2, e1.trans e2, max n1 n2, ?_⟩
    have y1' := y1.mono e2 (Nat.le_max_left n1 n2)
    have y2' := y2.mono (Ext.refl _) (Nat.le_max_right n1 n2)
    exact Yields.bind y1' (Yields.bind y2' (Yields.pure _))
end

theorem exports_array (hb : ∀ d, unb64 (b64 d) = some d) :
    Exports b64 unb64 (fun _ => True) (JsonData.insertByteArray b64)
      (fun t k i => t.getByteArray unb64 k i) :=
  fun data a _ hg => insertByteArray_ok hb a data hg

/-- The integers of the operation are script integers. -/
def IntOk (op : Op ByteArray) : Prop := ∀ i, op = .pushInteger i → InScriptRange i

theorem exports_op (hb : ∀ d, unb64 (b64 d) = some d) :
    Exports b64 unb64 IntOk (JsonOp.fromOp b64) (fun t k j => t.getOp unb64 k j) := by
  intro data op hP hg
  cases op with
  | code c =>
    refine ⟨hg, Ext.refl _, 0, ?_⟩
    show Yields unb64 data.tables 0 (fun t k => t.getOp unb64 k (.code c.toByte)) (.code c)
    simp only [JsonTables.getOp, ofByte_toByte]
    exact Yields.pure _
  | invalid b => exact ⟨hg, Ext.refl _, 0, Yields.pure _⟩
  | pushBoolean b => exact ⟨hg, Ext.refl _, 0, Yields.pure _⟩
  | pushInteger i =>
    refine ⟨hg, Ext.refl _, 0, ?_⟩
    have hi := hP i rfl
    have e : (Int32.ofInt i).toInt = i := by
      unfold InScriptRange at hi
      rw [Int32.toInt_ofInt_of_le (by omega) (by omega)]
    have e2 : Integer.new i = .ok i := by
      unfold InScriptRange at hi
      unfold Integer.new InI32 MIN_SCRIPT_INTEGER MAX_SCRIPT_INTEGER
      rw [if_pos (by omega), if_pos (by omega)]
    show Yields unb64 data.tables 0 (fun t k => t.getOp unb64 k (.pushInteger (Int32.ofInt i)))
      (.pushInteger i)
    simp only [JsonTables.getOp, e, e2]
    exact Yields.pure _
  | pushByteArray a m =>
    obtain ⟨g1, e1, n, y1⟩ := exports_array hb data a trivial hg
    exact ⟨g1, e1, n, Yields.bind y1 (Yields.pure _)⟩

theorem exports_taggedOp (hb : ∀ d, unb64 (b64 d) = some d) :
    Exports b64 unb64 (fun t => IntOk t.op) (JsonTaggedOp.fromTaggedOp b64)
      (fun t k j => t.getTaggedOp unb64 k j) := by
  intro data t hP hg
  have hstr : Exports b64 unb64 (fun _ => True) JsonData.insertString
    (fun t _ i => t.getString i) := exports_string
  have hpair : Exports b64 unb64 (fun _ => True) (fun data (p : UInt32 × String) =>
      ((JsonData.insertString data p.2).1, (p.1, (JsonData.insertString data p.2).2)))
      (fun t _ (p : UInt32 × Nat) => (t.getString p.2).bind fun s => .pure (p.1, s)) := by
    intro data p _ hg
    obtain ⟨g1, e1, n, y1⟩ := hstr data p.2 trivial hg
    exact ⟨g1, e1, n, Yields.bind y1 (Yields.pure _)⟩
  have hnames := exports_optState (exports_mapState (exports_optState hstr))
  obtain ⟨g1, e1, n1, y1⟩ := exports_op hb data t.op hP hg
  obtain ⟨g2, e2, n2, y2⟩ := hstr _ t.srcFile trivial g1
  obtain ⟨g3, e3, n3, y3⟩ := exports_mapState hpair _ t.srcCode (fun _ _ => trivial) g2
  obtain ⟨g4, e4, n4, y4⟩ := hnames _ t.pushedNames (fun _ _ _ _ _ _ => trivial) g3
  obtain ⟨g5, e5, n5, y5⟩ := hnames _ t.altPushedNames (fun _ _ _ _ _ _ => trivial) g4
  refine ⟨g5, (((e1.trans e2).trans e3).trans e4).trans e5, n1 + n2 + n3 + n4 + n5, ?_⟩
  have y1' := y1.mono (((e2.trans e3).trans e4).trans e5) (n' := n1 + n2 + n3 + n4 + n5) (by omega)
  have y2' := y2.mono ((e3.trans e4).trans e5) (n' := n1 + n2 + n3 + n4 + n5) (by omega)
  have y3' := y3.mono (e4.trans e5) (n' := n1 + n2 + n3 + n4 + n5) (by omega)
  have y4' := y4.mono e5 (n' := n1 + n2 + n3 + n4 + n5) (by omega)
  have y5' := y5.mono (Ext.refl _) (n' := n1 + n2 + n3 + n4 + n5) (by omega)
  exact Yields.bind y1' (Yields.bind y2' (Yields.bind y3' (Yields.bind y4' (Yields.bind y5'
    (Yields.pure _)))))

/-- The integers of the operations are script integers. -/
def OpsOk (ops : List TaggedOp) : Prop := ∀ t ∈ ops, IntOk t.op

theorem exports_ops (hb : ∀ d, unb64 (b64 d) = some d) :
    Exports b64 unb64 OpsOk (makeJsonOps b64) (fun t k => Imp.mapM (t.getTaggedOp unb64 k)) :=
  exports_mapState (exports_taggedOp hb)

/-- The integers of the scripts of an input are script integers. -/
def InputOk (i : RichInput) : Prop := OpsOk i.script ∧ ∀ l, i.lockScript = some l → OpsOk l

theorem exports_input (hb : ∀ d, unb64 (b64 d) = some d) :
    Exports b64 unb64 InputOk (JsonInput.fromInput b64) (fun t k j => t.getInput unb64 k j) := by
  intro data i hP hg
  obtain ⟨g1, e1, n1, y1⟩ := exports_array hb data i.prevHash.1 trivial hg
  obtain ⟨g2, e2, n2, y2⟩ := exports_ops hb _ i.script hP.1 g1
  obtain ⟨g3, e3, n3, y3⟩ := exports_optState (exports_ops hb) _ i.lockScript hP.2 g2
  refine ⟨g3, (e1.trans e2).trans e3, n1 + n2 + n3, ?_⟩
  have y1' := y1.mono (e2.trans e3) (n' := n1 + n2 + n3) (by omega)
  have y2' := y2.mono e3 (n' := n1 + n2 + n3) (by omega)
  have y3' := y3.mono (Ext.refl _) (n' := n1 + n2 + n3) (by omega)
  refine Yields.bind y1' (Yields.bind (a := i.prevHash) ?_ (Yields.bind y2' (Yields.bind y3'
    (Yields.pure _))))
  unfold richHashOf
  simp only [i.prevHash.2, dif_pos]
  exact Yields.pure _

theorem exports_output (hb : ∀ d, unb64 (b64 d) = some d) :
    Exports b64 unb64 (fun o => OpsOk o.script) (JsonOutput.fromOutput b64)
      (fun t k j => t.getOutput unb64 k j) := by
  intro data o hP hg
  obtain ⟨g1, e1, n1, y1⟩ := exports_ops hb data o.script hP hg
  exact ⟨g1, e1, n1, Yields.bind y1 (Yields.pure _)⟩

theorem good_empty : Good b64 .empty := by
  constructor
  · intro s i h; cases h
  · intro d i h; cases h

end Json
end BCash
