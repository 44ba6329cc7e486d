import Verif.Proofs.Json
import Verif.Spec.Import
import Verif.Props.Integer
import Mathlib.Data.Fintype.Pigeonhole
import Mathlib.Data.List.Forall2

/-! # Import of JSON documents: soundness and completeness against `Spec.TxAt` -/

namespace BCash.Json
open Spec

section
variable {α β : Type} {unb64 : String → Option Bytes} {t : JsonTables}

/-! ## Every outcome is justified -/

/-- Every outcome of a step is justified. -/
def Justified (unb64 : String → Option Bytes) (t : JsonTables) (Err : JsonError → Prop)
    (Pan Endl : Prop) (x : Imp α) (P : α → Prop) : Prop :=
  ∀ m, CacheOk unb64 t m → match x m with
    | none => Endl
    | some .panic => Pan
    | some (.err e) => Err e
    | some (.ok (m', a)) => CacheOk unb64 t m' ∧ P a

variable {Err : JsonError → Prop} {Pan Endl : Prop}

theorem Justified.pure {P : α → Prop} {a : α} (h : P a) :
    Justified unb64 t Err Pan Endl (Imp.pure a) P := fun _ hm => ⟨hm, h⟩

theorem Justified.fail {P : α → Prop} {e : JsonError} (h : Err e) :
    Justified unb64 t Err Pan Endl (Imp.fail e) P := fun _ _ => h

theorem Justified.bind {P : α → Prop} {Q : β → Prop} {x : Imp α} {f : α → Imp β}
    (hx : Justified unb64 t Err Pan Endl x P)
    (hf : ∀ a, P a → Justified unb64 t Err Pan Endl (f a) Q) :
    Justified unb64 t Err Pan Endl (x.bind f) Q := by
  intro m hm
  have h := hx m hm
  unfold Imp.bind
  cases hr : x m with
  | none => rw [hr] at h; exact h
  | some r =>
    rw [hr] at h
    rw [Option.bind_some]
    cases r with
    | panic => exact h
    | err e => exact h
    | ok p => exact hf p.2 h.2 p.1 h.1

theorem Justified.mono {P Q : α → Prop} {x : Imp α} (h : Justified unb64 t Err Pan Endl x P)
    (hPQ : ∀ a, P a → Q a) : Justified unb64 t Err Pan Endl x Q := by
  intro m hm
  have := h m hm
  revert this
  cases x m with
  | none => exact id
  | some r =>
    cases r with
    | panic => exact id
    | err e => exact id
    | ok p => exact fun h => ⟨h.1, hPQ _ h.2⟩

theorem Justified.mapM {R : α → β → Prop} {f : α → Imp β} {l : List α}
    (h : ∀ a ∈ l, Justified unb64 t Err Pan Endl (f a) (R a)) :
    Justified unb64 t Err Pan Endl (Imp.mapM f l) (List.Forall₂ R l) := by
  induction l with
  | nil => exact Justified.pure .nil
  | cons a l ih =>
    refine (h a List.mem_cons_self).bind fun b hb => ?_
    refine (ih fun a ha => h a (List.mem_cons_of_mem _ ha)).bind fun bs hbs => ?_
    exact Justified.pure (.cons hb hbs)

theorem Justified.optM {R : α → β → Prop} {f : α → Imp β} {o : Option α}
    (h : ∀ a, o = some a → Justified unb64 t Err Pan Endl (f a) (R a)) :
    Justified unb64 t Err Pan Endl (Imp.optM f o) (Option.Rel R o) := by
  cases o with
  | none => exact Justified.pure .none
  | some a => exact (h a rfl).bind fun b hb => Justified.pure (.some hb)

theorem Justified.getString {i : Nat} (h : t.strings.length ≤ i → Err (.invalidStringIdx i)) :
    Justified unb64 t Err Pan Endl (t.getString i) (fun s => t.strings[i]? = some s) := by
  unfold JsonTables.getString
  cases hs : t.strings[i]? with
  | some s => exact Justified.pure rfl
  | none => exact Justified.fail (h (List.getElem?_eq_none_iff.mp hs))

theorem Justified.getData {i : Nat} (h1 : t.dataB64.length ≤ i → Err (.invalidDataIdx i))
    (h2 : ∀ s, t.dataB64[i]? = some s → unb64 s = none → Err .decodeError) :
    Justified unb64 t Err Pan Endl (t.getData unb64 i)
      (fun d => ∃ s, t.dataB64[i]? = some s ∧ unb64 s = some d) := by
  intro m hm
  unfold JsonTables.getData
  cases hr : m.byRight i with
  | some d => exact ⟨hm, hm d i (byRight_mem hr)⟩
  | none =>
    dsimp only
    cases hs : t.dataB64[i]? with
    | none => exact h1 (List.getElem?_eq_none_iff.mp hs)
    | some s =>
      dsimp only
      cases hd : unb64 s with
      | none => exact h2 s hs hd
      | some d =>
        refine ⟨?_, s, rfl, hd⟩
        intro d' i' hmem
        rcases insert_mem hmem with ⟨rfl, rfl⟩ | hmem
        · exact ⟨s, hs, hd⟩
        · exact hm d' i' hmem

/-- A chain of `n` preimages starts at this entry. -/
def Chain (t : JsonTables) : Nat → Nat → Prop
  | 0, _ => True
  | n + 1, i => ∃ j, NamesPreimage t i j ∧ Chain t n j

theorem arraysAt_of_forall₂ {is : List Nat} {as : List ByteArray}
    (h : List.Forall₂ (ArrayAt unb64 t) is as) : ArraysAt unb64 t is as := by
  induction h with
  | nil => exact .nil
  | cons h _ ih => exact .cons h ih

theorem forall₂_of_arraysAt : ∀ {is : List Nat} {as : List ByteArray},
    ArraysAt unb64 t is as → List.Forall₂ (ArrayAt unb64 t) is as
  | _, _, .nil => .nil
  | _, _, .cons h hs => .cons h (forall₂_of_arraysAt hs)

/-- Reading a byte array, for a set `U` of indices closed under preimages. -/
theorem Justified.getByteArray {U : Nat → Prop} (hU : ∀ i j, U i → NamesPreimage t i j → U j)
    (hE : ∀ i e, U i → t.byteArrays[i]? = some e →
      (t.dataB64.length ≤ e.dataIdx → Err (.invalidDataIdx e.dataIdx)) ∧
      (∀ s, t.dataB64[e.dataIdx]? = some s → unb64 s = none → Err .decodeError) ∧
      (∀ k, e.nameIdx = some k → t.strings.length ≤ k → Err (.invalidStringIdx k))) (fuel : Nat) :
    ∀ i, U i → Justified unb64 t Err (∃ j, U j ∧ t.byteArrays.length ≤ j) (Chain t fuel i)
      (t.getByteArray unb64 fuel i) (ArrayAt unb64 t i) := by
  induction fuel with
  | zero => intro i _ m _; exact trivial
  | succ k ih =>
    intro i hi
    unfold JsonTables.getByteArray
    cases he : t.byteArrays[i]? with
    | none => intro m _; exact ⟨i, hi, List.getElem?_eq_none_iff.mp he⟩
    | some e =>
      dsimp only
      obtain ⟨h1, h2, h3⟩ := hE i e hi he
      refine Justified.bind (P := Option.Rel (List.Forall₂ (ArrayAt unb64 t)) e.preimageIndices)
        (Justified.optM fun is hidx => Justified.mapM fun j hj => ?_) fun preimage hpre => ?_
      · have hn : NamesPreimage t i j := ⟨e, is, he, hidx, hj⟩
        have := ih j (hU i j hi hn)
        intro m hm
        have := this m hm
        revert this
        cases JsonTables.getByteArray unb64 t k j m with
        | none => exact fun h => ⟨j, hn, h⟩
        | some r =>
          cases r with
          | panic => exact id
          | err e => exact id
          | ok p => exact id
      · refine (Justified.getData h1 h2).bind fun data hdata => ?_
        obtain ⟨s, hs, hd⟩ := hdata
        refine Justified.bind (Justified.optM fun k hk => Justified.getString (h3 k hk)) fun name hn => ?_
        refine Justified.pure (.entry he hs hd hn ?_)
        cases hidx : e.preimageIndices with
        | none => rw [hidx] at hpre; cases hpre; exact .none
        | some is =>
          rw [hidx] at hpre
          cases hpre with
          | some h => exact .some (arraysAt_of_forall₂ h)

theorem Justified.getOp {fuel : Nat} {j : JsonOp}
    (ha : ∀ i m, j = .pushByteArray i m → Justified unb64 t Err Pan Endl (t.getByteArray unb64 fuel i)
      (ArrayAt unb64 t i))
    (hi : ∀ i, j = .pushInteger i → ¬ InScriptRange i.toInt → Err .invalidInteger) :
    Justified unb64 t Err Pan Endl (t.getOp unb64 fuel j) (OpAt unb64 t j) := by
  cases j with
  | code b =>
    unfold JsonTables.getOp
    dsimp only
    cases hb : Opcode.ofByte b with
    | some o => exact Justified.pure (.code hb)
    | none => exact Justified.pure (.unknown hb)
  | invalid b => exact Justified.pure .invalid
  | pushBoolean b => exact Justified.pure .boolean
  | pushInteger i =>
    unfold JsonTables.getOp
    dsimp only
    cases hn : Integer.new i.toInt with
    | ok x =>
      obtain ⟨rfl, h1⟩ := (new_ok_iff _ _).mp hn
      exact Justified.pure (.integer h1)
    | error e =>
      refine Justified.fail (hi i rfl fun hr => ?_)
      rw [(new_ok_iff _ _).mpr ⟨rfl, hr⟩] at hn
      cases hn
  | pushByteArray i m =>
    exact (ha i m rfl).bind fun a h => Justified.pure (.array h)

theorem Justified.getTaggedOp {fuel : Nat} {j : JsonTaggedOp}
    (ha : ∀ i ∈ j.arrayIdx, Justified unb64 t Err Pan Endl (t.getByteArray unb64 fuel i)
      (ArrayAt unb64 t i))
    (hi : ∀ i, j.op = .pushInteger i → ¬ InScriptRange i.toInt → Err .invalidInteger)
    (hs : ∀ k ∈ j.stringIdx, t.strings.length ≤ k → Err (.invalidStringIdx k)) :
    Justified unb64 t Err Pan Endl (t.getTaggedOp unb64 fuel j) (TaggedOpAt unb64 t j) := by
  have hs' : ∀ k ∈ j.stringIdx, Justified unb64 t Err Pan Endl (t.getString k)
      (fun s => t.strings[k]? = some s) := fun k hk => Justified.getString (hs k hk)
  have mem1 : j.srcFile ∈ j.stringIdx := by unfold JsonTaggedOp.stringIdx; simp
  have mem2 : ∀ p ∈ j.srcCode, p.2 ∈ j.stringIdx := by
    intro p hp
    unfold JsonTaggedOp.stringIdx
    simp only [List.cons_append, List.mem_cons, List.mem_append, List.mem_map]
    exact Or.inr (Or.inl (Or.inl ⟨p, hp, rfl⟩))
  have mem3 : ∀ l, j.pushedNames = some l → ∀ o ∈ l, ∀ k, o = some k → k ∈ j.stringIdx := by
    intro l hl o ho k hk
    unfold JsonTaggedOp.stringIdx
    simp only [List.cons_append, List.mem_cons, List.mem_append, List.mem_filterMap]
    refine Or.inr (Or.inl (Or.inr ⟨o, ?_, hk⟩))
    rw [hl]; exact ho
  have mem4 : ∀ l, j.altPushedNames = some l → ∀ o ∈ l, ∀ k, o = some k → k ∈ j.stringIdx := by
    intro l hl o ho k hk
    unfold JsonTaggedOp.stringIdx
    simp only [List.cons_append, List.mem_cons, List.mem_append, List.mem_filterMap]
    refine Or.inr (Or.inr ⟨o, ?_, hk⟩)
    rw [hl]; exact ho
  unfold JsonTables.getTaggedOp
  refine Justified.bind (Justified.getOp (fun i m h => ha i (by unfold JsonTaggedOp.arrayIdx; rw [h]; simp)) hi)
    fun op hop => ?_
  refine Justified.bind (hs' _ mem1) fun file hfile => ?_
  refine Justified.bind (Justified.mapM (R := fun p q => q.1 = p.1 ∧ t.strings[p.2]? = some q.2) fun p hp =>
    (hs' _ (mem2 p hp)).bind fun s h => Justified.pure ⟨rfl, h⟩) fun code hcode => ?_
  refine Justified.bind (P := NamesAt t j.pushedNames) (Justified.optM fun l hl => Justified.mapM fun o ho =>
    Justified.optM fun k hk => hs' k (mem3 l hl o ho k hk)) fun pn hpn => ?_
  refine Justified.bind (P := NamesAt t j.altPushedNames) (Justified.optM fun l hl => Justified.mapM fun o ho =>
    Justified.optM fun k hk => hs' k (mem4 l hl o ho k hk)) fun apn hapn => ?_
  exact Justified.pure ⟨hop, hfile, rfl, rfl, hcode, hpn, hapn⟩

/-! ## Completeness -/

/-- From depth `n` on, the step gives `a`. -/
def Reads (unb64 : String → Option Bytes) (t : JsonTables) (n : Nat) (x : Nat → Imp α) (a : α) : Prop :=
  ∀ fuel, n ≤ fuel → ∀ m, CacheOk unb64 t m → ∃ m', CacheOk unb64 t m' ∧ x fuel m = some (.ok (m', a))

theorem Reads.mono {n n' : Nat} {x : Nat → Imp α} {a : α} (h : Reads unb64 t n x a) (hn : n ≤ n') :
    Reads unb64 t n' x a := fun fuel hf m hm => h fuel (Nat.le_trans hn hf) m hm

theorem Reads.pure {n : Nat} (a : α) : Reads unb64 t n (fun _ => Imp.pure a) a :=
  fun _ _ m hm => ⟨m, hm, rfl⟩

theorem Reads.bind {n : Nat} {x : Nat → Imp α} {a : α} {f : Nat → α → Imp β} {b : β}
    (hx : Reads unb64 t n x a) (hf : Reads unb64 t n (fun k => f k a) b) :
    Reads unb64 t n (fun k => (x k).bind (f k)) b := by
  intro fuel hn m hm
  obtain ⟨m1, h1, e1⟩ := hx fuel hn m hm
  obtain ⟨m2, h2, e2⟩ := hf fuel hn m1 h1
  refine ⟨m2, h2, ?_⟩
  dsimp only [Imp.bind]
  rw [e1]
  exact e2

theorem Reads.mapM {R : α → β → Prop} {f : Nat → α → Imp β} {l : List α} {bs : List β}
    (h : List.Forall₂ R l bs) (hf : ∀ a b, a ∈ l → R a b → ∃ n, Reads unb64 t n (fun k => f k a) b) :
    ∃ n, Reads unb64 t n (fun k => Imp.mapM (f k) l) bs := by
  induction h with
  | nil => exact ⟨0, Reads.pure _⟩
  | @cons a b l bs h _ ih =>
    obtain ⟨n1, h1⟩ := hf a b List.mem_cons_self h
    obtain ⟨n2, h2⟩ := ih fun a b ha => hf a b (List.mem_cons_of_mem _ ha)
    refine ⟨max n1 n2, Reads.bind (h1.mono (Nat.le_max_left _ _)) ?_⟩
    exact Reads.bind (h2.mono (Nat.le_max_right _ _)) (Reads.pure _)

theorem Reads.optM {R : α → β → Prop} {f : Nat → α → Imp β} {o : Option α} {b : Option β}
    (h : Option.Rel R o b) (hf : ∀ a b, o = some a → R a b → ∃ n, Reads unb64 t n (fun k => f k a) b) :
    ∃ n, Reads unb64 t n (fun k => Imp.optM (f k) o) b := by
  cases h with
  | none => exact ⟨0, Reads.pure _⟩
  | some h =>
    obtain ⟨n, h1⟩ := hf _ _ rfl h
    exact ⟨n, Reads.bind h1 (Reads.pure _)⟩

theorem Reads.getString {i : Nat} {s : String} (h : t.strings[i]? = some s) :
    Reads unb64 t 0 (fun _ => t.getString i) s :=
  fun fuel hf m hm => getString_ok h t (Ext.refl t) fuel hf m hm

theorem Reads.getData {i : Nat} {s : String} {d : Bytes} (h : t.dataB64[i]? = some s)
    (hd : unb64 s = some d) : Reads unb64 t 0 (fun _ => t.getData unb64 i) d :=
  fun fuel hf m hm => getData_ok h hd t (Ext.refl t) fuel hf m hm

theorem Reads.entry {i : Nat} {e : JsonByteArray} {s : String} {data : Bytes} {name : Option String}
    {preimage : Option (List ByteArray)} {n : Nat} (he : t.byteArrays[i]? = some e)
    (hs : t.dataB64[e.dataIdx]? = some s) (hd : unb64 s = some data)
    (hn : Option.Rel (fun k (s : String) => t.strings[k]? = some s) e.nameIdx name)
    (hp : Reads unb64 t n (fun k => Imp.optM (Imp.mapM (t.getByteArray unb64 k)) e.preimageIndices) preimage) :
    Reads unb64 t (n + 1) (fun k => t.getByteArray unb64 k i) (.mk data name e.function preimage) := by
  intro fuel hf m hm
  obtain ⟨k, rfl⟩ : ∃ k, fuel = k + 1 := ⟨fuel - 1, by omega⟩
  obtain ⟨n', hname⟩ := Reads.optM (unb64 := unb64) (t := t) (f := fun _ => t.getString) hn
    fun a b _ h => ⟨0, Reads.getString h⟩
  have : Reads unb64 t n (fun k => (Imp.optM (Imp.mapM (t.getByteArray unb64 k)) e.preimageIndices).bind
      fun preimage => (t.getData unb64 e.dataIdx).bind fun data =>
      (Imp.optM t.getString e.nameIdx).bind fun name =>
      .pure (ByteArray.mk data name e.function preimage)) (.mk data name e.function preimage) := by
    refine Reads.bind (f := fun _ preimage => (t.getData unb64 e.dataIdx).bind fun data =>
      (Imp.optM t.getString e.nameIdx).bind fun name =>
      .pure (ByteArray.mk data name e.function preimage)) hp ?_
    refine Reads.bind (f := fun _ data =>
      (Imp.optM t.getString e.nameIdx).bind fun name =>
      .pure (ByteArray.mk data name e.function preimage)) ((Reads.getData hs hd).mono (Nat.zero_le _)) ?_
    refine Reads.bind (f := fun _ name => .pure (ByteArray.mk data name e.function preimage)) (a := name) ?_
      (Reads.pure _)
    exact fun fuel _ m hm => hname (max fuel n') (Nat.le_max_right _ _) m hm
  obtain ⟨m', hm', h⟩ := this k (by omega) m hm
  refine ⟨m', hm', ?_⟩
  simp only [JsonTables.getByteArray]
  rw [he]
  exact h

mutual
theorem reads_array : ∀ {i : Nat} {a : ByteArray}, ArrayAt unb64 t i a →
    ∃ n, Reads unb64 t n (fun k => t.getByteArray unb64 k i) a
  | _, _, .entry he hs hd hn hp => by
    obtain ⟨n, h⟩ := reads_preimage hp
    exact ⟨n + 1, Reads.entry he hs hd hn h⟩
theorem reads_preimage : ∀ {o : Option (List Nat)} {p : Option (List ByteArray)},
    PreimageAt unb64 t o p → ∃ n, Reads unb64 t n (fun k => Imp.optM (Imp.mapM (t.getByteArray unb64 k)) o) p
  | _, _, .none => ⟨0, Reads.pure _⟩
  | _, _, .some h => by
    obtain ⟨n, h⟩ := reads_arrays h
    exact ⟨n, Reads.bind h (Reads.pure _)⟩
theorem reads_arrays : ∀ {is : List Nat} {as : List ByteArray},
    ArraysAt unb64 t is as → ∃ n, Reads unb64 t n (fun k => Imp.mapM (t.getByteArray unb64 k) is) as
  | _, _, .nil => ⟨0, Reads.pure _⟩
  | _, _, .cons h hs => by
    obtain ⟨n1, h1⟩ := reads_array h
    obtain ⟨n2, h2⟩ := reads_arrays hs
    refine ⟨max n1 n2, Reads.bind (h1.mono (Nat.le_max_left _ _)) ?_⟩
    exact Reads.bind (h2.mono (Nat.le_max_right _ _)) (Reads.pure _)
end

theorem reads_op {j : JsonOp} {o : Op ByteArray} (h : OpAt unb64 t j o) :
    ∃ n, Reads unb64 t n (fun k => t.getOp unb64 k j) o := by
  cases h with
  | code h =>
    refine ⟨0, ?_⟩
    unfold JsonTables.getOp
    dsimp only
    rw [h]
    exact Reads.pure _
  | unknown h =>
    refine ⟨0, ?_⟩
    unfold JsonTables.getOp
    dsimp only
    rw [h]
    exact Reads.pure _
  | invalid => exact ⟨0, Reads.pure _⟩
  | boolean => exact ⟨0, Reads.pure _⟩
  | @integer i h =>
    refine ⟨0, ?_⟩
    unfold JsonTables.getOp
    dsimp only
    have : Integer.new i.toInt = .ok i.toInt := (new_ok_iff _ _).mpr ⟨rfl, h⟩
    rw [this]
    exact Reads.pure _
  | array h =>
    obtain ⟨n, h⟩ := reads_array h
    exact ⟨n, Reads.bind h (Reads.pure _)⟩

theorem reads_taggedOp {j : JsonTaggedOp} {o : TaggedOp} (h : TaggedOpAt unb64 t j o) :
    ∃ n, Reads unb64 t n (fun k => t.getTaggedOp unb64 k j) o := by
  obtain ⟨op, file, line, col, code, pn, apn⟩ := o
  obtain ⟨h1, h2, h3, h4, h5, h6, h7⟩ := h
  dsimp only at h1 h2 h3 h4 h5 h6 h7
  subst h3 h4
  obtain ⟨n1, r1⟩ := reads_op h1
  have r2 := Reads.getString (unb64 := unb64) h2
  have str : ∀ (k : Nat) (s : String), t.strings[k]? = some s →
      ∃ n, Reads unb64 t n (fun _ => t.getString k) s := fun k s h => ⟨0, Reads.getString h⟩
  obtain ⟨n3, r3⟩ := Reads.mapM (unb64 := unb64) (t := t)
    (f := fun _ (p : UInt32 × Nat) => (t.getString p.2).bind fun s => .pure (p.1, s)) h5
    (by
      rintro ⟨a, k⟩ ⟨b, s⟩ _ ⟨e, hs⟩
      dsimp only at e hs
      subst e
      exact ⟨0, Reads.bind (f := fun _ s => .pure (b, s)) (Reads.getString hs) (Reads.pure _)⟩)
  have names : ∀ (x : Option (List (Option Nat))) (y : Option (List (Option String))), NamesAt t x y →
      ∃ n, Reads unb64 t n (fun _ => Imp.optM (Imp.mapM (Imp.optM t.getString)) x) y := by
    intro x y h
    refine Reads.optM (f := fun _ => Imp.mapM (Imp.optM t.getString)) h fun a b _ hab => ?_
    refine Reads.mapM (f := fun _ => Imp.optM t.getString) hab fun a b _ hab => ?_
    exact Reads.optM (f := fun _ => t.getString) hab fun a b _ hab => str a b hab
  obtain ⟨n4, r4⟩ := names _ _ h6
  obtain ⟨n5, r5⟩ := names _ _ h7
  refine ⟨max n1 (max n3 (max n4 n5)), ?_⟩
  unfold JsonTables.getTaggedOp
  refine Reads.bind (r1.mono (by omega)) ?_
  refine Reads.bind (f := fun _ srcFile => _) (r2.mono (by omega)) ?_
  refine Reads.bind (f := fun _ srcCode => _) (r3.mono (by omega)) ?_
  refine Reads.bind (f := fun _ pushedNames => _) (r4.mono (by omega)) ?_
  refine Reads.bind (f := fun _ altPushedNames => _) (r5.mono (by omega)) ?_
  exact Reads.pure _

/-! ## Chains -/

theorem _root_.BCash.Spec.LeadsTo.trans {i j k : Nat} (h : LeadsTo t i j) (h' : LeadsTo t j k) : LeadsTo t i k := by
  induction h with
  | one h => exact .step h h'
  | step h _ ih => exact .step h (ih h')

theorem chain_fun : ∀ (n i : Nat), Chain t n i →
    ∃ f : Nat → Nat, f 0 = i ∧ ∀ k, k < n → NamesPreimage t (f k) (f (k + 1))
  | 0, i, _ => ⟨fun _ => i, rfl, fun k h => absurd h (Nat.not_lt_zero k)⟩
  | n + 1, i, ⟨j, hj, hc⟩ => by
    obtain ⟨f, h0, hf⟩ := chain_fun n j hc
    refine ⟨fun k => match k with | 0 => i | k + 1 => f k, rfl, fun k hk => ?_⟩
    cases k with
    | zero => dsimp only; rw [h0]; exact hj
    | succ k => exact hf k (by omega)

theorem leads_fun {f : Nat → Nat} {n : Nat} (hf : ∀ k, k < n → NamesPreimage t (f k) (f (k + 1))) (a d : Nat)
    (h : a + d + 1 ≤ n) : LeadsTo t (f a) (f (a + d + 1)) := by
  induction d with
  | zero => exact .one (hf a (by omega))
  | succ d ih => exact (ih (by omega)).trans (.one (hf (a + d + 1) (by omega)))

/-- A chain longer than the table visits an entry twice. -/
theorem chain_cycle {n i : Nat} (h : Chain t n i) (hn : t.byteArrays.length < n) :
    ∃ k, (i = k ∨ LeadsTo t i k) ∧ LeadsTo t k k := by
  obtain ⟨f, h0, hf⟩ := chain_fun n i h
  have hr : ∀ k, k < n → f k < t.byteArrays.length := by
    intro k hk
    obtain ⟨e, _, he, _⟩ := hf k hk
    exact (List.getElem?_eq_some_iff.mp he).1
  obtain ⟨a, b, hab, heq⟩ := Fintype.exists_ne_map_eq_of_card_lt
    (fun k : Fin n => (⟨f k.1, hr k.1 k.2⟩ : Fin t.byteArrays.length)) (by simpa using hn)
  have heq : f a.1 = f b.1 := congrArg Fin.val heq
  have main : ∀ a b : Nat, a < b → b < n → f a = f b → ∃ k, (i = k ∨ LeadsTo t i k) ∧ LeadsTo t k k := by
    intro a b hlt hb he
    refine ⟨f a, ?_, ?_⟩
    · cases a with
      | zero => exact Or.inl h0.symm
      | succ a =>
        right
        have := leads_fun hf 0 a (by omega)
        rw [h0] at this
        simpa using this
    · have := leads_fun hf a (b - a - 1) (by omega)
      rw [show a + (b - a - 1) + 1 = b by omega, ← he] at this
      exact this
  have hne : a.1 ≠ b.1 := fun e => hab (Fin.ext e)
  rcases Nat.lt_or_gt_of_ne hne with h | h
  · exact main _ _ h b.2 heq
  · exact main _ _ h a.2 heq.symm

theorem mapM_deser {l : List JVal} {r : List JsonByteArray} :
    l.mapM JsonByteArray.deser = some r ↔ l.Forall₂ (fun v e => JsonByteArray.deser v = some e) r := by
  induction l generalizing r with
  | nil =>
    simp only [List.mapM_nil, List.forall₂_nil_left_iff]
    constructor
    · intro h; cases h; rfl
    · rintro rfl; rfl
  | cons v l ih =>
    rw [List.mapM_cons, List.forall₂_cons_left_iff]
    constructor
    · intro h
      obtain ⟨a, ha, h⟩ := Option.bind_eq_some_iff.mp h
      obtain ⟨as, has, h⟩ := Option.bind_eq_some_iff.mp h
      cases h
      exact ⟨a, as, ha, ih.mp has, rfl⟩
    · rintro ⟨a, as, ha, has, rfl⟩
      rw [ha, ih.mpr has]
      rfl

/-! ## More depth changes nothing but an exceeded limit -/

/-- Raising the limit on the depth keeps every result. -/
def Keeps (x y : Imp α) : Prop := ∀ m r, x m = some r → y m = some r

theorem Keeps.refl (x : Imp α) : Keeps x x := fun _ _ h => h

theorem Keeps.bind {x y : Imp α} {f g : α → Imp β} (hx : Keeps x y) (hf : ∀ a, Keeps (f a) (g a)) :
    Keeps (x.bind f) (y.bind g) := by
  intro m r h
  unfold Imp.bind at h ⊢
  cases hr : x m with
  | none => rw [hr] at h; cases h
  | some q =>
    rw [hr, Option.bind_some] at h
    rw [hx m q hr, Option.bind_some]
    cases q with
    | ok p => exact hf p.2 p.1 r h
    | err e => exact h
    | panic => exact h

theorem Keeps.mapM {f g : α → Imp β} (hf : ∀ a, Keeps (f a) (g a)) (l : List α) :
    Keeps (Imp.mapM f l) (Imp.mapM g l) := by
  induction l with
  | nil => exact Keeps.refl _
  | cons a l ih => exact (hf a).bind fun b => ih.bind fun bs => Keeps.refl _

theorem Keeps.optM {f g : α → Imp β} (hf : ∀ a, Keeps (f a) (g a)) (o : Option α) :
    Keeps (Imp.optM f o) (Imp.optM g o) := by
  cases o with
  | none => exact Keeps.refl _
  | some a => exact (hf a).bind fun b => Keeps.refl _

theorem keeps_array (k : Nat) : ∀ i,
    Keeps (t.getByteArray unb64 k i) (t.getByteArray unb64 (k + 1) i) := by
  induction k with
  | zero => intro i m r h; cases h
  | succ k ih =>
    intro i
    conv => arg 1; unfold JsonTables.getByteArray
    conv => arg 2; unfold JsonTables.getByteArray
    cases t.byteArrays[i]? with
    | none => exact Keeps.refl _
    | some e => exact (Keeps.optM (Keeps.mapM ih) _).bind fun _ => Keeps.refl _

theorem keeps_op (k : Nat) (j : JsonTaggedOp) :
    Keeps (t.getTaggedOp unb64 k j) (t.getTaggedOp unb64 (k + 1) j) := by
  refine Keeps.bind ?_ fun _ => Keeps.refl _
  cases j.op with
  | pushByteArray i m => exact (keeps_array k i).bind fun _ => Keeps.refl _
  | code b => exact Keeps.refl _
  | invalid b => exact Keeps.refl _
  | pushBoolean b => exact Keeps.refl _
  | pushInteger i => exact Keeps.refl _

theorem keeps_doc (d : JsonDoc) (k : Nat) (r : Res JsonError RichTx)
    (h : jsonToTx unb64 k d = some r) : jsonToTx unb64 (k + 1) d = some r := by
  unfold jsonToTx at h ⊢
  cases hd : d.byteArrays.mapM JsonByteArray.deser with
  | none => rw [hd] at h; exact h
  | some bas =>
    rw [hd] at h
    dsimp only at h ⊢
    unfold JsonTx.makeTx at h ⊢
    obtain ⟨q, hq, rfl⟩ := Option.map_eq_some_iff.mp h
    refine Option.map_eq_some_iff.mpr ⟨q, ?_, rfl⟩
    refine Keeps.bind (Keeps.mapM (fun i => ?_) _) (fun _ => Keeps.bind (Keeps.mapM (fun o => ?_) _)
      fun _ => Keeps.refl _) _ _ hq
    · refine (keeps_array k _).bind fun _ => (Keeps.refl _).bind fun _ =>
        (Keeps.mapM (keeps_op k) _).bind fun _ => (Keeps.optM (Keeps.mapM (keeps_op k)) _).bind fun _ =>
        Keeps.refl _
    · exact (Keeps.mapM (keeps_op k) _).bind fun _ => Keeps.refl _

theorem keeps_doc_le (d : JsonDoc) {k n : Nat} (hkn : k ≤ n) {r : Res JsonError RichTx}
    (h : jsonToTx unb64 k d = some r) : jsonToTx unb64 n d = some r := by
  induction hkn with
  | refl => exact h
  | step _ ih => exact keeps_doc d _ r ih

/-! ## Whole documents -/

theorem Justified.input {fuel : Nat} {j : JsonInput} {Endl : Prop}
    (ha : ∀ i ∈ j.prevOutHash :: (j.script ++ j.lockScript.getD []).flatMap (·.arrayIdx),
      Justified unb64 t Err Pan Endl (t.getByteArray unb64 fuel i) (ArrayAt unb64 t i))
    (hh : ∀ a, ArrayAt unb64 t j.prevOutHash a → a.data.length ≠ 32 → Err .invalidHash)
    (hi : ∀ o ∈ j.script ++ j.lockScript.getD [], ∀ i, o.op = .pushInteger i →
      ¬ InScriptRange i.toInt → Err .invalidInteger)
    (hs : ∀ o ∈ j.script ++ j.lockScript.getD [], ∀ k ∈ o.stringIdx, t.strings.length ≤ k →
      Err (.invalidStringIdx k)) :
    Justified unb64 t Err Pan Endl (t.getInput unb64 fuel j) (InputAt unb64 t j) := by
  have hop : ∀ l, (∀ o ∈ l, o ∈ j.script ++ j.lockScript.getD []) →
      Justified unb64 t Err Pan Endl (Imp.mapM (t.getTaggedOp unb64 fuel) l)
        (List.Forall₂ (TaggedOpAt unb64 t) l) := by
    intro l hl
    refine Justified.mapM fun o ho => Justified.getTaggedOp (fun i hi => ha i ?_) (hi o (hl o ho))
      (hs o (hl o ho))
    exact List.mem_cons_of_mem _ (List.mem_flatMap.mpr ⟨o, hl o ho, hi⟩)
  unfold JsonTables.getInput
  refine (ha _ List.mem_cons_self).bind fun b hb => ?_
  refine Justified.bind (P := fun h => h.1 = b) ?_ fun hash hhash => ?_
  · unfold richHashOf
    split
    · exact Justified.pure rfl
    · next h => exact Justified.fail (hh b hb h)
  refine (hop j.script fun o ho => List.mem_append_left _ ho).bind fun script hscript => ?_
  refine (Justified.optM fun l hl => hop l fun o ho => List.mem_append_right _ (by rw [hl]; exact ho)).bind
    fun lock hlock => ?_
  exact Justified.pure ⟨hhash ▸ hb, rfl, hscript, rfl, hlock, rfl, rfl, rfl⟩

/-- Every outcome of an import is justified. -/
theorem justified_doc {d : JsonDoc} (ht : TablesOf d t) (fuel : Nat) :
    Justified unb64 t (Wrong unb64 d) (∃ j, Uses d t j ∧ t.byteArrays.length ≤ j)
      (∃ i ∈ d.usedArrays, Chain t fuel i)
      ((Imp.mapM (t.getInput unb64 fuel) d.inputs).bind fun inputs =>
        (Imp.mapM (t.getOutput unb64 fuel) d.outputs).bind fun outputs =>
        .pure (⟨d.version, inputs, outputs, d.lockTime⟩ : RichTx)) (TxAt unb64 d t) := by
  obtain ⟨hd, hstr, hent⟩ := ht
  have harr : ∀ i ∈ d.usedArrays, Justified unb64 t (Wrong unb64 d)
      (∃ j, Uses d t j ∧ t.byteArrays.length ≤ j) (∃ i ∈ d.usedArrays, Chain t fuel i)
      (t.getByteArray unb64 fuel i) (ArrayAt unb64 t i) := by
    intro i hi
    have := Justified.getByteArray (unb64 := unb64) (t := t) (Err := Wrong unb64 d) (U := Uses d t)
      (by
        rintro i j ⟨u, hu, h⟩ hn
        rcases h with rfl | h
        · exact ⟨u, hu, Or.inr (.one hn)⟩
        · exact ⟨u, hu, Or.inr (h.trans (.one hn))⟩)
      (by
        intro i e hu he
        refine ⟨fun h => .dataIdx ⟨hd, hstr, hent⟩ hu he (by rw [← hd]; exact h), ?_, ?_⟩
        · intro s hs h
          exact .data ⟨hd, hstr, hent⟩ hu he (by rw [← hd]; exact hs) h
        · intro k hk h
          exact .name ⟨hd, hstr, hent⟩ hu he hk (by rw [← hstr]; exact h)) fuel i ⟨i, hi, Or.inl rfl⟩
    intro m hm
    have := this m hm
    revert this
    cases JsonTables.getByteArray unb64 t fuel i m with
    | none => exact fun h => ⟨i, hi, h⟩
    | some r =>
      cases r with
      | panic => exact id
      | err e => exact id
      | ok p => exact id
  refine Justified.bind (P := d.inputs.Forall₂ (InputAt unb64 t)) (Justified.mapM fun j hj => ?_)
    fun inputs hin => ?_
  · have hmem : ∀ o ∈ j.script ++ j.lockScript.getD [], o ∈ d.allOps := fun o ho =>
      List.mem_append_left _ (List.mem_flatMap.mpr ⟨j, hj, ho⟩)
    refine Justified.input (fun i hi => harr i ?_) ?_ ?_ ?_
    · exact List.mem_append_left _ (List.mem_flatMap.mpr ⟨j, hj, hi⟩)
    · exact fun a ha h => .hash ⟨hd, hstr, hent⟩ hj ha h
    · exact fun o ho i hi h => .integer (hmem o ho) hi h
    · exact fun o ho k hk h => .string (hmem o ho) hk (by rw [← hstr]; exact h)
  refine Justified.bind (P := d.outputs.Forall₂ (fun j o => o.value = j.value ∧
    j.script.Forall₂ (TaggedOpAt unb64 t) o.script)) (Justified.mapM fun j hj => ?_) fun outputs hout => ?_
  · have hmem : ∀ o ∈ j.script, o ∈ d.allOps := fun o ho =>
      List.mem_append_right _ (List.mem_flatMap.mpr ⟨j, hj, ho⟩)
    unfold JsonTables.getOutput
    refine Justified.bind (Justified.mapM fun o ho => Justified.getTaggedOp (fun i hi => harr i ?_)
      (fun i hi h => .integer (hmem o ho) hi h)
      (fun k hk h => .string (hmem o ho) hk (by rw [← hstr]; exact h))) fun s hs => Justified.pure ⟨rfl, hs⟩
    exact List.mem_append_right _ (List.mem_flatMap.mpr ⟨j, hj, List.mem_flatMap.mpr ⟨o, ho, hi⟩⟩)
  exact Justified.pure ⟨⟨hd, hstr, hent⟩, rfl, hin, hout, rfl⟩

theorem cache_nil : CacheOk unb64 t [] := fun _ _ h => absurd h List.not_mem_nil

/-- The outcomes of `json_to_tx`. -/
theorem jsonToTx_justified (d : JsonDoc) (fuel : Nat) :
    match jsonToTx unb64 fuel d with
    | none => ∃ t, TablesOf d t ∧ ∃ i ∈ d.usedArrays, Chain t fuel i
    | some .panic => ∃ t, TablesOf d t ∧ ∃ j, Uses d t j ∧ t.byteArrays.length ≤ j
    | some (.err e) => Wrong unb64 d e
    | some (.ok tx) => ∃ t, TxAt unb64 d t tx := by
  unfold jsonToTx
  cases hd : d.byteArrays.mapM JsonByteArray.deser with
  | none =>
    have : ∃ v ∈ d.byteArrays, JsonByteArray.deser v = none := by
      by_contra hc
      have hc : ∀ v ∈ d.byteArrays, ∃ e, JsonByteArray.deser v = some e := by
        intro v hv
        cases he : JsonByteArray.deser v with
        | none => exact absurd ⟨v, hv, he⟩ hc
        | some e => exact ⟨e, rfl⟩
      have key : ∀ l : List JVal, (∀ v ∈ l, ∃ e, JsonByteArray.deser v = some e) →
          ∃ r, l.mapM JsonByteArray.deser = some r := by
        intro l
        induction l with
        | nil => exact fun _ => ⟨[], rfl⟩
        | cons v l ih =>
          intro h
          obtain ⟨e, he⟩ := h v List.mem_cons_self
          obtain ⟨r, hr⟩ := ih fun v hv => h v (List.mem_cons_of_mem _ hv)
          exact ⟨e :: r, by rw [List.mapM_cons, he, hr]; rfl⟩
      obtain ⟨r, hr⟩ := key _ hc
      rw [hr] at hd
      cases hd
    obtain ⟨v, hv, h⟩ := this
    exact .entry hv h
  | some bas =>
    dsimp only
    have ht : TablesOf d ⟨d.dataB64, bas, d.strings⟩ := ⟨rfl, rfl, mapM_deser.mp hd⟩
    have h := justified_doc (unb64 := unb64) ht fuel [] cache_nil
    unfold JsonTx.makeTx
    dsimp only
    revert h
    generalize (Imp.bind _ _ [] : Option (Res JsonError (DataMap × RichTx))) = r
    intro h
    cases r with
    | none => exact ⟨_, ht, h⟩
    | some r =>
      cases r with
      | panic => exact ⟨_, ht, h⟩
      | err e => exact h
      | ok p => exact ⟨_, h.2⟩

/-- Documents that describe a transaction are read. -/
theorem jsonToTx_reads {d : JsonDoc} {tx : RichTx} (h : TxAt unb64 d t tx) :
    ∃ n, ∀ fuel, n ≤ fuel → jsonToTx unb64 fuel d = some (.ok tx) := by
  obtain ⟨version, inputs, outputs, lockTime⟩ := tx
  obtain ⟨⟨hd, hs, hent⟩, hv, hin, hout, hl⟩ := h
  obtain ⟨dataB64, byteArrays, strings⟩ := t
  dsimp only at hd hs hent hv hl hin hout
  subst hd hs hv hl
  have ops : ∀ (l : List JsonTaggedOp) (r : List TaggedOp),
      List.Forall₂ (TaggedOpAt unb64 ⟨d.dataB64, byteArrays, d.strings⟩) l r →
      ∃ n, Reads unb64 ⟨d.dataB64, byteArrays, d.strings⟩ n
        (fun k => Imp.mapM (JsonTables.getTaggedOp unb64 ⟨d.dataB64, byteArrays, d.strings⟩ k) l) r :=
    fun l r h => Reads.mapM h fun a b _ hab => reads_taggedOp hab
  obtain ⟨n1, r1⟩ := Reads.mapM (unb64 := unb64) (t := ⟨d.dataB64, byteArrays, d.strings⟩)
    (f := JsonTables.getInput unb64 ⟨d.dataB64, byteArrays, d.strings⟩) hin (by
      intro j i _ hj
      obtain ⟨⟨hash, hlen⟩, vout, script, seq, lock, value, p2sh, flags⟩ := i
      obtain ⟨h1, h2, h3, h4, h5, h6, h7, h8⟩ := hj
      dsimp only at h1 h2 h3 h4 h5 h6 h7 h8
      subst h2 h4 h6 h7 h8
      obtain ⟨n1, r1⟩ := reads_array h1
      obtain ⟨n2, r2⟩ := ops _ _ h3
      obtain ⟨n3, r3⟩ := Reads.optM (unb64 := unb64) (t := ⟨d.dataB64, byteArrays, d.strings⟩)
        (f := fun k => Imp.mapM (JsonTables.getTaggedOp unb64 ⟨d.dataB64, byteArrays, d.strings⟩ k))
        h5 fun a b _ hab => ops a b hab
      refine ⟨max n1 (max n2 n3), ?_⟩
      unfold JsonTables.getInput
      refine Reads.bind (r1.mono (by omega)) ?_
      refine Reads.bind (f := fun k hash => _) (a := (⟨hash, hlen⟩ : RichHash)) ?_ ?_
      · unfold richHashOf
        rw [dif_pos hlen]
        exact Reads.pure _
      refine Reads.bind (r2.mono (by omega)) ?_
      refine Reads.bind (r3.mono (by omega)) ?_
      exact Reads.pure _)
  obtain ⟨n2, r2⟩ := Reads.mapM (unb64 := unb64) (t := ⟨d.dataB64, byteArrays, d.strings⟩)
    (f := JsonTables.getOutput unb64 ⟨d.dataB64, byteArrays, d.strings⟩) hout (by
      intro j o _ hj
      obtain ⟨value, script⟩ := o
      obtain ⟨h1, h2⟩ := hj
      dsimp only at h1 h2
      subst h1
      obtain ⟨n, r⟩ := ops _ _ h2
      refine ⟨n, ?_⟩
      unfold JsonTables.getOutput
      exact Reads.bind r (Reads.pure _))
  refine ⟨max n1 n2, fun fuel hf => ?_⟩
  unfold jsonToTx
  rw [mapM_deser.mpr hent]
  dsimp only
  have : Reads unb64 ⟨d.dataB64, byteArrays, d.strings⟩ (max n1 n2) (fun k =>
      (Imp.mapM (JsonTables.getInput unb64 ⟨d.dataB64, byteArrays, d.strings⟩ k) d.inputs).bind fun inputs =>
      (Imp.mapM (JsonTables.getOutput unb64 ⟨d.dataB64, byteArrays, d.strings⟩ k) d.outputs).bind
      fun outputs => .pure (⟨d.version, inputs, outputs, d.lockTime⟩ : RichTx))
      ⟨d.version, inputs, outputs, d.lockTime⟩ := by
    refine Reads.bind (r1.mono (by omega)) ?_
    refine Reads.bind (r2.mono (by omega)) ?_
    exact Reads.pure _
  obtain ⟨m', _, h⟩ := this fuel hf [] cache_nil
  unfold JsonTx.makeTx
  dsimp only at h ⊢
  rw [h]
  rfl

end
end BCash.Json
