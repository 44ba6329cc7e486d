import Verif.Proofs.JsonDoc
import Verif.Props.Serde

/-! # The document of an exported transaction: written, writable, accepted, never a panic -/

namespace BCash
namespace Serde
open Spec JsonText

/-! ## Written -/

variable {α β : Type}

theorem Writes.str {f} : Writes f Serde.str (fun _ => True) Doc.str := fun _ _ => rfl
theorem Writes.usize {f} : Writes f Serde.usize (fun _ => True) Doc.num := fun _ _ => rfl

theorem toSVal_nums (is : List Nat) : (is.map JVal.num).map JVal.toSVal = is.map Doc.num := by
  induction is with
  | nil => rfl
  | cons i is ih => rw [List.map_cons, List.map_cons, List.map_cons, ih, JVal.toSVal]; rfl

theorem toSVal_arr (vs : List JVal) : (JVal.arr vs).toSVal = .seq (vs.map JVal.toSVal) := by
  rw [JVal.toSVal, JVal.toSVals_eq]

theorem ser_entry (e : JsonByteArray) : e.ser.toSVal = Doc.entry e := by
  obtain ⟨i, f, n, p⟩ := e
  cases p with
  | some is =>
    cases n with
    | none =>
      show (JVal.arr [.num i, .fn f, .null, .arr (is.map .num)]).toSVal = .seq [_, _, _, _]
      rw [toSVal_arr]
      simp only [List.map_cons, List.map_nil, toSVal_arr, toSVal_nums]
      simp only [JVal.toSVal, functionName_eq]
      rfl
    | some n =>
      show (JVal.arr [.num i, .fn f, .num n, .arr (is.map .num)]).toSVal = .seq [_, _, _, _]
      rw [toSVal_arr]
      simp only [List.map_cons, List.map_nil, toSVal_arr, toSVal_nums]
      simp only [JVal.toSVal, functionName_eq]
      rfl
  | none =>
    cases n with
    | some n =>
      show (JVal.arr [.num i, .fn f, .num n]).toSVal = .seq [_, _, _]
      rw [toSVal_arr]
      simp only [List.map_cons, List.map_nil, JVal.toSVal, functionName_eq]
      rfl
    | none =>
      cases f
      case plain =>
        show (JVal.num i).toSVal = _
        rw [JVal.toSVal]
        rfl
      all_goals
        show (JVal.arr [.num i, .fn _]).toSVal = .seq [_, _]
        rw [toSVal_arr]
        simp only [List.map_cons, List.map_nil, JVal.toSVal, functionName_eq]
        rfl

theorem Writes.entry {f} : Writes f Serde.jsonByteArray (fun _ => True) Doc.entry := fun e _ => by
  show some e.ser.toSVal = _
  rw [ser_entry]

section
variable {f : Format} (h2 : f.structsAsMaps = true)
include h2

theorem Writes.tables : Writes f Serde.jsonTables (fun _ => True) Doc.tables := by
  intro v _
  have a1 := Writes.vec (Writes.str (f := f)) v.dataB64 (fun _ _ => trivial)
  have a2 := Writes.vec (Writes.entry (f := f)) v.byteArrays (fun _ _ => trivial)
  have a3 := Writes.vec (Writes.str (f := f)) v.strings (fun _ _ => trivial)
  simp only [Serde.jsonTables, Serde.imap, Serde.struct, Fields.field, Fields.nil, h2, if_true, a1, a2, a3]
  rfl

theorem Writes.jsonOp : Writes f Serde.jsonOp (fun _ => True) Doc.op := by
  intro v _
  cases v with
  | pushByteArray i m =>
    have : Serde.jsonPush.write f (i, m) = some (.map [("array_idx", Doc.num i), ("is_minimal", .bool m)]) := by
      simp only [Serde.jsonPush, Serde.imap, Serde.struct, Fields.field, Fields.nil, h2, if_true]
      rfl
    simp only [Serde.jsonOp, this]
    rfl
  | _ => rfl

theorem Writes.jsonTaggedOp : Writes f Serde.jsonTaggedOp (fun _ => True) Doc.taggedOp := by
  intro v _
  have a1 := Writes.jsonOp h2 v.op trivial
  have a2 := Writes.vec (f := f) (s := Serde.pair Serde.u32 Serde.usize) (V := fun _ => True)
    (doc := fun p => .seq [Doc.num p.1.toNat, Doc.num p.2]) (fun _ _ => rfl) v.srcCode (fun _ _ => trivial)
  have a3 := Writes.option (Writes.vec (Writes.option (Writes.usize (f := f))))
  have a4 := a3 v.pushedNames (fun _ _ _ _ _ _ => trivial)
  have a5 := a3 v.altPushedNames (fun _ _ _ _ _ _ => trivial)
  simp only [Serde.jsonTaggedOp, Serde.imap, Serde.struct, Fields.field, Fields.nil, h2, if_true, a1, a2, a4, a5]
  rfl

variable (h1 : f.human = true)
include h1

theorem Writes.jsonInput : Writes f Serde.jsonInput (fun _ => True) Doc.jsonInput := by
  intro v _
  have a1 := Writes.vec (Writes.jsonTaggedOp h2) v.script (fun _ _ => trivial)
  have a2 := Writes.option (Writes.vec (Writes.jsonTaggedOp h2)) v.lockScript (fun _ _ _ _ => trivial)
  have a4 := Writes.option (Writes.vec (Writes.flags h1 h2)) v.sigHashFlags (fun _ _ _ _ => trivial)
  have a5 := Writes.option (f := f) (s := Serde.u64) (V := fun _ => True)
    (doc := fun v => Doc.num v.toNat) (fun _ _ => rfl) v.value (fun _ _ => trivial)
  have a6 := Writes.option (f := f) (s := Serde.bool) (V := fun _ => True)
    (doc := SVal.bool) (fun _ _ => rfl) v.isP2sh (fun _ _ => trivial)
  simp only [Serde.jsonInput, Serde.imap, Serde.struct, Fields.field, Fields.nil, h2, if_true, a1, a2, a4, a5, a6]
  rfl

omit h1 in
theorem Writes.jsonOutput : Writes f Serde.jsonOutput (fun _ => True) Doc.jsonOutput := by
  intro v _
  have a1 := Writes.vec (Writes.jsonTaggedOp h2) v.script (fun _ _ => trivial)
  simp only [Serde.jsonOutput, Serde.imap, Serde.struct, Fields.field, Fields.nil, h2, if_true, a1]
  rfl

theorem Writes.jsonTx : Writes f Serde.jsonTx (fun _ => True) Doc.jsonTx := by
  intro v _
  have a0 := Writes.tables h2 v.data trivial
  have a1 := Writes.vec (Writes.jsonInput h2 h1) v.inputs (fun _ _ => trivial)
  have a2 := Writes.vec (Writes.jsonOutput h2) v.outputs (fun _ _ => trivial)
  simp only [Serde.jsonTx, Serde.imap, Serde.struct, Fields.field, Fields.nil, h2, if_true, a0, a1, a2]
  rfl
end

/-! ## Never a panic -/

section
variable {f : Format} {P : Bytes → Prop}

theorem PanicsOnly.pair {s : Serde α} {t : Serde β} (hs : PanicsOnly f P s) (ht : PanicsOnly f P t) :
    PanicsOnly f P (Serde.pair s t) := by
  intro x hx
  cases x with
  | seq vs =>
    match vs with
    | [a, b] =>
      simp only [Serde.pair] at hx
      rcases bind_panic hx with hx | ⟨_, _, hx⟩
      · obtain ⟨t, h1, h2⟩ := hs _ hx
        exact ⟨t, .elem (by simp) h1, h2⟩
      · rcases bind_panic hx with hx | ⟨_, _, hx⟩
        · obtain ⟨t, h1, h2⟩ := ht _ hx
          exact ⟨t, .elem (vs := [a, b]) (v := b) (by simp) h1, h2⟩
        · cases hx
    | [] => cases hx
    | [_] => cases hx
    | _ :: _ :: _ :: _ => cases hx
  | _ => cases hx

theorem PanicsOnly.str : PanicsOnly f P Serde.str := .never fun x => by
  cases x with
  | str b =>
    simp only [Serde.str]
    cases ofUtf8 b <;> simp
  | _ => simp [Serde.str]

theorem PanicsOnly.entry : PanicsOnly f P Serde.jsonByteArray := .never fun x => by
  simp only [Serde.jsonByteArray]
  cases JsonByteArray.deser x.toJVal <;> simp

theorem PanicsOnly.jsonPush : PanicsOnly f P Serde.jsonPush :=
  (PanicsOnly.struct (.field PanicsOnly.int (.field PanicsOnly.bool .nil))).imap _ _

theorem PanicsOnly.jsonOp : PanicsOnly f P Serde.jsonOp := by
  intro x hx
  cases x with
  | map kvs =>
    match kvs with
    | [(k, v)] =>
      simp only [Serde.jsonOp] at hx
      suffices ∃ t, HasText t v ∧ P t by
        obtain ⟨t, h1, h2⟩ := this
        exact ⟨t, .entry (k := k) (by simp) h1, h2⟩
      split at hx
      · exact PanicsOnly.int _ (map_panic hx)
      split at hx
      · exact PanicsOnly.int _ (map_panic hx)
      split at hx
      · exact PanicsOnly.jsonPush _ (map_panic hx)
      split at hx
      · exact PanicsOnly.bool _ (map_panic hx)
      split at hx
      · exact PanicsOnly.int _ (map_panic hx)
      · cases hx
    | [] => cases hx
    | _ :: _ :: _ => cases hx
  | _ => cases hx

theorem PanicsOnly.jsonTaggedOp : PanicsOnly f P Serde.jsonTaggedOp :=
  (PanicsOnly.struct (.field .jsonOp (.field .int (.field .int (.field .int (.field (.vec (.pair .int .int))
    (.field (.option (.vec (.option .int))) (.field (.option (.vec (.option .int))) .nil)))))))).imap _ _

theorem PanicsOnly.jsonTx : PanicsOnly f P Serde.jsonTx :=
  (PanicsOnly.struct (.field
    ((PanicsOnly.struct (.field (.vec .str) (.field (.vec .entry) (.field (.vec .str) .nil)))).imap _ _)
    (.field .int (.field
      (.vec ((PanicsOnly.struct (.field .int (.field .int (.field (.vec .jsonTaggedOp) (.field .int
        (.field (.option (.vec .jsonTaggedOp)) (.field (.option .int) (.field (.option .bool)
          (.field (.option (.vec .flags)) .nil))))))))).imap _ _))
      (.field (.vec ((PanicsOnly.struct (.field .int (.field (.vec .jsonTaggedOp) .nil))).imap _ _))
        (.field .int .nil)))))).imap _ _

theorem jsonTx_ne_panic (x : SVal) : Serde.jsonTx.read f x ≠ .panic := fun h => by
  obtain ⟨_, _, h⟩ := PanicsOnly.jsonTx (P := fun _ => False) x h
  exact h
end

/-! ## Writable -/

theorem _root_.BCash.JsonText.Writable.num' {n : Nat} (h : n < 2 ^ 64) : Writable (Doc.num n) := .num ⟨by omega, by omega⟩
theorem _root_.BCash.JsonText.Writable.u8 (x : UInt8) : Writable (Doc.num x.toNat) := .num' (by have := x.toNat_lt; omega)
theorem _root_.BCash.JsonText.Writable.u32 (x : UInt32) : Writable (Doc.num x.toNat) := .num' (by have := x.toNat_lt; omega)
theorem _root_.BCash.JsonText.Writable.u64 (x : UInt64) : Writable (Doc.num x.toNat) := .num' (by have := x.toNat_lt; omega)
theorem _root_.BCash.JsonText.Writable.i32 (x : Int32) : Writable (.num x.toInt) := .num (by
  have h1 := x.toInt_lt
  have h2 := x.le_toInt
  omega)
theorem _root_.BCash.JsonText.Writable.text (s : String) : Writable (Doc.str s) := .str s

theorem _root_.BCash.JsonText.Writable.list {doc : α → SVal} {xs : List α} (h : ∀ x ∈ xs, Writable (doc x)) :
    Writable (Doc.list doc xs) := .seq fun v hv => by
  obtain ⟨x, hx, rfl⟩ := List.mem_map.mp hv
  exact h x hx

theorem _root_.BCash.JsonText.Writable.opt {doc : α → SVal} {o : Option α} (h : ∀ x, o = some x → Writable (doc x)) :
    Writable (Doc.opt doc o) := by
  cases o with
  | none => exact .null
  | some x => exact h x rfl

/-- All entries of a record. -/
theorem _root_.BCash.JsonText.Writable.record {kvs : List (String × SVal)} (h : kvs.Forall (fun p => Writable p.2)) :
    Writable (.map kvs) := .map (List.forall_iff_forall_mem.mp h)

theorem _root_.BCash.JsonText.Writable.array {vs : List SVal} (h : vs.Forall Writable) :
    Writable (.seq vs) := .seq (List.forall_iff_forall_mem.mp h)

end Serde

namespace Spec

/-- The indices in an entry are less than `n`. -/
def EntryBelow (n : Nat) (e : JsonByteArray) : Prop :=
  e.dataIdx < n ∧ (∀ k, e.nameIdx = some k → k < n) ∧ ∀ is, e.preimageIndices = some is → ∀ i ∈ is, i < n

/-- The indices in an operation are less than `n`. -/
structure OpBelow (n : Nat) (o : JsonTaggedOp) : Prop where
  op : ∀ i m, o.op = .pushByteArray i m → i < n
  srcFile : o.srcFile < n
  srcCode : ∀ p ∈ o.srcCode, p.2 < n
  names : ∀ l, o.pushedNames = some l → ∀ x ∈ l, ∀ k, x = some k → k < n
  alt : ∀ l, o.altPushedNames = some l → ∀ x ∈ l, ∀ k, x = some k → k < n

/-- The indices in a document are less than `n`. -/
structure Below (n : Nat) (j : JsonTx) : Prop where
  entries : ∀ e ∈ j.data.byteArrays, EntryBelow n e
  hashes : ∀ i ∈ j.inputs, i.prevOutHash < n
  inputs : ∀ i ∈ j.inputs, ∀ o ∈ i.script, OpBelow n o
  locks : ∀ i ∈ j.inputs, ∀ l, i.lockScript = some l → ∀ o ∈ l, OpBelow n o
  outputs : ∀ i ∈ j.outputs, ∀ o ∈ i.script, OpBelow n o

end Spec

namespace Serde
open Spec JsonText
variable {α : Type}

theorem _root_.BCash.JsonText.Writable.entry {e : JsonByteArray} (h : EntryBelow (2 ^ 64) e) : Writable (Doc.entry e) := by
  obtain ⟨i, f, n, p⟩ := e
  obtain ⟨h1, h2, h3⟩ := h
  cases p with
  | some is =>
    refine .array ⟨.num' h1, .text _, .opt fun k hk => .num' (h2 k hk), .list fun i hi => .num' (h3 is rfl i hi)⟩
  | none =>
    cases n with
    | some n => exact .array ⟨.num' h1, .text _, .num' (h2 n rfl)⟩
    | none =>
      cases f
      case plain => exact .num' h1
      all_goals exact .array ⟨.num' h1, .text _⟩

theorem _root_.BCash.JsonText.Writable.op {o : JsonTaggedOp} (h : OpBelow (2 ^ 64) o) : Writable (Doc.op o.op) := by
  cases e : o.op with
  | code b => exact .record (.u8 b)
  | invalid b => exact .record (.u8 b)
  | pushByteArray i m => exact .record (.record ⟨.num' (h.op i m e), .bool m⟩)
  | pushBoolean b => exact .record (.bool b)
  | pushInteger i => exact .record (.i32 i)

theorem _root_.BCash.JsonText.Writable.taggedOp {o : JsonTaggedOp} (h : OpBelow (2 ^ 64) o) : Writable (Doc.taggedOp o) :=
  .record ⟨.op h, .num' h.srcFile, .u32 _, .u32 _, .list fun p hp => .array ⟨.u32 _, .num' (h.srcCode p hp)⟩,
    .opt fun l hl => .list fun x hx => .opt fun k hk => .num' (h.names l hl x hx k hk),
    .opt fun l hl => .list fun x hx => .opt fun k hk => .num' (h.alt l hl x hx k hk)⟩

theorem _root_.BCash.JsonText.Writable.jsonTx {j : JsonTx} (h : Below (2 ^ 64) j) : Writable (Doc.jsonTx j) :=
  .record ⟨.record ⟨.list fun s _ => .text s, .list fun e he => .entry (h.entries e he), .list fun s _ => .text s⟩,
    .i32 _,
    .list fun i hi => .record ⟨.num' (h.hashes i hi), .u32 _, .list fun o ho => .taggedOp (h.inputs i hi o ho),
      .u32 _, .opt fun l hl => .list fun o ho => .taggedOp (h.locks i hi l hl o ho), .opt fun v _ => .u64 v,
      .opt fun b _ => .bool b, .opt fun _ _ => .list fun b _ => .record (.u32 b)⟩,
    .list fun o ho => .record ⟨.u64 _, .list fun p hp => .taggedOp (h.outputs o ho p hp)⟩,
    .u32 _⟩

/-! ## Accepted -/

theorem valuesAt_none {name : String} {kvs : List (String × SVal)} (h : ∀ p ∈ kvs, p.1 ≠ name) :
    valuesAt name kvs = [] := by
  unfold valuesAt
  rw [List.filterMap_eq_nil_iff]
  intro p hp
  rw [if_neg (h p hp)]

theorem at_record {fs : List At.Field} {kvs : List (String × SVal)}
    (h : fs.Forall₂ (fun f p => f.name = p.1 ∧ f.value p.2) kvs) (hn : (fs.map (·.name)).Nodup) :
    At.record fs (.map kvs) := by
  show ∀ f ∈ fs, _
  suffices ∀ f ∈ fs, ∃ v, valuesAt f.name kvs = [v] ∧ f.value v from fun f hf => .inl (this f hf)
  induction h with
  | nil => simp
  | @cons f p fs kvs hp hf ih =>
    rw [List.map_cons, List.nodup_cons] at hn
    have names : ∀ n, n ∈ kvs.map (·.1) → n ∈ fs.map (·.name) := by
      clear ih hn
      induction hf with
      | nil => simp
      | cons hp _ ih =>
        intro n h
        rw [List.map_cons, List.mem_cons] at h ⊢
        rcases h with rfl | h
        · exact .inl hp.1.symm
        · exact .inr (ih n h)
    intro g hg
    rw [List.mem_cons] at hg
    rcases hg with rfl | hg
    · refine ⟨p.2, ?_, hp.2⟩
      have : valuesAt g.name kvs = [] := valuesAt_none fun q hq e =>
        hn.1 (names _ (e ▸ List.mem_map_of_mem hq))
      unfold valuesAt at this ⊢
      rw [List.filterMap_cons, if_pos hp.1.symm, this]
    · obtain ⟨v, h1, h2⟩ := ih hn.2 g hg
      refine ⟨v, ?_, h2⟩
      have hne : ¬ p.1 = g.name := fun e => hn.1 (by
        rw [hp.1, e]
        exact List.mem_map_of_mem hg)
      unfold valuesAt at h1 ⊢
      rw [List.filterMap_cons, if_neg hne, h1]

theorem at_idx {n : Nat} (h : n < 2 ^ 64) : At.idx n (Doc.num n) := ⟨rfl, h⟩

theorem at_list {at_ : α → SVal → Prop} {doc : α → SVal} {xs : List α} (h : ∀ x ∈ xs, at_ x (doc x)) :
    At.list at_ xs (Doc.list doc xs) := ⟨_, rfl, by
  induction xs with
  | nil => exact .nil
  | cons x xs ih => exact .cons (h x List.mem_cons_self) (ih fun y hy => h y (List.mem_cons_of_mem _ hy))⟩

theorem at_opt {at_ : α → SVal → Prop} {doc : α → SVal} {o : Option α} (h : ∀ x, o = some x → at_ x (doc x))
    (hn : ∀ x, doc x ≠ .null) : At.opt at_ o (Doc.opt doc o) := by
  cases o with
  | none => rfl
  | some x => exact ⟨hn x, h x rfl⟩

theorem at_entry {e : JsonByteArray} (h : EntryBelow (2 ^ 64) e) : At.Entry e (Doc.entry e) := by
  obtain ⟨i, f, n, p⟩ := e
  obtain ⟨h1, h2, h3⟩ := h
  cases p with
  | some is =>
    exact .four (at_idx h1) (.inl rfl) (at_opt (fun k hk => at_idx (h2 k hk)) (by simp [Doc.num]))
      ⟨by simp [Doc.list], at_list fun i hi => at_idx (h3 is rfl i hi)⟩
  | none =>
    cases n with
    | some n => exact .three (at_idx h1) (.inl rfl) ⟨by simp [Doc.num], at_idx (h2 n rfl)⟩
    | none =>
      cases f
      case plain => exact .one (at_idx h1)
      all_goals exact .two (at_idx h1) (.inl rfl)

theorem at_op {o : JsonTaggedOp} (h : OpBelow (2 ^ 64) o) : At.Operation o.op (Doc.op o.op) := by
  cases e : o.op with
  | code b => exact .code rfl
  | invalid b => exact .invalid rfl
  | pushByteArray i m =>
    exact .pushByteArray (at_record (.cons ⟨rfl, at_idx (h.op i m e)⟩ (.cons ⟨rfl, rfl⟩ .nil)) (by simp [At.must]))
  | pushBoolean b => exact .pushBoolean rfl
  | pushInteger i => exact .pushInteger rfl

theorem at_names {l : Option (List (Option Nat))} (h : ∀ l', l = some l' → ∀ x ∈ l', ∀ k, x = some k → k < 2 ^ 64) :
    At.opt (At.list (At.opt At.idx)) l (Doc.opt (Doc.list (Doc.opt Doc.num)) l) :=
  at_opt (fun l' hl => at_list fun x hx => at_opt (fun k hk => at_idx (h l' hl x hx k hk)) (by simp [Doc.num]))
    (by simp [Doc.list])

theorem at_taggedOp {o : JsonTaggedOp} (h : OpBelow (2 ^ 64) o) : At.taggedOp o (Doc.taggedOp o) :=
  at_record (.cons ⟨rfl, at_op h⟩ (.cons ⟨rfl, at_idx h.srcFile⟩ (.cons ⟨rfl, rfl⟩ (.cons ⟨rfl, rfl⟩
    (.cons ⟨rfl, at_list fun p hp => ⟨_, _, rfl, rfl, at_idx (h.srcCode p hp)⟩⟩ (.cons ⟨rfl, at_names h.names⟩
    (.cons ⟨rfl, at_names h.alt⟩ .nil))))))) (by simp [At.must, At.may])

theorem at_jsonTx {j : JsonTx} (h : Below (2 ^ 64) j) : At.jsonTx j (Doc.jsonTx j) :=
  at_record (.cons ⟨rfl, at_record (.cons ⟨rfl, at_list fun _ _ => rfl⟩
      (.cons ⟨rfl, at_list fun e he => at_entry (h.entries e he)⟩
      (.cons ⟨rfl, at_list fun _ _ => rfl⟩ .nil))) (by simp [At.must])⟩
    (.cons ⟨rfl, rfl⟩
    (.cons ⟨rfl, at_list fun i hi => at_record (.cons ⟨rfl, at_idx (h.hashes i hi)⟩ (.cons ⟨rfl, rfl⟩
        (.cons ⟨rfl, at_list fun o ho => at_taggedOp (h.inputs i hi o ho)⟩ (.cons ⟨rfl, rfl⟩
        (.cons ⟨rfl, at_opt (fun l hl => at_list fun o ho => at_taggedOp (h.locks i hi l hl o ho)) (by simp [Doc.list])⟩
        (.cons ⟨rfl, at_opt (fun _ _ => rfl) (by simp [Doc.num])⟩
        (.cons ⟨rfl, at_opt (fun _ _ => rfl) (by simp)⟩
        (.cons ⟨rfl, at_opt (fun _ _ => at_list fun b _ => at_record (.cons ⟨rfl, rfl⟩ .nil) (by simp))
          (by simp [Doc.list])⟩ .nil)))))))) (by simp [At.must, At.may])⟩
    (.cons ⟨rfl, at_list fun o ho => at_record (.cons ⟨rfl, rfl⟩
        (.cons ⟨rfl, at_list fun p hp => at_taggedOp (h.outputs o ho p hp)⟩ .nil)) (by simp [At.must])⟩
    (.cons ⟨rfl, rfl⟩ .nil))))) (by simp [At.must])

end Serde
end BCash
