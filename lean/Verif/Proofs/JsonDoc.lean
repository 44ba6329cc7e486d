import Verif.Spec.JsonDoc
import Verif.Proofs.JsonWrite

/-! # Reading and writing the document of an exported transaction -/

namespace BCash
namespace Serde
open Spec
variable {α β σ : Type}

/-- What is read, exactly. -/
def Reads (f : Format) (s : Serde α) (at_ : α → SVal → Prop) : Prop :=
  ∀ v x, s.read f v = .ok x ↔ at_ x v

theorem Reads.int {f} {lo hi : Int} {toInt : α → Int} {ofInt : Int → α}
    (h : ∀ v, lo ≤ toInt v ∧ toInt v ≤ hi ∧ ofInt (toInt v) = v)
    (h' : ∀ n, lo ≤ n → n ≤ hi → toInt (ofInt n) = n) :
    Reads f (Serde.int lo hi toInt ofInt) (fun x v => v = .num (toInt x)) := by
  intro v x
  cases v with
  | num n =>
    simp only [Serde.int, SVal.num.injEq]
    constructor
    · intro e
      split at e
      · rename_i hn
        cases e
        exact (h' n hn.1 hn.2).symm
      · cases e
    · rintro rfl
      rw [if_pos ⟨(h x).1, (h x).2.1⟩, (h x).2.2]
  | _ => simp [Serde.int]

theorem Reads.u8 {f} : Reads f Serde.u8 (fun x => At.num x.toNat) := Reads.int
  (fun v => by have := v.toNat_lt; refine ⟨by omega, by omega, by simp⟩)
  (fun n h h' => by
    have : (UInt8.ofNat n.toNat).toNat = n.toNat := by rw [UInt8.toNat_ofNat']; omega
    rw [this]; omega)
theorem Reads.u32 {f} : Reads f Serde.u32 (fun x => At.num x.toNat) := Reads.int
  (fun v => by have := v.toNat_lt; refine ⟨by omega, by omega, by simp⟩)
  (fun n h h' => by
    have : (UInt32.ofNat n.toNat).toNat = n.toNat := by rw [UInt32.toNat_ofNat']; omega
    rw [this]; omega)
theorem Reads.u64 {f} : Reads f Serde.u64 (fun x => At.num x.toNat) := Reads.int
  (fun v => by have := v.toNat_lt; refine ⟨by omega, by omega, by simp⟩)
  (fun n h h' => by
    have : (UInt64.ofNat n.toNat).toNat = n.toNat := by rw [UInt64.toNat_ofNat']; omega
    rw [this]; omega)
theorem Reads.i32 {f} : Reads f Serde.i32 (fun x v => v = .num x.toInt) := Reads.int
  (fun v => by
    have h1 := v.toInt_lt
    have h2 := v.le_toInt
    refine ⟨by omega, by omega, by simp⟩)
  (fun n h h' => by
    rw [Int32.toInt_ofInt_of_le (by omega) (by omega)])

theorem Reads.usize {f} : Reads f Serde.usize At.idx := by
  intro v x
  cases v with
  | num n =>
    simp only [Serde.usize, Serde.int, At.idx, SVal.num.injEq]
    constructor
    · intro e
      split at e
      · rename_i hn
        cases e
        omega
      · cases e
    · rintro ⟨rfl, h⟩
      rw [if_pos (by omega)]
      simp
  | _ => simp [Serde.usize, Serde.int, At.idx]

theorem Reads.bool {f} : Reads f Serde.bool At.bool := by
  intro v x
  cases v <;> simp [Serde.bool, At.bool]

theorem Reads.str {f} : Reads f Serde.str At.str := by
  intro v x
  cases v with
  | str b =>
    simp only [Serde.str, At.str, SVal.str.injEq]
    rw [← ofUtf8_iff]
    cases ofUtf8 b <;> simp
  | _ => simp [Serde.str, At.str]

theorem Reads.option {f} {s : Serde α} {at_ : α → SVal → Prop} (h : Reads f s at_) :
    Reads f (Serde.option s) (At.opt at_) := by
  intro v x
  cases v with
  | null => cases x <;> simp [Serde.option, At.opt]
  | _ =>
    cases x with
    | none =>
      simp only [Serde.option, At.opt]
      constructor
      · intro e; obtain ⟨a, _, e⟩ := map_ok e; cases e
      · intro e; cases e
    | some x =>
      have h : ∀ v x, at_ x v ↔ s.read f v = .ok x := fun v x => (h v x).symm
      simp only [Serde.option, At.opt, h]
      constructor
      · intro e
        obtain ⟨a, e1, e2⟩ := map_ok e
        cases e2
        exact ⟨by simp, e1⟩
      · rintro ⟨_, e⟩
        rw [e]; rfl

theorem forall2_flip {α β : Type} {R : α → β → Prop} {as : List α} {bs : List β} :
    List.Forall₂ R as bs ↔ List.Forall₂ (fun b a => R a b) bs as := by
  constructor <;> intro h <;> induction h <;> constructor <;> assumption

theorem Reads.vec {f} {s : Serde α} {at_ : α → SVal → Prop} (h : Reads f s at_) :
    Reads f (Serde.vec s) (At.list at_) := by
  intro v xs
  cases v with
  | seq vs =>
    simp only [Serde.vec, At.list, SVal.seq.injEq]
    rw [readAll_ok, forall2_flip]
    have : ∀ x v, s.read f v = .ok x ↔ at_ x v := fun x v => h v x
    simp only [this]
    constructor
    · intro h; exact ⟨vs, rfl, h⟩
    · rintro ⟨_, rfl, h⟩; exact h
  | _ => simp [Serde.vec, At.list]

theorem Reads.imap {f} {s : Serde α} {at_ : α → SVal → Prop} (h : Reads f s at_) {pack : α → β}
    {unpack : β → α} (h1 : ∀ x, pack (unpack x) = x) (h2 : ∀ x, unpack (pack x) = x) :
    Reads f (s.imap pack unpack) (fun x => at_ (unpack x)) := by
  intro v x
  refine Iff.trans ?_ (h v (unpack x))
  simp only [Serde.imap]
  constructor
  · intro e
    obtain ⟨a, e1, e2⟩ := map_ok e
    subst e2
    rw [h2]; exact e1
  · intro e
    rw [e]
    simp [Res.map, h1]

theorem Reads.congr {f} {s : Serde α} {at_ at_' : α → SVal → Prop} (h : Reads f s at_)
    (e : ∀ x v, at_ x v ↔ at_' x v) : Reads f s at_' := fun v x => (h v x).trans (e x v)

theorem Reads.pair {f} {s : Serde α} {t : Serde β} {a : α → SVal → Prop} {b : β → SVal → Prop}
    (h : Reads f s a) (h' : Reads f t b) :
    Reads f (Serde.pair s t) (fun p v => ∃ x y, v = .seq [x, y] ∧ a p.1 x ∧ b p.2 y) := by
  rintro v ⟨p, q⟩
  have h : ∀ v x, a x v ↔ s.read f v = .ok x := fun v x => (h v x).symm
  have h' : ∀ v x, b x v ↔ t.read f v = .ok x := fun v x => (h' v x).symm
  simp only [h, h']
  cases v with
  | seq vs =>
    match vs with
    | [x, y] =>
      simp only [Serde.pair]
      constructor
      · intro e
        obtain ⟨x', e1, e⟩ := Res.bind_eq_ok.mp e
        obtain ⟨y', e2, e⟩ := Res.bind_eq_ok.mp e
        cases e
        exact ⟨x, y, rfl, e1, e2⟩
      · rintro ⟨x', y', e, e1, e2⟩
        cases e
        rw [e1, e2]; rfl
    | [] => simp [Serde.pair]
    | [_] => simp [Serde.pair]
    | _ :: _ :: _ :: _ => simp [Serde.pair]
  | _ => simp [Serde.pair]

/-! ## Records -/

structure ReadsF (f : Format) (fs : Fields σ α) (spec : α → List At.Field) : Prop where
  names : ∀ a, (spec a).map (·.name) = fs.names
  map : ∀ kvs a, fs.Found f kvs a ↔ ∀ g ∈ spec a, (∃ v, valuesAt g.name kvs = [v] ∧ g.value v) ∨
    (valuesAt g.name kvs = [] ∧ g.missing)
  seq : ∀ vs a rest, fs.readSeq f vs = .ok (a, rest) ↔
    ∃ us, vs = us ++ rest ∧ (spec a).Forall₂ (fun g v => g.value v) us

theorem ReadsF.nil {f} : ReadsF f Fields.nil (fun _ => []) where
  names _ := rfl
  map kvs _ := by simpa using found_nil kvs
  seq vs a rest := by
    simp only [Fields.nil, Res.ok.injEq, Prod.mk.injEq, List.forall₂_nil_left_iff, true_and]
    constructor
    · rintro rfl; exact ⟨[], rfl, rfl⟩
    · rintro ⟨_, rfl, rfl⟩; rfl

theorem ReadsF.field {f} {name : String} {s : Serde α} {fs : Fields σ β} {at_ : α → SVal → Prop}
    {miss : α → Prop} {spec : β → List At.Field} (hs : Reads f s at_) (hm : ∀ x, s.missing = some x ↔ miss x)
    (hf : ReadsF f fs spec) (hn : name ∉ fs.names) :
    ReadsF f (.field name s fs) (fun p => ⟨name, at_ p.1, miss p.1⟩ :: spec p.2) where
  names p := by simp [Fields.field, hf.names]
  map kvs p := by
    obtain ⟨x, y⟩ := p
    have key : ∀ g ∈ spec y, valuesAt g.name (kvs.filter fun p => !decide (p.1 = name)) =
        valuesAt g.name kvs := by
      intro g hg
      have hne : g.name ≠ name := by
        rintro e
        apply hn
        rw [← hf.names y, ← e]
        exact List.mem_map_of_mem hg
      rw [valuesAt_filter, if_neg hne]
    rw [found_field, hf.map]
    have hs' : ∀ v x, at_ x v ↔ s.read f v = .ok x := fun v x => (hs v x).symm
    simp only [List.mem_cons, forall_eq_or_imp, hs', ← hm]
    constructor
    · rintro ⟨h1, h2⟩
      refine ⟨h1.symm, fun g hg => ?_⟩
      have := h2 g hg
      rwa [key g hg] at this
    · rintro ⟨h1, h2⟩
      refine ⟨h1.symm, fun g hg => ?_⟩
      rw [key g hg]
      exact h2 g hg
  seq vs p rest := by
    obtain ⟨x, y⟩ := p
    cases vs with
    | nil =>
      simp only [Fields.field]
      constructor
      · intro h; cases h
      · rintro ⟨us, e, h⟩
        cases h
        simp at e
    | cons v vs =>
      simp only [Fields.field]
      constructor
      · intro h
        obtain ⟨x', h1, h⟩ := Res.bind_eq_ok.mp h
        obtain ⟨⟨y', r⟩, h2, h⟩ := Res.bind_eq_ok.mp h
        cases h
        obtain ⟨us, rfl, h3⟩ := (hf.seq _ _ _).mp h2
        exact ⟨v :: us, rfl, .cons ((hs _ _).mp h1) h3⟩
      · rintro ⟨us, e, h⟩
        cases h with
        | cons h1 h2 =>
          simp only [List.cons_append, List.cons.injEq] at e
          obtain ⟨rfl, rfl⟩ := e
          rw [(hs _ _).mpr h1, Res.bind, (hf.seq _ _ _).mpr ⟨_, rfl, h2⟩]
          rfl

theorem Reads.struct {f} {fs : Fields σ α} {spec : α → List At.Field} (h : ReadsF f fs spec) :
    Reads f (Serde.struct fs) (fun x => At.record (spec x)) := by
  intro v x
  cases v with
  | map kvs => rw [read_map]; exact h.map kvs x
  | seq vs =>
    simp only [Serde.struct, At.record]
    constructor
    · intro e
      obtain ⟨⟨y, rest⟩, h1, e⟩ := Res.bind_eq_ok.mp e
      dsimp only at e
      split at e
      · rename_i hr
        cases e
        obtain ⟨us, rfl, h2⟩ := (h.seq _ _ _).mp h1
        have : rest = [] := by simpa using hr
        subst this
        rw [List.append_nil]; exact h2
      · cases e
    · intro e
      rw [(h.seq vs x []).mpr ⟨vs, by simp, e⟩]
      rfl
  | _ => simp [Serde.struct, At.record]

theorem must {s : Serde α} (h : s.missing = none) : ∀ x, s.missing = some x ↔ False := fun x => by
  rw [h]; simp

theorem may {s : Serde α} : ∀ x : Option α, (Serde.option s).missing = some x ↔ x = none :=
  fun _ => ⟨fun h => (Option.some.inj h).symm, fun h => congrArg some h.symm⟩

theorem missing_imap {s : Serde α} {pack : α → β} {unpack : β → α} : (s.imap pack unpack).missing = none := rfl

/-! ## Entries -/

theorem functionName_eq (f : Function) : f.name = Doc.functionName f := by cases f <;> rfl

theorem ofName_iff {k : String} {f : Function} : Function.ofName k = some f ↔ k = Doc.functionName f := by
  constructor
  · intro h
    simp only [Function.ofName, Option.map_eq_some_iff] at h
    obtain ⟨p, hp, rfl⟩ := h
    have h1 := List.find?_some hp
    have h2 := List.mem_of_find?_eq_some hp
    simp only [decide_eq_true_eq] at h1
    rw [← h1]
    simp only [Function.variants, List.mem_cons, List.not_mem_nil, or_false] at h2
    rcases h2 with rfl | rfl | rfl | rfl | rfl | rfl | rfl | rfl | rfl | rfl | rfl | rfl <;> rfl
  · rintro rfl
    cases f <;> decide +kernel

theorem toJVal_num {v : SVal} {n : Nat} : v.toJVal = .num n ↔ At.idx n v := by
  unfold At.idx
  cases v with
  | num m =>
    simp only [SVal.toJVal, SVal.toJVals_eq, SVal.unitVariant, SVal.num.injEq]
    constructor
    · intro h
      split at h
      · cases h; omega
      · cases h
    · rintro ⟨rfl, h⟩
      rw [if_pos (by omega)]; simp
  | str s =>
    simp only [SVal.toJVal, SVal.toJVals_eq, SVal.unitVariant]
    split <;> simp
  | map kvs =>
    match kvs with
    | [] => simp [SVal.toJVal, SVal.toJVals_eq, SVal.unitVariant]
    | [(k, .null)] =>
      simp only [SVal.toJVal, SVal.toJVals_eq, SVal.unitVariant]
      split <;> simp
    | [(_, .bool _)] => simp [SVal.toJVal, SVal.toJVals_eq, SVal.unitVariant]
    | [(_, .num _)] => simp [SVal.toJVal, SVal.toJVals_eq, SVal.unitVariant]
    | [(_, .str _)] => simp [SVal.toJVal, SVal.toJVals_eq, SVal.unitVariant]
    | [(_, .bytes _)] => simp [SVal.toJVal, SVal.toJVals_eq, SVal.unitVariant]
    | [(_, .seq _)] => simp [SVal.toJVal, SVal.toJVals_eq, SVal.unitVariant]
    | [(_, .map _)] => simp [SVal.toJVal, SVal.toJVals_eq, SVal.unitVariant]
    | [(_, .other)] => simp [SVal.toJVal, SVal.toJVals_eq, SVal.unitVariant]
    | _ :: _ :: _ => simp [SVal.toJVal, SVal.toJVals_eq, SVal.unitVariant]
  | _ => simp [SVal.toJVal, SVal.toJVals_eq, SVal.unitVariant]

theorem toJVal_fn {v : SVal} {f : Function} : v.toJVal = .fn f ↔ At.fn f v := by
  unfold At.fn Doc.str
  cases v with
  | num m =>
    simp only [SVal.toJVal, SVal.toJVals_eq, SVal.unitVariant]
    split <;> simp
  | str s =>
    simp only [SVal.toJVal, SVal.toJVals_eq, SVal.unitVariant, SVal.str.injEq, reduceCtorEq, or_false]
    constructor
    · intro h
      split at h
      · rename_i g hg
        cases h
        simp only [Option.bind_eq_some_iff] at hg
        obtain ⟨t, h1, h2⟩ := hg
        rw [ofUtf8_iff.mp h1, ofName_iff.mp h2]
      · cases h
    · rintro rfl
      rw [ofUtf8_utf8, Option.bind_some, ofName_iff.mpr rfl]
  | map kvs =>
    match kvs with
    | [] => simp [SVal.toJVal, SVal.toJVals_eq, SVal.unitVariant]
    | [(k, .null)] =>
      simp only [SVal.toJVal, SVal.toJVals_eq, SVal.unitVariant, SVal.map.injEq, List.cons.injEq, Prod.mk.injEq, and_true, reduceCtorEq,
        false_or]
      rw [← ofName_iff]
      cases Function.ofName k <;> simp
    | [(_, .bool _)] => simp [SVal.toJVal, SVal.toJVals_eq, SVal.unitVariant]
    | [(_, .num _)] => simp [SVal.toJVal, SVal.toJVals_eq, SVal.unitVariant]
    | [(_, .str _)] => simp [SVal.toJVal, SVal.toJVals_eq, SVal.unitVariant]
    | [(_, .bytes _)] => simp [SVal.toJVal, SVal.toJVals_eq, SVal.unitVariant]
    | [(_, .seq _)] => simp [SVal.toJVal, SVal.toJVals_eq, SVal.unitVariant]
    | [(_, .map _)] => simp [SVal.toJVal, SVal.toJVals_eq, SVal.unitVariant]
    | [(_, .other)] => simp [SVal.toJVal, SVal.toJVals_eq, SVal.unitVariant]
    | _ :: _ :: _ => simp [SVal.toJVal, SVal.toJVals_eq, SVal.unitVariant]
  | _ => simp [SVal.toJVal, SVal.toJVals_eq, SVal.unitVariant]

theorem toJVal_null {v : SVal} : v.toJVal = .null ↔ v = .null := by
  cases v with
  | num m =>
    simp only [SVal.toJVal, SVal.toJVals_eq, SVal.unitVariant]
    split <;> simp
  | str s =>
    simp only [SVal.toJVal, SVal.toJVals_eq, SVal.unitVariant]
    split <;> simp
  | map kvs =>
    match kvs with
    | [] => simp [SVal.toJVal, SVal.toJVals_eq, SVal.unitVariant]
    | [(k, .null)] =>
      simp only [SVal.toJVal, SVal.toJVals_eq, SVal.unitVariant]
      split <;> simp
    | [(_, .bool _)] => simp [SVal.toJVal, SVal.toJVals_eq, SVal.unitVariant]
    | [(_, .num _)] => simp [SVal.toJVal, SVal.toJVals_eq, SVal.unitVariant]
    | [(_, .str _)] => simp [SVal.toJVal, SVal.toJVals_eq, SVal.unitVariant]
    | [(_, .bytes _)] => simp [SVal.toJVal, SVal.toJVals_eq, SVal.unitVariant]
    | [(_, .seq _)] => simp [SVal.toJVal, SVal.toJVals_eq, SVal.unitVariant]
    | [(_, .map _)] => simp [SVal.toJVal, SVal.toJVals_eq, SVal.unitVariant]
    | [(_, .other)] => simp [SVal.toJVal, SVal.toJVals_eq, SVal.unitVariant]
    | _ :: _ :: _ => simp [SVal.toJVal, SVal.toJVals_eq, SVal.unitVariant]
  | _ => simp [SVal.toJVal, SVal.toJVals_eq, SVal.unitVariant]

theorem toJVal_arr {v : SVal} {items : List JVal} :
    v.toJVal = .arr items ↔ ∃ vs, v = .seq vs ∧ items = vs.map SVal.toJVal := by
  cases v with
  | num m =>
    simp only [SVal.toJVal, SVal.toJVals_eq, SVal.unitVariant]
    split <;> simp
  | str s =>
    simp only [SVal.toJVal, SVal.toJVals_eq, SVal.unitVariant]
    split <;> simp
  | seq vs =>
    simp only [SVal.toJVal, SVal.toJVals_eq, SVal.unitVariant, JVal.arr.injEq, SVal.seq.injEq]
    constructor
    · rintro rfl; exact ⟨vs, rfl, rfl⟩
    · rintro ⟨_, rfl, rfl⟩; rfl
  | map kvs =>
    match kvs with
    | [] => simp [SVal.toJVal, SVal.toJVals_eq, SVal.unitVariant]
    | [(k, .null)] =>
      simp only [SVal.toJVal, SVal.toJVals_eq, SVal.unitVariant]
      split <;> simp
    | [(_, .bool _)] => simp [SVal.toJVal, SVal.toJVals_eq, SVal.unitVariant]
    | [(_, .num _)] => simp [SVal.toJVal, SVal.toJVals_eq, SVal.unitVariant]
    | [(_, .str _)] => simp [SVal.toJVal, SVal.toJVals_eq, SVal.unitVariant]
    | [(_, .bytes _)] => simp [SVal.toJVal, SVal.toJVals_eq, SVal.unitVariant]
    | [(_, .seq _)] => simp [SVal.toJVal, SVal.toJVals_eq, SVal.unitVariant]
    | [(_, .map _)] => simp [SVal.toJVal, SVal.toJVals_eq, SVal.unitVariant]
    | [(_, .other)] => simp [SVal.toJVal, SVal.toJVals_eq, SVal.unitVariant]
    | _ :: _ :: _ => simp [SVal.toJVal, SVal.toJVals_eq, SVal.unitVariant]
  | _ => simp [SVal.toJVal, SVal.toJVals_eq, SVal.unitVariant]

theorem num?_iff {v : SVal} {n : Nat} : v.toJVal.num? = some n ↔ At.idx n v := by
  rw [← toJVal_num]
  cases v.toJVal <;> simp [JVal.num?]

theorem fn?_iff {v : SVal} {f : Function} : v.toJVal.fn? = some f ↔ At.fn f v := by
  rw [← toJVal_fn]
  cases v.toJVal <;> simp [JVal.fn?]

theorem optNum?_iff {v : SVal} {n : Option Nat} : v.toJVal.optNum? = some n ↔ At.opt At.idx n v := by
  cases n with
  | none =>
    show _ ↔ v = .null
    rw [← toJVal_null]
    cases v.toJVal <;> simp [JVal.optNum?]
  | some n =>
    show _ ↔ v ≠ .null ∧ At.idx n v
    rw [← toJVal_num]
    constructor
    · intro h
      have : v.toJVal = .num n := by
        revert h
        cases v.toJVal <;> simp [JVal.optNum?]
      refine ⟨?_, this⟩
      rintro rfl
      simp [SVal.toJVal, SVal.toJVals_eq, SVal.unitVariant] at this
    · rintro ⟨_, h⟩
      rw [h]; rfl

theorem nums_iff {vs : List SVal} {is : List Nat} :
    (vs.map SVal.toJVal).mapM JVal.num? = some is ↔ is.Forall₂ At.idx vs := by
  induction vs generalizing is with
  | nil =>
    simp only [List.map_nil, List.mapM_nil]
    constructor
    · intro h; cases h; exact .nil
    · intro h; cases h; rfl
  | cons v vs ih =>
    rw [List.map_cons, List.mapM_cons]
    constructor
    · intro h
      simp only [Option.bind_eq_bind, Option.bind_eq_some_iff, Option.pure_def, Option.some.injEq] at h
      obtain ⟨n, h1, ns, h2, rfl⟩ := h
      exact .cons (num?_iff.mp h1) (ih.mp h2)
    · intro h
      cases h with
      | cons h1 h2 =>
        rw [num?_iff.mpr h1, ih.mpr h2]
        rfl

theorem optNums?_iff {v : SVal} {is : Option (List Nat)} :
    v.toJVal.optNums? = some is ↔ At.opt (At.list At.idx) is v := by
  cases is with
  | none =>
    show _ ↔ v = .null
    rw [← toJVal_null]
    cases v.toJVal <;> simp [JVal.optNums?]
  | some is =>
    show _ ↔ v ≠ .null ∧ At.list At.idx is v
    constructor
    · intro h
      have : ∃ items, v.toJVal = .arr items ∧ items.mapM JVal.num? = some is := by
        revert h
        cases v.toJVal <;> simp [JVal.optNums?]
      obtain ⟨items, h1, h2⟩ := this
      obtain ⟨vs, rfl, rfl⟩ := toJVal_arr.mp h1
      exact ⟨by simp, vs, rfl, nums_iff.mp h2⟩
    · rintro ⟨_, vs, rfl, h⟩
      rw [toJVal_arr.mpr ⟨vs, rfl, rfl⟩]
      show ((vs.map SVal.toJVal).mapM JVal.num?).map some = _
      rw [nums_iff.mpr h]; rfl

theorem Reads.jsonByteArray {f} : Reads f Serde.jsonByteArray At.Entry := by
  intro v x
  have h0 : Serde.jsonByteArray.read f v = .ok x ↔ JsonByteArray.deser v.toJVal = some x := by
    simp only [Serde.jsonByteArray]
    cases JsonByteArray.deser v.toJVal <;> simp
  rw [h0]
  constructor
  · intro h
    unfold JsonByteArray.deser at h
    split at h
    · rename_i a b c d e
      obtain ⟨vs, rfl, e2⟩ := toJVal_arr.mp e
      clear e
      match vs, e2 with
      | [v1, v2, v3, v4], e2 =>
        cases e2
        simp only [Option.bind_eq_some_iff, Option.some.injEq] at h
        obtain ⟨i, h1, g, h2, n, h3, is, h4, rfl⟩ := h
        exact .four (num?_iff.mp h1) (fn?_iff.mp h2) (optNum?_iff.mp h3) (optNums?_iff.mp h4)
    · rename_i a b c e
      obtain ⟨vs, rfl, e2⟩ := toJVal_arr.mp e
      clear e
      match vs, e2 with
      | [v1, v2, v3], e2 =>
        cases e2
        simp only [Option.bind_eq_some_iff, Option.some.injEq] at h
        obtain ⟨i, h1, g, h2, n, h3, rfl⟩ := h
        exact .three (num?_iff.mp h1) (fn?_iff.mp h2) (optNum?_iff.mp h3)
    · rename_i a b e
      obtain ⟨vs, rfl, e2⟩ := toJVal_arr.mp e
      clear e
      match vs, e2 with
      | [v1, v2], e2 =>
        cases e2
        simp only [Option.bind_eq_some_iff, Option.some.injEq] at h
        obtain ⟨i, h1, g, h2, rfl⟩ := h
        exact .two (num?_iff.mp h1) (fn?_iff.mp h2)
    · rename_i n e
      cases h
      exact .one (toJVal_num.mp e)
    · cases h
  · intro h
    cases h with
    | one h => rw [toJVal_num.mpr h]; rfl
    | two h hf =>
      simp only [SVal.toJVal, SVal.toJVals_eq, SVal.unitVariant, List.map_cons, List.map_nil, JsonByteArray.deser, num?_iff.mpr h, fn?_iff.mpr hf,
        Option.bind_some]
    | three h hf hn =>
      simp only [SVal.toJVal, SVal.toJVals_eq, SVal.unitVariant, List.map_cons, List.map_nil, JsonByteArray.deser, num?_iff.mpr h, fn?_iff.mpr hf,
        optNum?_iff.mpr hn, Option.bind_some]
    | four h hf hn hp =>
      simp only [SVal.toJVal, SVal.toJVals_eq, SVal.unitVariant, List.map_cons, List.map_nil, JsonByteArray.deser, num?_iff.mpr h, fn?_iff.mpr hf,
        optNum?_iff.mpr hn, optNums?_iff.mpr hp, Option.bind_some]

/-! ## The document -/

theorem Reads.jsonTables {f} : Reads f Serde.jsonTables At.tables :=
  (Reads.struct (.field (.vec .str) (must rfl) (.field (.vec .jsonByteArray) (must rfl)
    (.field (.vec .str) (must rfl) .nil (by decide)) (by decide)) (by decide))).imap (fun _ => rfl) (fun _ => rfl)

theorem Reads.jsonPush {f} : Reads f Serde.jsonPush (fun p => At.record
    [At.must "array_idx" (At.idx p.1), At.must "is_minimal" (At.bool p.2)]) :=
  (Reads.struct (.field .usize (must rfl) (.field .bool (must rfl) .nil (by decide)) (by decide))).imap
    (fun _ => rfl) (fun _ => rfl)

theorem Reads.jsonOp {f} : Reads f Serde.jsonOp At.Operation := by
  intro v x
  constructor
  · intro h
    match v, h with
    | .map [(k, y)], h =>
      simp only [Serde.jsonOp] at h
      split at h
      · rename_i hk; subst hk
        obtain ⟨b, h1, rfl⟩ := map_ok h
        exact .code ((Reads.u8 _ _).mp h1)
      split at h
      · rename_i hk; subst hk
        obtain ⟨b, h1, rfl⟩ := map_ok h
        exact .invalid ((Reads.u8 _ _).mp h1)
      split at h
      · rename_i hk; subst hk
        obtain ⟨b, h1, rfl⟩ := map_ok h
        exact .pushByteArray ((Reads.jsonPush _ _).mp h1)
      split at h
      · rename_i hk; subst hk
        obtain ⟨b, h1, rfl⟩ := map_ok h
        exact .pushBoolean ((Reads.bool _ _).mp h1)
      split at h
      · rename_i hk; subst hk
        obtain ⟨b, h1, rfl⟩ := map_ok h
        exact .pushInteger ((Reads.i32 _ _).mp h1)
      · cases h
  · intro h
    cases h with
    | code h => simp [Serde.jsonOp, (Reads.u8 _ _).mpr h, Res.map]
    | invalid h => simp [Serde.jsonOp, (Reads.u8 _ _).mpr h, Res.map]
    | @pushByteArray i m v h => simp [Serde.jsonOp, (Reads.jsonPush v (i, m)).mpr h, Res.map]
    | pushBoolean h => simp [Serde.jsonOp, (Reads.bool _ _).mpr h, Res.map]
    | pushInteger h => simp [Serde.jsonOp, (Reads.i32 _ _).mpr h, Res.map]

theorem Reads.sigHashFlags {f} : Reads f Serde.sigHashFlags At.flags :=
  (Reads.struct (.field .u32 (must rfl) .nil (by decide))).imap (fun _ => rfl) (fun _ => rfl)

theorem Reads.jsonTaggedOp {f} : Reads f Serde.jsonTaggedOp At.taggedOp :=
  (Reads.struct (.field .jsonOp (must rfl) (.field .usize (must rfl) (.field .u32 (must rfl)
    (.field .u32 (must rfl) (.field (.vec (.pair .u32 .usize)) (must rfl)
    (.field (.option (.vec (.option .usize))) may (.field (.option (.vec (.option .usize))) may .nil
    (by decide)) (by decide)) (by decide)) (by decide)) (by decide)) (by decide)) (by decide))).imap
    (fun _ => rfl) (fun _ => rfl)

theorem Reads.jsonInput {f} : Reads f Serde.jsonInput At.jsonInput :=
  (Reads.struct (.field .usize (must rfl) (.field .u32 (must rfl) (.field (.vec .jsonTaggedOp) (must rfl)
    (.field .u32 (must rfl) (.field (.option (.vec .jsonTaggedOp)) may (.field (.option .u64) may
    (.field (.option .bool) may (.field (.option (.vec .sigHashFlags)) may .nil
    (by decide)) (by decide)) (by decide)) (by decide)) (by decide)) (by decide)) (by decide)) (by decide))).imap
    (fun _ => rfl) (fun _ => rfl)

theorem Reads.jsonOutput {f} : Reads f Serde.jsonOutput At.jsonOutput :=
  (Reads.struct (.field .u64 (must rfl) (.field (.vec .jsonTaggedOp) (must rfl) .nil (by decide))
    (by decide))).imap (fun _ => rfl) (fun _ => rfl)

theorem Reads.jsonTx {f} : Reads f Serde.jsonTx At.jsonTx :=
  (Reads.struct (.field .jsonTables (must rfl) (.field .i32 (must rfl) (.field (.vec .jsonInput) (must rfl)
    (.field (.vec .jsonOutput) (must rfl) (.field .u32 (must rfl) .nil (by decide)) (by decide)) (by decide))
    (by decide)) (by decide))).imap (fun _ => rfl) (fun _ => rfl)

end Serde
end BCash
