import Verif.Proofs.ByteArray
import Verif.Spec.Derive

/-! # Proofs about the derive macro -/

namespace BCash.Derive
open BCash.Macro BCash.Spec.Derive

/-! ## Attributes -/

theorem crateArg_ok_iff (lx : Lex) (a : NestedMeta) (c : String) :
    crateArg lx a = .ok c ↔ a = .nested (.nameValue ⟨"crate", []⟩ (.str c)) ∧ lx.isIdent c = true := by
  match a with
  | .nested (.nameValue ⟨p, more⟩ lit) =>
    cases more with
    | cons m ms => simp [crateArg, singlePath]
    | nil =>
      by_cases hp : p = "crate"
      · subst hp
        cases lit with
        | str t =>
          by_cases ht : lx.isIdent t = true
          · simp only [crateArg, singlePath, parseStringLit, List.isEmpty_nil, if_true, ht, Res.ok.injEq,
              NestedMeta.nested.injEq, Meta.nameValue.injEq, Lit.str.injEq, true_and]
            constructor
            · rintro rfl; exact ⟨rfl, ht⟩
            · exact fun h => h.1
          · simp only [crateArg, singlePath, parseStringLit, List.isEmpty_nil, if_true, ht,
              NestedMeta.nested.injEq, Meta.nameValue.injEq, Lit.str.injEq, true_and]
            constructor
            · simp
            · rintro ⟨rfl, h⟩; exact absurd h ht
        | bool b => simp [crateArg, singlePath, parseStringLit]
        | other => simp [crateArg, singlePath, parseStringLit]
      · simp [crateArg, singlePath, hp]
  | .nested (.path p) => simp [crateArg]
  | .nested (.list p l) => simp [crateArg]
  | .lit l => simp [crateArg]

theorem crateArgs_ok_iff (lx : Lex) (l : List NestedMeta) : ∀ (c0 c : String),
    crateArgs lx l c0 = .ok c ↔
      ∃ names : List String, l = names.map (fun c => .nested (.nameValue ⟨"crate", []⟩ (.str c))) ∧
        (∀ c ∈ names, lx.isIdent c = true) ∧ c = names.getLast?.getD c0 := by
  induction l with
  | nil =>
    intro c0 c
    simp only [crateArgs, Res.ok.injEq]
    constructor
    · rintro rfl; exact ⟨[], rfl, by simp, rfl⟩
    · rintro ⟨names, h, _, rfl⟩
      cases names with
      | nil => rfl
      | cons x xs => simp at h
  | cons a as ih =>
    intro c0 c
    rw [crateArgs]
    constructor
    · intro h
      cases ha : crateArg lx a with
      | err e => rw [ha] at h; simp [Res.bind] at h
      | panic => rw [ha] at h; simp [Res.bind] at h
      | ok x =>
        rw [ha] at h
        obtain ⟨names, rfl, hn, rfl⟩ := (ih x c).mp h
        obtain ⟨rfl, hx⟩ := (crateArg_ok_iff lx a x).mp ha
        refine ⟨x :: names, rfl, by simpa using ⟨hx, hn⟩, ?_⟩
        cases names <;> simp [List.getLast?_cons]
    · rintro ⟨names, h, hn, rfl⟩
      cases names with
      | nil => simp at h
      | cons x xs =>
        simp only [List.map_cons, List.cons.injEq] at h
        have ha := (crateArg_ok_iff lx a x).mpr ⟨h.1, hn x (by simp)⟩
        rw [ha]
        refine (ih x _).mpr ⟨xs, h.2, fun c hc => hn c (by simp [hc]), ?_⟩
        cases xs <;> simp [List.getLast?_cons]

theorem structAttrs_ok_iff (lx : Lex) (l : List Attribute) : ∀ (c0 c : String),
    structAttrs lx l c0 = .ok c ↔
      ∃ marks : List Mark, l = marks.map Mark.written ∧ (∀ m ∈ marks, m.Ok lx) ∧
        c = ((marks.map fun | .crates names => names | .other _ => []).flatten.getLast?).getD c0 := by
  induction l with
  | nil =>
    intro c0 c
    simp only [structAttrs, Res.ok.injEq]
    constructor
    · rintro rfl; exact ⟨[], rfl, by simp, rfl⟩
    · rintro ⟨marks, h, _, rfl⟩
      cases marks with
      | nil => rfl
      | cons x xs => simp at h
  | cons a as ih =>
    intro c0 c
    obtain ⟨path, content⟩ := a
    have hother : ∀ (hc : content ≠ .other) (hl : ∀ l, content = .list l → path ≠ ⟨"bitcoin_code", []⟩),
        (structAttrs lx as c0 = .ok c ↔
          ∃ marks : List Mark, (⟨path, content⟩ :: as) = marks.map Mark.written ∧ (∀ m ∈ marks, m.Ok lx) ∧
          c = ((marks.map fun | .crates names => names | .other _ => []).flatten.getLast?).getD c0) := by
      intro hc hl
      constructor
      · intro h
        obtain ⟨marks, rfl, hm, rfl⟩ := (ih c0 c).mp h
        refine ⟨.other ⟨path, content⟩ :: marks, rfl, ?_, by simp⟩
        intro m hm'
        rcases List.mem_cons.mp hm' with rfl | h'
        · exact ⟨hc, hl⟩
        · exact hm m h'
      · rintro ⟨marks, h, hm, rfl⟩
        cases marks with
        | nil => simp at h
        | cons x xs =>
          simp only [List.map_cons, List.cons.injEq] at h
          cases x with
          | crates names =>
            have h1 := h.1
            simp only [Mark.written, Attribute.mk.injEq] at h1
            exact absurd h1.1 (hl _ h1.2)
          | other a =>
            exact (ih c0 _).mpr ⟨xs, h.2, fun m hm' => hm m (by simp [hm']), by simp⟩
    cases content with
    | none =>
      rw [← hother (by simp) (by simp)]
      simp [structAttrs, Attribute.parseMeta]
    | value lit =>
      rw [← hother (by simp) (by simp)]
      simp [structAttrs, Attribute.parseMeta]
    | other =>
      simp only [structAttrs, Attribute.parseMeta, reduceCtorEq, false_iff]
      rintro ⟨marks, h, hm, _⟩
      cases marks with
      | nil => simp at h
      | cons x xs =>
        simp only [List.map_cons, List.cons.injEq] at h
        cases x with
        | crates names => simp [Mark.written] at h
        | other a =>
          have h1 := h.1
          simp only [Mark.written] at h1
          have := (hm (.other a) (by simp)).1
          rw [← h1] at this
          exact this rfl
    | list nested =>
      by_cases hp : path = ⟨"bitcoin_code", []⟩
      · subst hp
        simp only [structAttrs, Attribute.parseMeta, if_true]
        constructor
        · intro h
          cases ha : crateArgs lx nested c0 with
          | err e => rw [ha] at h; simp [Res.bind] at h
          | panic => rw [ha] at h; simp [Res.bind] at h
          | ok x =>
            rw [ha] at h
            obtain ⟨marks, rfl, hm, rfl⟩ := (ih x c).mp h
            obtain ⟨names, rfl, hn, rfl⟩ := (crateArgs_ok_iff lx nested c0 x).mp ha
            refine ⟨.crates names :: marks, rfl, ?_, ?_⟩
            · intro m hm'
              rcases List.mem_cons.mp hm' with rfl | h'
              · exact hn
              · exact hm m h'
            · simp only [List.map_cons, List.flatten_cons, List.getLast?_append]
              cases ((List.map (fun (m : Mark) => match m with | .crates names => names | .other _ => []) marks).flatten).getLast? <;> simp
        · rintro ⟨marks, h, hm, rfl⟩
          cases marks with
          | nil => simp at h
          | cons x xs =>
            simp only [List.map_cons, List.cons.injEq] at h
            cases x with
            | other a =>
              have h1 := h.1
              simp only [Mark.written] at h1
              have := (hm (.other a) (by simp)).2
              rw [← h1] at this
              exact absurd rfl (this nested rfl)
            | crates names =>
              have h1 := h.1
              simp only [Mark.written, Attribute.mk.injEq, true_and, AttrContent.list.injEq] at h1
              have ha := (crateArgs_ok_iff lx nested c0 _).mpr ⟨names, h1, hm (.crates names) (by simp), rfl⟩
              rw [ha]
              refine (ih _ _).mpr ⟨xs, h.2, fun m hm' => hm m (by simp [hm']), ?_⟩
              simp only [List.map_cons, List.flatten_cons, List.getLast?_append]
              cases ((List.map (fun (m : Mark) => match m with | .crates names => names | .other _ => []) xs).flatten).getLast? <;> simp
      · rw [← hother (by simp) (by intro l _; exact hp)]
        simp [structAttrs, Attribute.parseMeta, hp]

theorem isSkip_iff (n : NestedMeta) : isSkip n = true ↔ n = .nested (.path ⟨"skip", []⟩) := by
  match n with
  | .nested (.path p) => simp [isSkip]
  | .nested (.list p l) => simp [isSkip]
  | .nested (.nameValue p l) => simp [isSkip]
  | .lit l => simp [isSkip]

theorem fieldAttrs_ok_iff (l : List Attribute) : ∀ (b0 b : Bool),
    fieldAttrs l b0 = .ok b ↔
      ∃ paths : List Path, l = paths.map skipMark ∧ b = (b0 || !l.isEmpty) := by
  induction l with
  | nil =>
    intro b0 b
    simp only [fieldAttrs, Res.ok.injEq]
    constructor
    · rintro rfl; exact ⟨[], rfl, by simp⟩
    · rintro ⟨_, _, rfl⟩; simp
  | cons a as ih =>
    intro b0 b
    obtain ⟨path, content⟩ := a
    have hno : ∀ (h : ∀ p, content ≠ (skipMark p).content),
        ¬ ∃ paths : List Path, ((⟨path, content⟩ : Attribute) :: as) = paths.map skipMark ∧
          b = (b0 || !((⟨path, content⟩ : Attribute) :: as).isEmpty) := by
      rintro h ⟨paths, h1, _⟩
      cases paths with
      | nil => simp at h1
      | cons p ps =>
        simp only [List.map_cons, List.cons.injEq] at h1
        exact h p (congrArg Attribute.content h1.1)
    match content, hno with
    | .none, hno =>
      simp only [fieldAttrs, Attribute.parseMeta, reduceCtorEq, false_iff]
      exact hno (by simp [skipMark])
    | .value lit, hno =>
      simp only [fieldAttrs, Attribute.parseMeta, reduceCtorEq, false_iff]
      exact hno (by simp [skipMark])
    | .other, hno =>
      simp only [fieldAttrs, Attribute.parseMeta, reduceCtorEq, false_iff]
      exact hno (by simp [skipMark])
    | .list [], hno =>
      simp only [fieldAttrs, Attribute.parseMeta, reduceCtorEq, false_iff]
      exact hno (by simp [skipMark])
    | .list (_ :: _ :: _), hno =>
      simp only [fieldAttrs, Attribute.parseMeta, reduceCtorEq, false_iff]
      exact hno (by simp [skipMark])
    | .list [n], hno =>
      by_cases hn : isSkip n = true
      · simp only [fieldAttrs, Attribute.parseMeta, hn, if_true]
        rw [ih]
        have := (isSkip_iff n).mp hn
        subst this
        constructor
        · rintro ⟨paths, rfl, rfl⟩; exact ⟨path :: paths, rfl, by simp⟩
        · rintro ⟨paths, h, rfl⟩
          cases paths with
          | nil => simp at h
          | cons p ps =>
            simp only [List.map_cons, List.cons.injEq] at h
            exact ⟨ps, h.2, by simp⟩
      · simp only [fieldAttrs, Attribute.parseMeta, hn]
        simp only [Bool.false_eq_true, if_false, reduceCtorEq, false_iff]
        refine hno ?_
        intro p h
        simp only [skipMark, AttrContent.list.injEq, List.cons.injEq, and_true] at h
        exact hn ((isSkip_iff n).mpr h)

/-! ## Fields -/

/-- The statements for the fields. -/
def callsOf (fields : List Field) : Calls :=
  ⟨(fields.filter (·.attrs.isEmpty)).map (fun f => (f.name, f.name)),
    fields.map (fun f => if f.attrs.isEmpty then .read f.name f.ty else .default f.name),
    fields.map Field.name⟩

theorem fieldCalls_ok_iff (fields : List Field) : ∀ c,
    fieldCalls fields = .ok c ↔ (∀ f ∈ fields, PlainField f) ∧ c = callsOf fields := by
  induction fields with
  | nil =>
    intro c
    simp only [fieldCalls, callsOf, Res.ok.injEq, List.filter_nil, List.map_nil, List.not_mem_nil, false_implies,
      implies_true, true_and]
    exact ⟨Eq.symm, Eq.symm⟩
  | cons f fs ih =>
    intro c
    rw [fieldCalls]
    constructor
    · intro h
      cases ha : fieldAttrs f.attrs false with
      | err e => rw [ha] at h; simp [Res.bind] at h
      | panic => rw [ha] at h; simp [Res.bind] at h
      | ok sk =>
        rw [ha] at h
        simp only [Res.bind] at h
        cases hc : fieldCalls fs with
        | err e => rw [hc] at h; simp at h
        | panic => rw [hc] at h; simp at h
        | ok c' =>
          rw [hc] at h
          simp only [Res.ok.injEq] at h
          obtain ⟨h1, rfl⟩ := (ih c').mp hc
          obtain ⟨paths, hp, rfl⟩ := (fieldAttrs_ok_iff f.attrs false sk).mp ha
          refine ⟨by simpa using ⟨⟨paths, hp⟩, h1⟩, ?_⟩
          rw [← h]
          cases he : f.attrs <;> simp [callsOf, he]
    · rintro ⟨h, rfl⟩
      obtain ⟨paths, hp⟩ := h f (by simp)
      have ha := (fieldAttrs_ok_iff f.attrs false _).mpr ⟨paths, hp, rfl⟩
      rw [ha]
      have hc := (ih _).mpr ⟨fun g hg => h g (by simp [hg]), rfl⟩
      simp only [Res.bind, hc, Res.ok.injEq]
      cases he : f.attrs <;> simp [callsOf, he]

/-- The generated code. -/
def outputOf (s : ItemStruct) (crateName : String) (fields : List Field) : Output :=
  ⟨s.name, crateName, fields.length, (callsOf fields).pushes, (callsOf fields).lets, (callsOf fields).literal⟩

theorem generate_ok_iff (lx : Lex) (s : ItemStruct) (o : Output) :
    generate lx s = .ok o ↔ ∃ crateName fields, WellWritten lx s crateName fields ∧
      o = outputOf s crateName fields := by
  unfold generate
  constructor
  · intro h
    cases ha : structAttrs lx s.attrs "bitcoin_cash" with
    | err e => rw [ha] at h; simp [Res.bind] at h
    | panic => rw [ha] at h; simp [Res.bind] at h
    | ok c =>
      rw [ha] at h
      simp only [Res.bind] at h
      cases hf : s.fields with
      | unnamed => rw [hf] at h; simp at h
      | unit => rw [hf] at h; simp at h
      | named fields =>
        rw [hf] at h
        dsimp only at h
        cases hc : fieldCalls fields with
        | err e => rw [hc] at h; simp at h
        | panic => rw [hc] at h; simp at h
        | ok c' =>
          rw [hc] at h
          simp only [Res.ok.injEq] at h
          obtain ⟨h1, rfl⟩ := (fieldCalls_ok_iff fields c').mp hc
          exact ⟨c, fields, ⟨(structAttrs_ok_iff lx _ _ c).mp ha, hf, h1⟩, h.symm⟩
  · rintro ⟨c, fields, ⟨h1, h2, h3⟩, rfl⟩
    rw [(structAttrs_ok_iff lx s.attrs "bitcoin_cash" c).mpr h1]
    simp only [Res.bind, h2, (fieldCalls_ok_iff fields _).mpr ⟨h3, rfl⟩]
    rfl

/-! ## Running -/

variable {V : Type}

theorem tyOf_mem {fields : List Field} (hn : (fields.map Field.name).Nodup) {f : Field} (hf : f ∈ fields) :
    tyOf fields f.name = some f.ty := by
  unfold tyOf
  induction fields with
  | nil => simp at hf
  | cons g gs ih =>
    rw [List.map_cons, List.nodup_cons] at hn
    rcases List.mem_cons.mp hf with rfl | h
    · simp
    · have : g.name ≠ f.name := fun e => hn.1 (e ▸ List.mem_map_of_mem h)
      rw [List.find?_cons]
      simp only [this, decide_false]
      exact ih hn.2 h

/-- The type lookup is right for the fields of a suffix. -/
def Knows (all fields : List Field) : Prop := ∀ f ∈ fields, tyOf all f.name = some f.ty

theorem lookup_cons_ne {β : Type} {x y : String} (h : x ≠ y) (v : β) (l : List (String × β)) :
    ((y, v) :: l).lookup x = l.lookup x := by
  rw [List.lookup_cons]
  have : (x == y) = false := by simp [h]
  rw [this]

theorem runPushes_iff (W : World V) (all : List Field) : ∀ (fields : List Field) (r self : Record V),
    Knows all fields → (fields.map Field.name).Nodup → r.map Prod.fst = fields.map Field.name →
    (∀ x ∈ fields.map Field.name, self.lookup x = r.lookup x) → ∀ ps,
    (runPushes W all self (callsOf fields).pushes = some ps ↔ Parts W fields r ps) := by
  intro fields
  induction fields with
  | nil =>
    intro r self _ _ hr _ ps
    have : r = [] := by cases r <;> simp_all
    subst this
    simp only [callsOf, List.filter_nil, List.map_nil, runPushes, Option.some.injEq]
    constructor
    · rintro rfl; exact .nil
    · intro h; cases h; rfl
  | cons f fs ih =>
    intro r self hk hn hr hl ps
    rw [List.map_cons] at hr hn
    obtain ⟨⟨x, v⟩, r, rfl⟩ : ∃ p r', r = p :: r' := by cases r <;> simp_all
    simp only [List.map_cons, List.cons.injEq] at hr
    obtain ⟨rfl, hr⟩ := hr
    have hn' := List.nodup_cons.mp hn
    have hk' : Knows all fs := fun g hg => hk g (by simp [hg])
    have hl' : ∀ x ∈ fs.map Field.name, self.lookup x = r.lookup x := by
      intro x hx
      rw [hl x (by simp only [List.map_cons, List.mem_cons]; exact Or.inr hx)]
      refine lookup_cons_ne ?_ _ _
      rintro rfl
      exact hn'.1 hx
    have ih' := ih r self hk' hn'.2 hr hl'
    have hv : self.lookup f.name = some v := by
      rw [hl f.name (by simp), List.lookup_cons_self]
    by_cases hs : f.attrs = []
    · have hp : (callsOf (f :: fs)).pushes = (f.name, f.name) :: (callsOf fs).pushes := by
        simp [callsOf, hs]
      rw [hp, runPushes, hk f (by simp), hv]
      simp only [Option.bind_some]
      constructor
      · intro h
        obtain ⟨c, hc, h⟩ := Option.bind_eq_some_iff.mp h
        obtain ⟨b, hb, h⟩ := Option.bind_eq_some_iff.mp h
        obtain ⟨bs, hbs, h⟩ := Option.bind_eq_some_iff.mp h
        cases h
        exact .stored hs hc hb ((ih' bs).mp hbs)
      · intro h
        cases h with
        | stored _ hc hb h => rw [hc, Option.bind_some, hb, Option.bind_some, (ih' _).mpr h]; rfl
        | skipped h' _ => exact absurd hs h'
    · have hp : (callsOf (f :: fs)).pushes = (callsOf fs).pushes := by
        simp [callsOf, hs]
      rw [hp, ih']
      constructor
      · exact fun h => .skipped hs h
      · intro h
        cases h with
        | stored h' _ _ _ => exact absurd h' hs
        | skipped _ h => exact h

/-- Reading the fields one after the other. -/
def readAll (W : World V) : List Field → ByteArray → Res Error (Record V × ByteArray)
  | [], data => .ok ([], data)
  | f :: fs, data =>
    if f.attrs = [] then
      match W.code f.ty with
      | none => .panic
      | some c => (c.deserRest data).bind fun (v, mid) =>
          (readAll W fs mid).bind fun (r, rest) => .ok ((f.name, v) :: r, rest)
    else
      match W.dflt f.ty with
      | none => .panic
      | some d => (readAll W fs data).bind fun (r, rest) => .ok ((f.name, d) :: r, rest)

theorem Res.bind_assoc' {ε α β γ : Type} (x : Res ε α) (f : α → Res ε β) (g : β → Res ε γ) :
    (x.bind f).bind g = x.bind fun a => (f a).bind g := by cases x <;> rfl

theorem runLets_eq (W : World V) (all : List Field) : ∀ (fields : List Field) (env : Record V) (data : ByteArray),
    Knows all fields →
    runLets W all (callsOf fields).lets env data =
      (readAll W fields data).bind fun (r, rest) => .ok (r.reverse ++ env, rest) := by
  intro fields
  induction fields with
  | nil => intro env data _; simp [callsOf, runLets, readAll, Res.bind]
  | cons f fs ih =>
    intro env data hk
    have hk' : Knows all fs := fun g hg => hk g (by simp [hg])
    by_cases hs : f.attrs = []
    · have hp : (callsOf (f :: fs)).lets = .read f.name f.ty :: (callsOf fs).lets := by simp [callsOf, hs]
      rw [hp, runLets, readAll, if_pos hs]
      cases W.code f.ty with
      | none => rfl
      | some c =>
        dsimp only
        cases c.deserRest data with
        | err e => rfl
        | panic => rfl
        | ok p =>
          obtain ⟨v, mid⟩ := p
          simp only [Res.bind]
          rw [ih _ _ hk']
          cases readAll W fs mid with
          | err e => rfl
          | panic => rfl
          | ok q => simp [Res.bind]
    · have hp : (callsOf (f :: fs)).lets = .default f.name :: (callsOf fs).lets := by simp [callsOf, hs]
      rw [hp, runLets, readAll, if_neg hs, hk f (by simp)]
      simp only [Option.bind_some]
      cases W.dflt f.ty with
      | none => rfl
      | some d =>
        dsimp only
        rw [ih _ _ hk']
        cases readAll W fs data with
        | err e => rfl
        | panic => rfl
        | ok q => simp [Res.bind]

theorem readAll_names (W : World V) : ∀ (fields : List Field) (data : ByteArray) (r : Record V) (rest : ByteArray),
    readAll W fields data = .ok (r, rest) → r.map Prod.fst = fields.map Field.name := by
  intro fields
  induction fields with
  | nil => intro data r rest h; simp only [readAll, Res.ok.injEq, Prod.mk.injEq] at h; simp [← h.1]
  | cons f fs ih =>
    intro data r rest h
    rw [readAll] at h
    split at h
    · cases hc : W.code f.ty with
      | none => rw [hc] at h; simp at h
      | some c =>
        rw [hc] at h
        dsimp only at h
        cases hd : c.deserRest data with
        | err e => rw [hd] at h; simp [Res.bind] at h
        | panic => rw [hd] at h; simp [Res.bind] at h
        | ok p =>
          rw [hd] at h
          simp only [Res.bind] at h
          cases hm : readAll W fs p.2 with
          | err e => rw [hm] at h; simp at h
          | panic => rw [hm] at h; simp at h
          | ok q =>
            rw [hm] at h
            simp only [Res.ok.injEq, Prod.mk.injEq] at h
            rw [← h.1]
            simp [ih p.2 q.1 q.2 hm]
    · cases hc : W.dflt f.ty with
      | none => rw [hc] at h; simp at h
      | some d =>
        rw [hc] at h
        dsimp only at h
        cases hm : readAll W fs data with
        | err e => rw [hm] at h; simp [Res.bind] at h
        | panic => rw [hm] at h; simp [Res.bind] at h
        | ok q =>
          rw [hm] at h
          simp only [Res.bind, Res.ok.injEq, Prod.mk.injEq] at h
          rw [← h.1]
          simp [ih data q.1 q.2 hm]

theorem lookup_of_nodup : ∀ (r : Record V) (x : String) (v : V), (r.map Prod.fst).Nodup → (x, v) ∈ r →
    r.lookup x = some v := by
  intro r
  induction r with
  | nil => intro x v _ h; simp at h
  | cons p r ih =>
    intro x v hn h
    obtain ⟨y, w⟩ := p
    rw [List.map_cons, List.nodup_cons] at hn
    rcases List.mem_cons.mp h with h | h
    · cases h; rw [List.lookup_cons_self]
    · have hx : x ∈ r.map Prod.fst := List.mem_map_of_mem (f := Prod.fst) h
      rw [lookup_cons_ne, ih x v hn.2 h]
      rintro rfl
      exact hn.1 hx

theorem buildLiteral_of (env : Record V) : ∀ r : Record V, (∀ p ∈ r, env.lookup p.1 = some p.2) →
    buildLiteral env (r.map Prod.fst) = some r := by
  intro r
  induction r with
  | nil => intro _; rfl
  | cons p r ih =>
    intro h
    rw [List.map_cons, buildLiteral, h p (by simp), Option.bind_some, ih fun q hq => h q (by simp [hq])]
    rfl

theorem codec_deserRest (W : World V) (s : ItemStruct) (crateName : String) (fields : List Field)
    (hn : (fields.map Field.name).Nodup) (data : ByteArray) :
    ((outputOf s crateName fields).codec W fields).deserRest data = readAll W fields data := by
  have hk : Knows fields fields := fun f hf => tyOf_mem hn hf
  simp only [Output.codec, outputOf]
  rw [runLets_eq W fields fields [] data hk]
  cases hr : readAll W fields data with
  | err e => rfl
  | panic => rfl
  | ok p =>
    obtain ⟨r, rest⟩ := p
    have hnames := readAll_names W fields data r rest hr
    simp only [Res.bind, List.append_nil]
    have hl : (callsOf fields).literal = r.map Prod.fst := by rw [hnames]; rfl
    rw [hl, buildLiteral_of]
    intro p hp
    refine lookup_of_nodup _ _ _ ?_ (by simpa using hp)
    rw [List.map_reverse, hnames]
    exact (List.reverse_perm _).nodup_iff.mpr hn

theorem readAll_ok_iff (W : World V) : ∀ (fields : List Field) (data : ByteArray) (r : Record V) (rest : ByteArray),
    readAll W fields data = .ok (r, rest) ↔ Reads W fields data r rest := by
  intro fields
  induction fields with
  | nil =>
    intro data r rest
    simp only [readAll, Res.ok.injEq, Prod.mk.injEq]
    constructor
    · rintro ⟨rfl, rfl⟩; exact .nil
    · intro h; cases h; exact ⟨rfl, rfl⟩
  | cons f fs ih =>
    intro data r rest
    rw [readAll]
    by_cases hs : f.attrs = []
    · rw [if_pos hs]
      constructor
      · intro h
        cases hc : W.code f.ty with
        | none => rw [hc] at h; simp at h
        | some c =>
          rw [hc] at h
          dsimp only at h
          cases hd : c.deserRest data with
          | err e => rw [hd] at h; simp [Res.bind] at h
          | panic => rw [hd] at h; simp [Res.bind] at h
          | ok p =>
            rw [hd] at h
            simp only [Res.bind] at h
            cases hm : readAll W fs p.2 with
            | err e => rw [hm] at h; simp at h
            | panic => rw [hm] at h; simp at h
            | ok q =>
              rw [hm] at h
              simp only [Res.ok.injEq, Prod.mk.injEq] at h
              obtain ⟨rfl, rfl⟩ := h
              exact .stored hs hc hd ((ih _ _ _).mp hm)
      · intro h
        cases h with
        | stored _ hc hd h =>
          rw [hc]; dsimp only; rw [hd]; simp only [Res.bind]; rw [(ih _ _ _).mpr h]
        | skipped h' _ _ => exact absurd hs h'
    · rw [if_neg hs]
      constructor
      · intro h
        cases hc : W.dflt f.ty with
        | none => rw [hc] at h; simp at h
        | some d =>
          rw [hc] at h
          dsimp only at h
          cases hm : readAll W fs data with
          | err e => rw [hm] at h; simp [Res.bind] at h
          | panic => rw [hm] at h; simp [Res.bind] at h
          | ok q =>
            rw [hm] at h
            simp only [Res.bind, Res.ok.injEq, Prod.mk.injEq] at h
            obtain ⟨rfl, rfl⟩ := h
            exact .skipped hs hc ((ih _ _ _).mp hm)
      · intro h
        cases h with
        | stored h' _ _ _ => exact absurd h' hs
        | skipped _ hc h => rw [hc]; dsimp only; rw [(ih _ _ _).mpr h]; rfl

/-- Reading stops at the first field that cannot be read. -/
theorem readAll_stop (W : World V) (x : Res Error (Record V × ByteArray))
    (hx : x = .panic ∨ ∃ e, x = .err e) : ∀ (fields : List Field) (data : ByteArray),
    (∀ f ∈ fields, Stored f → ∃ c, W.code f.ty = some c) →
    (∀ f ∈ fields, ¬ Stored f → ∃ d, W.dflt f.ty = some d) →
    (readAll W fields data = x ↔ ∃ before f after c r mid, fields = before ++ f :: after ∧ Stored f ∧
      W.code f.ty = some c ∧ Reads W before data r mid ∧
      (c.deserRest mid).bind (fun _ => .ok (([] : Record V), mid)) = x) := by
  intro fields
  induction fields with
  | nil =>
    intro data _ _
    simp only [readAll]
    constructor
    · rintro rfl; rcases hx with h | ⟨e, h⟩ <;> simp at h
    · rintro ⟨before, f, after, _, _, _, h, _⟩; simp at h
  | cons f fs ih =>
    intro data hst hsk
    have ih' := fun data => ih data (fun g hg => hst g (by simp [hg])) (fun g hg => hsk g (by simp [hg]))
    rw [readAll]
    by_cases hs : f.attrs = []
    · rw [if_pos hs]
      obtain ⟨c, hc⟩ := hst f (by simp) hs
      rw [hc]
      dsimp only
      cases hd : c.deserRest data with
      | ok p =>
        obtain ⟨v, mid⟩ := p
        have hbind : (Res.bind (.ok (v, mid)) (fun (v, mid) =>
            (readAll W fs mid).bind fun (r, rest) => .ok ((f.name, v) :: r, rest)) = x) ↔ readAll W fs mid = x := by
          simp only [Res.bind]
          cases hm : readAll W fs mid with
          | ok q => simp only []; constructor <;> (rintro rfl; rcases hx with h | ⟨e, h⟩ <;> simp at h)
          | err e => rcases hx with rfl | ⟨e', rfl⟩ <;> simp
          | panic => rcases hx with rfl | ⟨e', rfl⟩ <;> simp
        refine hbind.trans ((ih' mid).trans ?_)
        constructor
        · rintro ⟨before, g, after, c', r, m, rfl, hg, hc', hr, hx'⟩
          exact ⟨f :: before, g, after, c', _, m, rfl, hg, hc', .stored hs hc hd hr, hx'⟩
        · rintro ⟨before, g, after, c', r, m, he, hg, hc', hr, hx'⟩
          cases before with
          | nil =>
            simp only [List.nil_append, List.cons.injEq] at he
            obtain ⟨rfl, rfl⟩ := he
            cases hr
            rw [hc] at hc'; cases hc'
            rw [hd] at hx'
            subst hx'
            rcases hx with h | ⟨e, h⟩ <;> simp [Res.bind] at h
          | cons b bs =>
            simp only [List.cons_append, List.cons.injEq] at he
            obtain ⟨rfl, rfl⟩ := he
            cases hr with
            | stored _ hc2 hd2 hr =>
              rw [hc] at hc2; cases hc2
              rw [hd] at hd2; cases hd2
              exact ⟨bs, g, after, c', _, m, rfl, hg, hc', hr, hx'⟩
            | skipped h' _ _ => exact absurd hs h'
      | err e =>
        constructor
        · intro h
          exact ⟨[], f, fs, c, [], data, rfl, hs, hc, .nil, by rw [hd]; exact h⟩
        · rintro ⟨before, g, after, c', r, m, he, hg, hc', hr, hx'⟩
          cases before with
          | nil =>
            simp only [List.nil_append, List.cons.injEq] at he
            obtain ⟨rfl, rfl⟩ := he
            cases hr
            rw [hc] at hc'; cases hc'
            rw [hd] at hx'
            exact hx'
          | cons b bs =>
            simp only [List.cons_append, List.cons.injEq] at he
            obtain ⟨rfl, rfl⟩ := he
            cases hr with
            | stored _ hc2 hd2 hr => rw [hc] at hc2; cases hc2; rw [hd] at hd2; cases hd2
            | skipped h' _ _ => exact absurd hs h'
      | panic =>
        constructor
        · intro h
          exact ⟨[], f, fs, c, [], data, rfl, hs, hc, .nil, by rw [hd]; exact h⟩
        · rintro ⟨before, g, after, c', r, m, he, hg, hc', hr, hx'⟩
          cases before with
          | nil =>
            simp only [List.nil_append, List.cons.injEq] at he
            obtain ⟨rfl, rfl⟩ := he
            cases hr
            rw [hc] at hc'; cases hc'
            rw [hd] at hx'
            exact hx'
          | cons b bs =>
            simp only [List.cons_append, List.cons.injEq] at he
            obtain ⟨rfl, rfl⟩ := he
            cases hr with
            | stored _ hc2 hd2 hr => rw [hc] at hc2; cases hc2; rw [hd] at hd2; cases hd2
            | skipped h' _ _ => exact absurd hs h'
    · rw [if_neg hs]
      obtain ⟨d, hd⟩ := hsk f (by simp) hs
      rw [hd]
      dsimp only
      have hbind : ((readAll W fs data).bind (fun (r, rest) => .ok ((f.name, d) :: r, rest)) = x) ↔
          readAll W fs data = x := by
        cases hm : readAll W fs data with
        | ok q => simp only [Res.bind]; constructor <;> (rintro rfl; rcases hx with h | ⟨e, h⟩ <;> simp at h)
        | err e => rcases hx with rfl | ⟨e', rfl⟩ <;> simp [Res.bind]
        | panic => rcases hx with rfl | ⟨e', rfl⟩ <;> simp [Res.bind]
      refine hbind.trans ((ih' data).trans ?_)
      constructor
      · rintro ⟨before, g, after, c', r, m, rfl, hg, hc', hr, hx'⟩
        exact ⟨f :: before, g, after, c', _, m, rfl, hg, hc', .skipped hs hd hr, hx'⟩
      · rintro ⟨before, g, after, c', r, m, he, hg, hc', hr, hx'⟩
        cases before with
        | nil =>
          simp only [List.nil_append, List.cons.injEq] at he
          obtain ⟨rfl, rfl⟩ := he
          exact absurd hg hs
        | cons b bs =>
          simp only [List.cons_append, List.cons.injEq] at he
          obtain ⟨rfl, rfl⟩ := he
          cases hr with
          | stored h' _ _ _ => exact absurd h' hs
          | skipped _ _ hr => exact ⟨bs, g, after, c', _, m, rfl, hg, hc', hr, hx'⟩

/-! ## Compilation -/

theorem compiles_iff (W : World V) (s : ItemStruct) (crateName : String) (fields : List Field)
    (hn : (fields.map Field.name).Nodup) :
    compiles W s fields (outputOf s crateName fields) = true ↔ Fits W s crateName fields := by
  have hk : Knows fields fields := fun f hf => tyOf_mem hn hf
  simp only [compiles, outputOf, Bool.and_eq_true, Bool.or_eq_true, Bool.not_eq_true']
  have hp : (callsOf fields).pushes.isEmpty = true ↔ ¬ ∃ f ∈ fields, Stored f := by
    simp [callsOf, Stored]
  have hl : (callsOf fields).lets.all (Let.ok W fields) = true ↔
      (∀ f ∈ fields, Stored f → f.name ≠ "data" ∧ ∃ c, W.code f.ty = some c) ∧
      ∀ f ∈ fields, ¬ Stored f → ∃ d, W.dflt f.ty = some d := by
    simp only [callsOf, List.all_map, List.all_eq_true]
    constructor
    · intro h
      constructor
      · intro f hf hs
        have := h f hf
        have hs' : f.attrs = [] := hs
        simpa [hs', Let.ok, Option.isSome_iff_exists] using this
      · intro f hf hs
        have := h f hf
        have hs' : f.attrs ≠ [] := hs
        simpa [hs', Let.ok, hk f hf, Option.isSome_iff_exists] using this
    · intro h f hf
      by_cases hs : f.attrs = []
      · simpa [hs, Let.ok, Option.isSome_iff_exists] using h.1 f hf hs
      · simpa [hs, Let.ok, hk f hf, Option.isSome_iff_exists] using h.2 f hf hs
  have hd : (callsOf fields).literal.contains "data" = false ↔ ∀ f ∈ fields, f.name ≠ "data" := by
    rw [← Bool.not_eq_true, List.contains_iff_mem]
    simp [callsOf]
  rw [hl, hd, hp]
  constructor
  · rintro ⟨⟨⟨⟨h1, h2⟩, h3⟩, h4, h5⟩, h6⟩
    exact ⟨h1, h2, fun h => h3.resolve_left (fun h' => h' h), fun f hf hs => (h4 f hf hs).2, h5, h6⟩
  · rintro ⟨h1, h2, h3, h4, h5, h6⟩
    refine ⟨⟨⟨⟨h1, h2⟩, ?_⟩, fun f hf hs => ⟨h6 f hf, h4 f hf hs⟩, h5⟩, h6⟩
    by_cases h : ∃ f ∈ fields, Stored f
    · exact Or.inr (h3 h)
    · exact Or.inl h

/-! ## Panics -/

theorem crateArg_panic_iff (lx : Lex) (a : NestedMeta) :
    crateArg lx a = .panic ↔ ∃ c, a = .nested (.nameValue ⟨"crate", []⟩ (.str c)) ∧ lx.isIdent c = false := by
  match a with
  | .nested (.nameValue ⟨p, more⟩ lit) =>
    cases more with
    | cons m ms => simp [crateArg, singlePath]
    | nil =>
      by_cases hp : p = "crate"
      · subst hp
        cases lit with
        | str t =>
          by_cases ht : lx.isIdent t = true
          · simp only [crateArg, singlePath, parseStringLit, List.isEmpty_nil, if_true, ht, reduceCtorEq, false_iff]
            rintro ⟨c, h, hc⟩
            simp only [NestedMeta.nested.injEq, Meta.nameValue.injEq, Lit.str.injEq, true_and] at h
            subst h; rw [ht] at hc; simp at hc
          · simp only [crateArg, singlePath, parseStringLit, List.isEmpty_nil, if_true, ht]
            simp only [Bool.not_eq_true] at ht
            simp [ht]
        | bool b => simp [crateArg, singlePath, parseStringLit]
        | other => simp [crateArg, singlePath, parseStringLit]
      · simp [crateArg, singlePath, hp]
  | .nested (.path p) => simp [crateArg]
  | .nested (.list p l) => simp [crateArg]
  | .lit l => simp [crateArg]

theorem crateArgs_panic_iff (lx : Lex) (l : List NestedMeta) : ∀ c0 : String,
    crateArgs lx l c0 = .panic ↔
      ∃ (names : List String) (c : String) (more : List NestedMeta),
        l = names.map (fun c => .nested (.nameValue ⟨"crate", []⟩ (.str c))) ++
          .nested (.nameValue ⟨"crate", []⟩ (.str c)) :: more ∧
        (∀ c ∈ names, lx.isIdent c = true) ∧ lx.isIdent c = false := by
  induction l with
  | nil => intro c0; simp [crateArgs]
  | cons a as ih =>
    intro c0
    rw [crateArgs]
    constructor
    · intro h
      cases ha : crateArg lx a with
      | err e => rw [ha] at h; simp [Res.bind] at h
      | panic =>
        obtain ⟨c, rfl, hc⟩ := (crateArg_panic_iff lx a).mp ha
        exact ⟨[], c, as, rfl, by simp, hc⟩
      | ok x =>
        rw [ha] at h
        obtain ⟨names, c, more, rfl, hn, hc⟩ := (ih x).mp h
        obtain ⟨rfl, hx⟩ := (crateArg_ok_iff lx a x).mp ha
        exact ⟨x :: names, c, more, rfl, by simpa using ⟨hx, hn⟩, hc⟩
    · rintro ⟨names, c, more, h, hn, hc⟩
      cases names with
      | nil =>
        simp only [List.map_nil, List.nil_append, List.cons.injEq] at h
        rw [(crateArg_panic_iff lx a).mpr ⟨c, h.1, hc⟩]; rfl
      | cons x xs =>
        simp only [List.map_cons, List.cons_append, List.cons.injEq] at h
        rw [(crateArg_ok_iff lx a x).mpr ⟨h.1, hn x (by simp)⟩]
        exact (ih x).mpr ⟨xs, c, more, h.2, fun c hc => hn c (by simp [hc]), hc⟩

theorem structAttrs_panic_iff (lx : Lex) (l : List Attribute) : ∀ c0 : String,
    structAttrs lx l c0 = .panic ↔
      ∃ (marks : List Mark) (names : List String) (c : String) (more : List NestedMeta) (rest : List Attribute),
        l = marks.map Mark.written ++ ⟨⟨"bitcoin_code", []⟩, .list
          (names.map (fun c => .nested (.nameValue ⟨"crate", []⟩ (.str c))) ++
            .nested (.nameValue ⟨"crate", []⟩ (.str c)) :: more)⟩ :: rest ∧
        (∀ m ∈ marks, m.Ok lx) ∧ (∀ c ∈ names, lx.isIdent c = true) ∧ lx.isIdent c = false := by
  induction l with
  | nil => intro c0; simp [structAttrs]
  | cons a as ih =>
    intro c0
    constructor
    · intro h
      obtain ⟨path, content⟩ := a
      have hskip : content ≠ .other → (∀ l, content = .list l → path ≠ ⟨"bitcoin_code", []⟩) →
          structAttrs lx as c0 = .panic →
          ∃ (marks : List Mark) (names : List String) (c : String) (more : List NestedMeta) (rest : List Attribute),
            ⟨path, content⟩ :: as = marks.map Mark.written ++ ⟨⟨"bitcoin_code", []⟩, .list
              (names.map (fun c => .nested (.nameValue ⟨"crate", []⟩ (.str c))) ++
                .nested (.nameValue ⟨"crate", []⟩ (.str c)) :: more)⟩ :: rest ∧
            (∀ m ∈ marks, m.Ok lx) ∧ (∀ c ∈ names, lx.isIdent c = true) ∧ lx.isIdent c = false := by
        intro h1 h2 h3
        obtain ⟨marks, names, c, more, rest, rfl, hm, hn, hc⟩ := (ih c0).mp h3
        refine ⟨.other ⟨path, content⟩ :: marks, names, c, more, rest, rfl, ?_, hn, hc⟩
        intro m hm'
        rcases List.mem_cons.mp hm' with rfl | hm'
        · exact ⟨h1, h2⟩
        · exact hm m hm'
      cases content with
      | none => exact hskip (by simp) (by simp) (by simpa [structAttrs, Attribute.parseMeta] using h)
      | value lit => exact hskip (by simp) (by simp) (by simpa [structAttrs, Attribute.parseMeta] using h)
      | other => simp [structAttrs, Attribute.parseMeta] at h
      | list nested =>
        by_cases hp : path = ⟨"bitcoin_code", []⟩
        · subst hp
          simp only [structAttrs, Attribute.parseMeta, if_true] at h
          cases hx : crateArgs lx nested c0 with
          | err e => rw [hx] at h; simp [Res.bind] at h
          | panic =>
            obtain ⟨names, c, more, rfl, hn, hc⟩ := (crateArgs_panic_iff lx nested c0).mp hx
            exact ⟨[], names, c, more, as, rfl, by simp, hn, hc⟩
          | ok x =>
            rw [hx] at h
            obtain ⟨marks, names, c, more, rest, rfl, hm, hn, hc⟩ := (ih x).mp h
            obtain ⟨ns, rfl, hns, _⟩ := (crateArgs_ok_iff lx nested c0 x).mp hx
            exact ⟨.crates ns :: marks, names, c, more, rest, rfl,
              fun m hm' => (List.mem_cons.mp hm').elim (fun e => e ▸ hns) (hm m), hn, hc⟩
        · exact hskip (by simp) (by simpa using hp) (by simpa [structAttrs, Attribute.parseMeta, hp] using h)
    · rintro ⟨marks, names, c, more, rest, h, hm, hn, hc⟩
      cases marks with
      | nil =>
        simp only [List.map_nil, List.nil_append, List.cons.injEq] at h
        rw [h.1]
        simp only [structAttrs, Attribute.parseMeta, if_true]
        rw [(crateArgs_panic_iff lx _ c0).mpr ⟨names, c, more, rfl, hn, hc⟩]; rfl
      | cons x xs =>
        simp only [List.map_cons, List.cons_append, List.cons.injEq] at h
        have hrest : ∀ c1, structAttrs lx as c1 = .panic := fun c1 =>
          (ih c1).mpr ⟨xs, names, c, more, rest, h.2, fun m hm' => hm m (by simp [hm']), hn, hc⟩
        have hx := hm x (by simp)
        rw [h.1]
        cases x with
        | crates ns =>
          simp only [Mark.written, structAttrs, Attribute.parseMeta, if_true]
          rw [(crateArgs_ok_iff lx _ c0 _).mpr ⟨ns, rfl, hx, rfl⟩]
          exact hrest _
        | other a =>
          obtain ⟨path, content⟩ := a
          cases content with
          | none => simpa [Mark.written, structAttrs, Attribute.parseMeta] using hrest c0
          | value lit => simpa [Mark.written, structAttrs, Attribute.parseMeta] using hrest c0
          | other => exact absurd rfl hx.1
          | list nested =>
            have hp := hx.2 nested rfl
            simp only at hp
            simpa [Mark.written, structAttrs, Attribute.parseMeta, hp] using hrest c0

theorem fieldAttrs_no_panic (l : List Attribute) : ∀ b, fieldAttrs l b ≠ .panic := by
  induction l with
  | nil => intro b; simp [fieldAttrs]
  | cons a as ih =>
    intro b
    rw [fieldAttrs]
    split
    · simp
    · simp
    · simp
    · split
      · split
        · exact ih true
        · simp
      · simp

theorem fieldCalls_no_panic (l : List Field) : fieldCalls l ≠ .panic := by
  induction l with
  | nil => simp [fieldCalls]
  | cons f fs ih =>
    rw [fieldCalls]
    cases h1 : fieldAttrs f.attrs false with
    | panic => exact absurd h1 (fieldAttrs_no_panic _ _)
    | err e => simp [Res.bind]
    | ok b =>
      cases h2 : fieldCalls fs with
      | panic => exact absurd h2 ih
      | err e => simp [Res.bind]
      | ok c => simp [Res.bind]

theorem generate_panic_iff (lx : Lex) (s : ItemStruct) :
    generate lx s = .panic ↔ structAttrs lx s.attrs "bitcoin_cash" = .panic := by
  rw [generate]
  cases h : structAttrs lx s.attrs "bitcoin_cash" with
  | panic => simp [Res.bind]
  | err e => simp [Res.bind]
  | ok c =>
    simp only [Res.bind, reduceCtorEq, iff_false]
    cases s.fields with
    | unnamed => simp
    | unit => simp
    | named fields =>
      dsimp only
      cases h2 : fieldCalls fields with
      | panic => exact absurd h2 (fieldCalls_no_panic _)
      | err e => simp [Res.bind]
      | ok c => simp [Res.bind]

end BCash.Derive
