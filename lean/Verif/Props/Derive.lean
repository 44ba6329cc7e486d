import Verif.Proofs.Derive
import Verif.Props.Provenance

/-! # C95: the derived serialisation of structs -/

namespace BCash
open Spec Derive Macro Spec.Derive

variable {V : Type}

/-! ## Which structs -/

/-- **C95** (accepted): the macro accepts exactly the structs with named fields whose attributes are well
written. -/
theorem C95_accepted (lx : Lex) (item : Derive.Item) :
    (∃ o, deriveMacro lx item = .ok o) ↔
      ∃ s crateName fields, item = .struct s ∧ WellWritten lx s crateName fields := by
  cases item with
  | other => simp [deriveMacro]
  | struct s =>
    simp only [deriveMacro, generate_ok_iff, Derive.Item.struct.injEq]
    constructor
    · rintro ⟨o, c, fields, h, _⟩; exact ⟨s, c, fields, rfl, h⟩
    · rintro ⟨s', c, fields, rfl, h⟩; exact ⟨_, c, fields, h, rfl⟩

/-- The attribute `#[bitcoin_code(crate = "a", …, crate = "c", …)]` whose arguments before `c` are crates with
proper names, and `c` is no identifier. -/
def BadCrate (lx : Lex) (a : Attribute) : Prop :=
  ∃ (names : List String) (c : String) (more : List NestedMeta),
    a = ⟨⟨"bitcoin_code", []⟩, .list (names.map (fun c => .nested (.nameValue ⟨"crate", []⟩ (.str c))) ++
      .nested (.nameValue ⟨"crate", []⟩ (.str c)) :: more)⟩ ∧
    (∀ c ∈ names, lx.isIdent c = true) ∧ lx.isIdent c = false

/-- **C95** (otherwise): anything else, in particular an enum, is an error of compilation pointing at it, except
that the macro panics at a crate name that is not an identifier if the attributes before it are well written. -/
theorem C95_otherwise (lx : Lex) (item : Derive.Item) :
    (∃ o, deriveMacro lx item = .ok o) ∨ (∃ e, deriveMacro lx item = .err e) ∨
    (deriveMacro lx item = .panic ∧ ∃ (s : ItemStruct) (marks : List Mark) (a : Attribute) (rest : List Attribute),
      item = .struct s ∧
      s.attrs = marks.map Mark.written ++ a :: rest ∧ (∀ m ∈ marks, m.Ok lx) ∧ BadCrate lx a) := by
  cases item with
  | other => exact .inr (.inl ⟨_, rfl⟩)
  | struct s =>
    cases h : deriveMacro lx (.struct s) with
    | ok o => exact .inl ⟨o, rfl⟩
    | err e => exact .inr (.inl ⟨e, rfl⟩)
    | panic =>
      obtain ⟨marks, names, c, more, rest, ha, hm, hn, hc⟩ :=
        (structAttrs_panic_iff lx _ _).mp ((generate_panic_iff lx s).mp h)
      exact .inr (.inr ⟨rfl, s, marks, _, rest, rfl, ha, hm, names, c, more, rfl, hn, hc⟩)

/-- **C95** (crate names, exactly): in that case the macro does panic. -/
theorem C95_bad_crate_panics (lx : Lex) (s : ItemStruct) (marks : List Mark) (a : Attribute)
    (rest : List Attribute) (ha : s.attrs = marks.map Mark.written ++ a :: rest) (hm : ∀ m ∈ marks, m.Ok lx)
    (hb : BadCrate lx a) : deriveMacro lx (.struct s) = .panic := by
  obtain ⟨names, c, more, rfl, hn, hc⟩ := hb
  exact (generate_panic_iff lx s).mpr
    ((structAttrs_panic_iff lx _ _).mpr ⟨marks, names, c, more, rest, ha, hm, hn, hc⟩)

/-- **C95** (implemented): such a struct (with different names for its fields, as every struct has) gets an
implementation exactly if it fits its surroundings: no generics, the crate known, the trait in scope, types with
the needed implementations, no field called `data`. -/
theorem C95_implemented (lx : Lex) (W : World V) (s : ItemStruct)
    (hn : ∀ fields, s.fields = .named fields → (fields.map Field.name).Nodup) :
    (∃ c, derived lx W s = some c) ↔
      ∃ crateName fields, WellWritten lx s crateName fields ∧ Fits W s crateName fields := by
  unfold derived
  constructor
  · rintro ⟨c, h⟩
    cases hg : Derive.generate lx s with
    | err e => rw [hg] at h; simp at h
    | panic => rw [hg] at h; simp at h
    | ok o =>
      rw [hg] at h
      obtain ⟨crateName, fields, hw, rfl⟩ := (generate_ok_iff lx s o).mp hg
      rw [hw.2.1] at h
      simp only at h
      split at h
      · next hc => exact ⟨crateName, fields, hw, (compiles_iff W s crateName fields (hn _ hw.2.1)).mp hc⟩
      · simp at h
  · rintro ⟨crateName, fields, hw, hf⟩
    have hg := (generate_ok_iff lx s _).mpr ⟨crateName, fields, hw, rfl⟩
    rw [hg, hw.2.1]
    simp only
    rw [if_pos ((compiles_iff W s crateName fields (hn _ hw.2.1)).mpr hf)]
    exact ⟨_, rfl⟩

/-- The implementation of a struct. -/
theorem derived_eq {lx : Lex} {W : World V} {s : ItemStruct} {c : CodecP (Record V)}
    (h : derived lx W s = some c) : ∃ crateName fields, s.fields = .named fields ∧
      c = (outputOf s crateName fields).codec W fields ∧
      compiles W s fields (outputOf s crateName fields) = true := by
  unfold derived at h
  cases hg : Derive.generate lx s with
  | err e => rw [hg] at h; simp at h
  | panic => rw [hg] at h; simp at h
  | ok o =>
    rw [hg] at h
    obtain ⟨crateName, fields, hw, rfl⟩ := (generate_ok_iff lx s o).mp hg
    rw [hw.2.1] at h
    simp only at h
    split at h
    · next hc => cases h; exact ⟨crateName, fields, hw.2.1, rfl, hc⟩
    · simp at h

/-! ## What is written -/

/-- The values of the fields determine the parts, if all can be written. -/
theorem parts_or_panic (W : World V) : ∀ (fields : List Field) (r : Record V),
    r.map Prod.fst = fields.map Field.name → (∀ f ∈ fields, Stored f → ∃ c, W.code f.ty = some c) →
    (∃ ps, Parts W fields r ps) ∨
      ∃ f v c, (f, (f.name, v)) ∈ fields.zip r ∧ Stored f ∧ W.code f.ty = some c ∧ c.ser v = none := by
  intro fields
  induction fields with
  | nil =>
    intro r hr _
    have : r = [] := by cases r <;> simp_all
    subst this
    exact .inl ⟨_, .nil⟩
  | cons f fs ih =>
    intro r hr hst
    obtain ⟨⟨x, v⟩, r, rfl⟩ : ∃ p r', r = p :: r' := by cases r <;> simp_all
    simp only [List.map_cons, List.cons.injEq] at hr
    obtain ⟨rfl, hr⟩ := hr
    rcases ih r hr (fun g hg => hst g (by simp [hg])) with ⟨ps, hp⟩ | ⟨g, w, c, hg, h⟩
    · by_cases hs : Stored f
      · obtain ⟨c, hc⟩ := hst f (by simp) hs
        cases hb : c.ser v with
        | none => exact .inr ⟨f, v, c, by simp, hs, hc, hb⟩
        | some b => exact .inl ⟨_, .stored hs hc hb hp⟩
      · exact .inl ⟨_, .skipped hs hp⟩
    · exact .inr ⟨g, w, c, by simp [hg], h⟩

theorem parts_unique (W : World V) {fields : List Field} {r : Record V} {ps qs : List ByteArray}
    (h : Parts W fields r ps) : Parts W fields r qs → ps = qs := by
  induction h generalizing qs with
  | nil => intro h; cases h; rfl
  | stored hs hc hb _ ih =>
    intro h
    cases h with
    | stored _ hc' hb' h' =>
      rw [hc] at hc'; cases hc'
      rw [hb] at hb'; cases hb'
      rw [ih h']
    | skipped h' _ => exact absurd hs h'
  | skipped hs _ ih =>
    intro h
    cases h with
    | stored h' _ _ _ => exact absurd h' hs
    | skipped _ h' => exact ih h'

/-- **C95** (writing): the serialisation of a struct is that of its stored fields in the order of their
declaration, one part for each, named after it; nothing else is written. It panics only if the serialisation of a
stored field does. -/
theorem C95_written (lx : Lex) (W : World V) (s : ItemStruct) (c : CodecP (Record V)) (fields : List Field)
    (h : derived lx W s = some c) (hf : s.fields = .named fields) (hn : (fields.map Field.name).Nodup)
    (v : Record V) (hv : v.map Prod.fst = fields.map Field.name) :
    (∃ parts b, Parts W fields v parts ∧ c.ser v = some b ∧ b.data = (parts.map ByteArray.data).flatten ∧
      (parts ≠ [] → pieces b = piecesOf parts)) ∨
    (c.ser v = none ∧ ∃ f x cf, (f, (f.name, x)) ∈ fields.zip v ∧ Stored f ∧ W.code f.ty = some cf ∧
      cf.ser x = none) := by
  obtain ⟨crateName, fields', hf', rfl, hc⟩ := derived_eq h
  rw [hf] at hf'; cases hf'
  have hfit := (compiles_iff W s crateName fields hn).mp hc
  have hk : Knows fields fields := fun f hf => tyOf_mem hn hf
  have hiff := runPushes_iff W fields fields v v hk hn hv (fun _ _ => rfl)
  rcases parts_or_panic W fields v hv hfit.stored with ⟨ps, hp⟩ | hpanic
  · refine .inl ⟨ps, ByteArray.fromParts ps, hp, ?_, ByteArray.data_fromParts ps, C72_from_parts ps⟩
    simp only [Output.codec, outputOf]
    rw [(hiff ps).mpr hp]
    rfl
  · by_cases hex : ∃ ps, Parts W fields v ps
    · obtain ⟨ps, hp⟩ := hex
      refine .inl ⟨ps, ByteArray.fromParts ps, hp, ?_, ByteArray.data_fromParts ps, C72_from_parts ps⟩
      simp only [Output.codec, outputOf]
      rw [(hiff ps).mpr hp]
      rfl
    · refine .inr ⟨?_, hpanic⟩
      simp only [Output.codec, outputOf]
      cases hr : runPushes W fields v (callsOf fields).pushes with
      | none => rfl
      | some ps => exact absurd ⟨ps, (hiff ps).mp hr⟩ hex

/-! ## What is read -/

/-- **C95** (reading): reading a struct reads its stored fields in the order of their declaration, each from what
the one before left, and gives the other fields their defaults. -/
theorem C95_read (lx : Lex) (W : World V) (s : ItemStruct) (c : CodecP (Record V)) (fields : List Field)
    (h : derived lx W s = some c) (hf : s.fields = .named fields) (hn : (fields.map Field.name).Nodup)
    (data : ByteArray) (v : Record V) (rest : ByteArray) :
    c.deserRest data = .ok (v, rest) ↔ Reads W fields data v rest := by
  obtain ⟨crateName, fields', hf', rfl, hc⟩ := derived_eq h
  rw [hf] at hf'; cases hf'
  rw [codec_deserRest W s crateName fields hn, readAll_ok_iff]

/-- **C95** (errors): reading fails with an error exactly if a stored field fails with it after all fields before
it have been read, and likewise for panics. -/
theorem C95_read_errors (lx : Lex) (W : World V) (s : ItemStruct) (c : CodecP (Record V)) (fields : List Field)
    (h : derived lx W s = some c) (hf : s.fields = .named fields) (hn : (fields.map Field.name).Nodup)
    (data : ByteArray) (e : Error) :
    (c.deserRest data = .err e ↔ ∃ before f after cf r mid, fields = before ++ f :: after ∧ Stored f ∧
      W.code f.ty = some cf ∧ Reads W before data r mid ∧ cf.deserRest mid = .err e) ∧
    (c.deserRest data = .panic ↔ ∃ before f after cf r mid, fields = before ++ f :: after ∧ Stored f ∧
      W.code f.ty = some cf ∧ Reads W before data r mid ∧ cf.deserRest mid = .panic) := by
  obtain ⟨crateName, fields', hf', rfl, hc⟩ := derived_eq h
  rw [hf] at hf'; cases hf'
  have hfit := (compiles_iff W s crateName fields hn).mp hc
  rw [codec_deserRest W s crateName fields hn]
  have hb : ∀ (cf : CodecP V) (mid : ByteArray),
      ((cf.deserRest mid).bind (fun _ => .ok (([] : Record V), mid)) = .err e ↔ cf.deserRest mid = .err e) ∧
      ((cf.deserRest mid).bind (fun _ => .ok (([] : Record V), mid)) = .panic ↔ cf.deserRest mid = .panic) := by
    intro cf mid
    cases cf.deserRest mid <;> simp [Res.bind]
  constructor
  · rw [readAll_stop W (.err e) (.inr ⟨e, rfl⟩) fields data hfit.stored hfit.skipped]
    simp only [(hb _ _).1]
  · rw [readAll_stop W .panic (.inl rfl) fields data hfit.stored hfit.skipped]
    simp only [(hb _ _).2]

/-! ## Round trip -/

theorem readBack_aux (W : World V) (R : V → V → Prop) : ∀ (fields : List Field) (v : Record V)
    (parts : List ByteArray), Parts W fields v parts →
    (∀ f ∈ fields, ¬ Stored f → ∃ d, W.dflt f.ty = some d) →
    (∀ f x cf, (f, (f.name, x)) ∈ fields.zip v → Stored f → W.code f.ty = some cf → ReadsBack cf R x) →
    ∀ (data : ByteArray) (rest : Bytes), data.data = (parts.map ByteArray.data).flatten ++ rest →
    ∃ w r, Reads W fields data w r ∧ Kept W R fields v w ∧ r.data = rest := by
  intro fields v parts h
  induction h with
  | nil => intro _ _ data rest hd; exact ⟨[], data, .nil, .nil, by simpa using hd⟩
  | @stored f fs x r c b ps hs hc hb _ ih =>
    intro hsk hrt data rest hd
    simp only [List.map_cons, List.flatten_cons, List.append_assoc] at hd
    have hname : (b.named f.name).data = b.data := by cases b; rfl
    rw [hname] at hd
    obtain ⟨w, mid, h1, h2, h3⟩ := hrt f x c (by simp) hs hc b hb data _ hd
    obtain ⟨q, r', h4, h5, h6⟩ := ih (fun g hg => hsk g (by simp [hg]))
      (fun g y cg hg => hrt g y cg (by simp [hg])) mid rest h3
    exact ⟨(f.name, w) :: q, r', .stored hs hc h1 h4, .stored hs h2 h5, h6⟩
  | @skipped f fs x r ps hs _ ih =>
    intro hsk hrt data rest hd
    obtain ⟨d, hdf⟩ := hsk f (by simp) hs
    obtain ⟨q, r', h4, h5, h6⟩ := ih (fun g hg => hsk g (by simp [hg]))
      (fun g y cg hg => hrt g y cg (by simp [hg])) data rest hd
    exact ⟨(f.name, d) :: q, r', .skipped hs hdf h4, .skipped hs hdf h5, h6⟩

/-- **C95** (round trip): if the stored fields of a value are read back as they were written, so is the value:
with the same stored fields, the defaults in the others, and what follows is left. -/
theorem C95_round_trip (lx : Lex) (W : World V) (s : ItemStruct) (c : CodecP (Record V)) (fields : List Field)
    (h : derived lx W s = some c) (hf : s.fields = .named fields) (hn : (fields.map Field.name).Nodup)
    (R : V → V → Prop) (v : Record V) (hv : v.map Prod.fst = fields.map Field.name)
    (hr : ∀ f x cf, (f, (f.name, x)) ∈ fields.zip v → Stored f → W.code f.ty = some cf → ReadsBack cf R x) :
    ReadsBack c (Kept W R fields) v := by
  intro b hb data rest hd
  have hfit : ∃ crateName, Fits W s crateName fields := by
    obtain ⟨crateName, fields', hf', _, hc⟩ := derived_eq h
    rw [hf] at hf'; cases hf'
    exact ⟨crateName, (compiles_iff W s crateName fields hn).mp hc⟩
  obtain ⟨crateName, hfit⟩ := hfit
  rcases C95_written lx W s c fields h hf hn v hv with ⟨parts, b', hp, hb', hbd, _⟩ | ⟨hnone, _⟩
  · rw [hb] at hb'; cases hb'
    rw [hbd] at hd
    obtain ⟨w, r, h1, h2, h3⟩ := readBack_aux W R fields v parts hp hfit.skipped hr data rest hd
    exact ⟨w, r, (C95_read lx W s c fields h hf hn data w r).mpr h1, h2, h3⟩
  · rw [hb] at hnone; cases hnone

theorem reads_parts (W : World V) : ∀ (fields : List Field) (data : ByteArray) (v : Record V) (rest : ByteArray),
    Reads W fields data v rest → (∀ f cf, f ∈ fields → Stored f → W.code f.ty = some cf → Canonical cf) →
    ∃ parts, Parts W fields v parts ∧ data.data = (parts.map ByteArray.data).flatten ++ rest.data := by
  intro fields data v rest h
  induction h with
  | nil => intro _; exact ⟨[], .nil, by simp⟩
  | @stored f fs data c x mid r rest hs hc hd _ ih =>
    intro hcan
    obtain ⟨ps, h1, h2⟩ := ih (fun g cg hg => hcan g cg (by simp [hg]))
    obtain ⟨b, hb, hbd⟩ := hcan f c (by simp) hs hc data x mid hd
    have hname : (b.named f.name).data = b.data := by cases b; rfl
    exact ⟨_, .stored hs hc hb h1, by simp [hname, hbd, h2]⟩
  | @skipped f fs data d r rest hs hd _ ih =>
    intro hcan
    obtain ⟨ps, h1, h2⟩ := ih (fun g cg hg => hcan g cg (by simp [hg]))
    exact ⟨_, .skipped hs h1, h2⟩

/-- **C95** (only what is written): if the types of the stored fields read only what they write, so does the
struct. -/
theorem C95_canonical (lx : Lex) (W : World V) (s : ItemStruct) (c : CodecP (Record V)) (fields : List Field)
    (h : derived lx W s = some c) (hf : s.fields = .named fields) (hn : (fields.map Field.name).Nodup)
    (hcan : ∀ f cf, f ∈ fields → Stored f → W.code f.ty = some cf → Canonical cf) : Canonical c := by
  intro data v rest hd
  have hr := (C95_read lx W s c fields h hf hn data v rest).mp hd
  obtain ⟨parts, hp, hdata⟩ := reads_parts W fields data v rest hr hcan
  have hv : v.map Prod.fst = fields.map Field.name := readAll_names W fields data v rest
    ((readAll_ok_iff W fields data v rest).mpr hr)
  obtain ⟨crateName, fields', hf', rfl, hc⟩ := derived_eq h
  rw [hf] at hf'; cases hf'
  have hk : Knows fields fields := fun f hf => tyOf_mem hn hf
  refine ⟨ByteArray.fromParts parts, ?_, by rw [ByteArray.data_fromParts, hdata]⟩
  simp only [Output.codec, outputOf]
  rw [(runPushes_iff W fields fields v v hk hn hv (fun _ _ => rfl) parts).mpr hp]
  rfl

/-! ## Structs that cannot be used or are not what they seem -/

/-- **C95** fails for documented fields: a struct with `/// …` (or any attribute `name` or `name = …`) on a field
is rejected. -/
theorem C95_documented_field_fails (lx : Lex) (W : World V) (s : ItemStruct) (fields : List Field) (f : Field)
    (hf : s.fields = .named fields) (hm : f ∈ fields) (text : Lit) (p : Path)
    (ha : ⟨p, .value text⟩ ∈ f.attrs ∨ ⟨p, .none⟩ ∈ f.attrs) :
    (∀ o, Derive.generate lx s ≠ .ok o) ∧ derived lx W s = none := by
  have hg : ∀ o, Derive.generate lx s ≠ .ok o := by
    intro o h
    obtain ⟨c, fields', hw, _⟩ := (generate_ok_iff lx s o).mp h
    have hf' := hw.2.1
    rw [hf] at hf'; cases hf'
    obtain ⟨paths, hp⟩ := hw.2.2 f hm
    rw [hp] at ha
    rcases ha with ha | ha <;>
    · obtain ⟨q, _, hq⟩ := List.mem_map.mp ha
      simp [skipMark] at hq
  refine ⟨hg, ?_⟩
  unfold derived
  cases h : Derive.generate lx s with
  | ok o => exact absurd h (hg o)
  | err e => rfl
  | panic => rfl

/-- **C95** fails for a field called `data`: the struct has no implementation, although the macro accepts it. -/
theorem C95_data_field_fails (lx : Lex) (W : World V) (s : ItemStruct) (fields : List Field) (f : Field)
    (hf : s.fields = .named fields) (hm : f ∈ fields) (hname : f.name = "data") :
    derived lx W s = none := by
  cases h : derived lx W s with
  | none => rfl
  | some c =>
    obtain ⟨crateName, fields', hf', rfl, hc⟩ := derived_eq h
    rw [hf] at hf'; cases hf'
    exfalso
    simp only [compiles, outputOf, Bool.and_eq_true, Bool.not_eq_true'] at hc
    have := hc.2
    rw [← Bool.not_eq_true, List.contains_iff_mem] at this
    exact this (List.mem_map.mpr ⟨f, hm, hname⟩)

/-- **C95** fails for structs with generics: they have no implementation. -/
theorem C95_generic_fails (lx : Lex) (W : World V) (s : ItemStruct) (hg : s.generic = true) :
    derived lx W s = none := by
  cases h : derived lx W s with
  | none => rfl
  | some c =>
    obtain ⟨crateName, fields, _, _, hc⟩ := derived_eq h
    simp [compiles, hg] at hc

/-- **C95** fails for a crate given by a path (or any text that is not an identifier): the macro panics. -/
theorem C95_crate_path_panics (lx : Lex) (s : ItemStruct) (c : String) (more : List NestedMeta)
    (rest : List Attribute) (hc : lx.isIdent c = false)
    (ha : s.attrs = ⟨⟨"bitcoin_code", []⟩, .list (.nested (.nameValue ⟨"crate", []⟩ (.str c)) :: more)⟩ :: rest) :
    Derive.generate lx s = .panic := by
  simp [Derive.generate, ha, structAttrs, Attribute.parseMeta, crateArgs, crateArg, singlePath, parseStringLit, hc,
    Res.bind]

/-- **C95** (`skip` of another macro) fails: a field marked `#[serde(skip)]`, or `#[anything(skip)]`, and not
`#[bitcoin_code(skip)]`, is left out as well: whatever its value, the struct is written as if it was not there, and it
is read with its default. -/
theorem C95_other_skip_fails (lx : Lex) (W : World V) (s : ItemStruct) (c : CodecP (Record V))
    (before after : List Field) (f : Field) (path : Path) (h : derived lx W s = some c)
    (hf : s.fields = .named (before ++ f :: after)) (hn : ((before ++ f :: after).map Field.name).Nodup)
    (hs : f.attrs = [skipMark path]) :
    (∀ (r q : Record V) (x y : V), r.map Prod.fst = before.map Field.name → q.map Prod.fst = after.map Field.name →
      c.ser (r ++ (f.name, x) :: q) = c.ser (r ++ (f.name, y) :: q)) ∧
    (∀ data v rest, c.deserRest data = .ok (v, rest) → ∃ d, W.dflt f.ty = some d ∧ (f.name, d) ∈ v) := by
  have hns : ¬ Stored f := by simp [Stored, hs]
  constructor
  · intro r q x y hr hq
    have swap : ∀ (before : List Field) (r : Record V) (x y : V) ps, r.map Prod.fst = before.map Field.name →
        Parts W (before ++ f :: after) (r ++ (f.name, x) :: q) ps →
        Parts W (before ++ f :: after) (r ++ (f.name, y) :: q) ps := by
      intro before
      induction before with
      | nil =>
        intro r x y ps hr hp
        have : r = [] := by cases r <;> simp_all
        subst this
        cases hp with
        | stored h' _ _ _ => exact absurd h' hns
        | skipped _ h' => exact .skipped hns h'
      | cons g gs ih =>
        intro r x y ps hr hp
        obtain ⟨⟨z, w⟩, r, rfl⟩ : ∃ p r', r = p :: r' := by cases r <;> simp_all
        simp only [List.map_cons, List.cons.injEq] at hr
        obtain ⟨rfl, hr⟩ := hr
        cases hp with
        | stored h1 h2 h3 h4 => exact .stored h1 h2 h3 (ih r x y _ hr h4)
        | skipped h1 h4 => exact .skipped h1 (ih r x y _ hr h4)
    have names : ∀ x, (r ++ (f.name, x) :: q).map Prod.fst = (before ++ f :: after).map Field.name := by
      intro x; simp [hr, hq]
    obtain ⟨crateName, fields', hf', rfl, hc⟩ := derived_eq h
    rw [hf] at hf'; cases hf'
    have hk : Knows (before ++ f :: after) (before ++ f :: after) := fun f hf => tyOf_mem hn hf
    have hiff := fun v hv => runPushes_iff W (before ++ f :: after) (before ++ f :: after) v v hk hn hv (fun _ _ => rfl)
    have key : ∀ x y ps, runPushes W (before ++ f :: after) (r ++ (f.name, x) :: q) (callsOf (before ++ f :: after)).pushes = some ps →
        runPushes W (before ++ f :: after) (r ++ (f.name, y) :: q) (callsOf (before ++ f :: after)).pushes = some ps := by
      intro x y ps h
      exact (hiff _ (names y) ps).mpr (swap before r x y ps hr ((hiff _ (names x) ps).mp h))
    simp only [Output.codec, outputOf]
    cases hx : runPushes W (before ++ f :: after) (r ++ (f.name, x) :: q) (callsOf (before ++ f :: after)).pushes with
    | some ps => rw [key x y ps hx]
    | none =>
      cases hy : runPushes W (before ++ f :: after) (r ++ (f.name, y) :: q) (callsOf (before ++ f :: after)).pushes with
      | none => rfl
      | some ps => rw [key y x ps hy] at hx; cases hx
  · intro data v rest hd
    have hr := (C95_read lx W s c _ h hf hn data v rest).mp hd
    clear hd
    have go : ∀ (before : List Field) data v, Reads W (before ++ f :: after) data v rest →
        ∃ d, W.dflt f.ty = some d ∧ (f.name, d) ∈ v := by
      intro before
      induction before with
      | nil =>
        intro data v hr
        cases hr with
        | stored h' _ _ _ => exact absurd h' hns
        | skipped _ h' _ => exact ⟨_, h', by simp⟩
      | cons g gs ih =>
        intro data v hr
        cases hr with
        | stored _ _ _ h' =>
          obtain ⟨d, h1, h2⟩ := ih _ _ h'
          exact ⟨d, h1, by simp [h2]⟩
        | skipped _ _ h' =>
          obtain ⟨d, h1, h2⟩ := ih _ _ h'
          exact ⟨d, h1, by simp [h2]⟩
    exact go before data v hr

end BCash
