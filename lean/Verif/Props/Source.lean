import Verif.Proofs.Source
import Verif.Props.MacroGen
import Verif.Props.Accept

/-! # From the written function to the generated script -/

namespace BCash
open Spec Spec.Macro Spec.Source Spec.Named Macro SourceProofs

/-! ## C86: declarations are read as written -/

/-- **C86** (arguments): the arguments of the attribute are accepted exactly if they are written as the
name of the input struct followed by settings, and then the variants are those written, in order, with
the conditions written, and the crate name and the debug switch are those given last. -/
theorem C86_arguments (lx : Lex) (hl : LexOk lx) (args : List NestedMeta) (structName : String)
    (s : Settings) :
    parseAttrs lx args = .ok (structName, s) ↔
      ∃ l : List Setting, args = writtenArgs structName l ∧ (∀ st ∈ l, st.Ok lx) ∧
        s = ⟨crateSetting l, variantSettings l, debugSetting l⟩ := by
  unfold parseAttrs
  constructor
  · intro h
    split at h
    · simp at h
    · split at h
      · simp at h
      · rename_i x hx
        rw [singlePath_some] at hx
        subst hx
        rw [Res.bind_eq_ok] at h
        obtain ⟨s', hs, h⟩ := h
        simp only [Res.ok.injEq, Prod.mk.injEq] at h
        obtain ⟨rfl, rfl⟩ := h
        obtain ⟨l, rfl, hok, rfl⟩ := (parseSettings_iff hl _ _ _).mp hs
        exact ⟨l, rfl, hok, foldl_apply l⟩
    · simp at h
  · rintro ⟨l, rfl, hok, rfl⟩
    simp only [writtenArgs, singlePath_name]
    rw [(parseSettings_iff hl _ _ _).mpr ⟨l, rfl, hok, rfl⟩, foldl_apply]
    rfl

/-- Reading characters as ASCII. -/
def exampleLex : Lex := ⟨Char.isAlphanum, Char.isWhitespace, fun s => s.toList.all Char.isAlphanum⟩

theorem exampleLex_ok : LexOk exampleLex := ⟨by decide, by decide, by decide, by decide⟩

/-- `#[script(Inputs, Claim = "claim&&!b||c", crate = "a", debug = false, crate = "b")]`. -/
def exampleArgs : List NestedMeta :=
  [.nested (.path ⟨"Inputs", []⟩), .nested (.nameValue ⟨"Claim", []⟩ (.str "claim&&!b||c")),
   .nested (.nameValue ⟨"crate", []⟩ (.str "a")), .nested (.nameValue ⟨"debug", []⟩ (.bool false)),
   .nested (.nameValue ⟨"crate", []⟩ (.str "b"))]

example : parseAttrs exampleLex exampleArgs = .ok ("Inputs",
    ⟨some "b", [("Claim", [[⟨"claim", true⟩, ⟨"b", false⟩], [⟨"c", true⟩]])], some false⟩) := by
  decide +kernel

theorem splitTwice_chars (x c : Char) (acc s : List Char) (h : ∃ p ∈ splitTwice x acc s, c ∈ p) : c ∈ acc ∨ c ∈ s := by
  induction acc, s using splitTwice.induct x with
  | case1 acc => simpa [splitTwice] using h
  | case2 acc y => simp [splitTwice] at h; rcases h with h | h <;> simp [h]
  | case3 acc y z rest hc ih =>
    rw [splitTwice, if_pos hc] at h
    obtain ⟨p, hp, hcp⟩ := h
    rcases List.mem_cons.mp hp with rfl | hp
    · exact .inl (by simpa using hcp)
    · rcases ih ⟨p, hp, hcp⟩ with h | h
      · cases h
      · exact .inr (by simp [h])
  | case4 acc y z rest hc ih =>
    rw [splitTwice, if_neg hc] at h
    rcases ih h with h | h
    · rcases List.mem_cons.mp h with rfl | h
      · exact .inr (by simp)
      · exact .inl h
    · exact .inr (List.mem_cons_of_mem _ h)

theorem collect_no_panic {α β ε : Type} {f : α → Res ε β} {l : List α} (h : ∀ a ∈ l, f a ≠ .panic) :
    collect f l ≠ .panic := by
  induction l with
  | nil => simp [collect]
  | cons a l ih =>
    have ih := ih fun b hb => h b (by simp [hb])
    have h1 := h a (by simp)
    unfold collect
    cases hf : f a with
    | panic => exact absurd hf h1
    | err e => simp [Res.bind]
    | ok b =>
      simp only [Res.bind]
      cases hc : collect f l with
      | panic => exact absurd hc ih
      | err e => simp
      | ok bs => simp

theorem parsePredicate_no_panic (alnum : Char → Bool) (s : List Char) (h : ∀ c ∈ s, c.toNat < 128) :
    parsePredicate alnum s ≠ .panic := by
  unfold parsePredicate
  refine collect_no_panic fun conj hconj => collect_no_panic fun atom hatom => ?_
  have hc : ∀ c ∈ atom, c.toNat < 128 := by
    intro c hc
    rcases splitTwice_chars '&' c [] conj ⟨atom, hatom, hc⟩ with h' | h'
    · cases h'
    · rcases splitTwice_chars '|' c [] s ⟨conj, hconj, h'⟩ with h'' | h''
      · cases h''
      · exact h c h''
  cases atom with
  | nil => simp [parseAtom]
  | cons c cs =>
    have h1 := hc c (by simp)
    unfold parseAtom
    dsimp only
    rw [if_neg (by omega)]
    (repeat' split) <;> simp

/-- **C86** (errors; partial, missing: the cases of `C86_arguments_panic_fails`): arguments that are not accepted are
reported with an error, unless a crate name is not an identifier or a condition has a letter beyond ASCII. -/
theorem C86_arguments_errors_partial (lx : Lex) (args : List NestedMeta)
    (hcrate : ∀ c, .nested (.nameValue (name "crate") (.str c)) ∈ args → lx.isIdent c = true)
    (hascii : ∀ v s, .nested (.nameValue (name v) (.str s)) ∈ args → v ≠ "crate" → ∀ c ∈ s.toList, c.toNat < 128) :
    (∃ r, parseAttrs lx args = .ok r) ∨ ∃ e, parseAttrs lx args = .err e := by
  suffices h : parseAttrs lx args ≠ .panic by
    cases hp : parseAttrs lx args with
    | ok r => exact .inl ⟨r, rfl⟩
    | err e => exact .inr ⟨e, rfl⟩
    | panic => exact absurd hp h
  have step : ∀ m ∈ args, ∀ s, parseSetting lx s m ≠ .panic := by
    intro m hm s
    unfold parseSetting
    split
    · next path lit =>
      cases hpath : singlePath path with
      | none => simp
      | some nm =>
        have hname : path = name nm := by
          obtain ⟨f, more⟩ := path
          unfold singlePath at hpath
          cases more with
          | nil => cases hpath; rfl
          | cons => cases hpath
        subst hname
        simp only
        split
        · next hn =>
          subst hn
          split
          · simp
          · next c hc =>
            have : lit = .str c := by
              revert hc
              cases lit <;> simp [parseStringLit]
            subst this
            rw [if_pos (hcrate c hm)]
            simp
        · next hn =>
          split
          · split <;> simp
          · unfold parsePredicateLit
            split
            · simp [Res.bind]
            · next str hstr =>
              have : lit = .str str := by
                revert hstr
                cases lit <;> simp [parseStringLit]
              subst this
              have := parsePredicate_no_panic lx.alnum str.toList (hascii nm str hm hn)
              revert this
              cases parsePredicate lx.alnum str.toList <;> simp [Res.bind]
    · simp
  have loop : ∀ (l : List NestedMeta), (∀ m ∈ l, m ∈ args) → ∀ s, parseSettings lx l s ≠ .panic := by
    intro l
    induction l with
    | nil => intro _ s; simp [parseSettings]
    | cons a l ih =>
      intro hl s
      have h1 := step a (hl a (by simp)) s
      unfold parseSettings
      cases hs : parseSetting lx s a with
      | panic => exact absurd hs h1
      | err e => simp [Res.bind]
      | ok t => exact ih (fun m hm => hl m (by simp [hm])) t
  unfold parseAttrs
  split
  · simp
  · split
    · simp
    · next rest _ _ _ =>
      have h2 := loop rest (fun m hm => List.mem_cons_of_mem _ hm) ⟨none, [], none⟩
      cases hs : parseSettings lx rest ⟨none, [], none⟩ with
      | panic => exact absurd hs h2
      | err e => simp [Res.bind]
      | ok t => simp [Res.bind]
  · simp

example : ∃ e, parseAttrs exampleLex [.nested (.path (name "I")), .nested (.nameValue (name "V") (.bool true))] =
    .err e := by
  rcases C86_arguments_errors_partial exampleLex
    [.nested (.path (name "I")), .nested (.nameValue (name "V") (.bool true))] (by simp) (by simp) with h | h
  · obtain ⟨r, hr⟩ := h
    have : parseAttrs exampleLex [.nested (.path (name "I")), .nested (.nameValue (name "V") (.bool true))] =
      .err "Invalid predicate literal, must be string." := by decide +kernel
    rw [this] at hr
    cases hr
  · exact h

/-- A malformed crate name is not reported but panics; a variable with a non-ASCII first letter, too. -/
theorem C86_arguments_panic_fails :
    parseAttrs exampleLex [.nested (.path (name "I")), .nested (.nameValue (name "crate") (.str "a-b"))] =
      .panic ∧
    parseAttrs exampleLex [.nested (.path (name "I")), .nested (.nameValue (name "V") (.str "é"))] =
      .panic := by
  constructor <;> decide +kernel

/-- **C86** (parameters): the parameters are accepted exactly if the first one is typed, and every other
one is an identifier with a type and well-formed `variant` attributes; then they are the inputs, in order,
with their names, types, attributes and variants as written. -/
theorem C86_inputs (params : List FnArg) (inputs : List ScriptInput) (ty : String) :
    parseScriptInputs params = .ok (inputs, ty) ↔
      ∃ attrs pat rest, params = .typed attrs pat ty :: rest ∧ List.Forall₂ IsInput rest inputs := by
  cases params with
  | nil => simp [parseScriptInputs]
  | cons a rest =>
    cases a with
    | receiver => simp [parseScriptInputs]
    | typed attrs pat ty' =>
      simp only [parseScriptInputs, Res.bind_eq_ok, collectArgs_iff, Res.ok.injEq, Prod.mk.injEq,
        List.cons.injEq, FnArg.typed.injEq]
      constructor
      · rintro ⟨is, h, rfl, rfl⟩; exact ⟨attrs, pat, rest, ⟨⟨rfl, rfl, rfl⟩, rfl⟩, h⟩
      · rintro ⟨_, _, _, ⟨⟨rfl, rfl, rfl⟩, rfl⟩, h⟩; exact ⟨inputs, h, rfl, rfl⟩

/-- `params: P, #[variant(Claim)] #[foo] secret: ByteArray, sig: ByteArray`. -/
def exampleParams : List FnArg :=
  [.typed [] (.ident "params" true) "P",
   .typed [⟨⟨"variant", []⟩, .list [.nested (.path ⟨"Claim", []⟩)]⟩, ⟨⟨"foo", []⟩, .none⟩]
     (.ident "secret" true) "ByteArray",
   .typed [] (.ident "sig" true) "ByteArray"]

example : parseScriptInputs exampleParams =
    .ok ([⟨"secret", "ByteArray", some ["Claim"], [⟨⟨"foo", []⟩, .none⟩]⟩,
      ⟨"sig", "ByteArray", none, []⟩], "P") := rfl

/-- **C86** (parameters) in words of variants: with at most one `variant` attribute, an input belongs to
exactly the variants the attribute lists, and to all of them without an attribute. -/
theorem C86_variants_partial (before after : List Mark) (vs : List String)
    (hb : ∀ m ∈ before, ∃ a, m = .other a) (ha : ∀ m ∈ after, ∃ a, m = .other a) :
    listed (before ++ .variants vs :: after) = some vs ∧ listed (before ++ after) = none := by
  have hnone : ∀ l : List Mark, (∀ m ∈ l, ∃ a, m = .other a) → l.filterMap markList = [] := by
    intro l hl
    rw [List.filterMap_eq_nil_iff]
    intro m hm
    obtain ⟨a, rfl⟩ := hl m hm
    rfl
  rw [listed_eq, listed_eq, List.filterMap_append, List.filterMap_append, hnone before hb,
    List.filterMap_cons, hnone after ha]
  exact ⟨rfl, rfl⟩

example : listed ([.other ⟨name "foo", .none⟩] ++ .variants ["A", "B"] :: []) = some ["A", "B"] := rfl

/-- **C86** fails for repeated attributes: `#[variant(A)] #[variant(B)]` is accepted and only means `B`;
and for `#[variant]`, which is accepted and means the variant called `variant`. -/
theorem C86_variants_fails :
    parseFnArg (.typed [⟨name "variant", .list [.nested (.path (name "A"))]⟩,
      ⟨name "variant", .list [.nested (.path (name "B"))]⟩] (.ident "x" true) "T") =
      .ok ⟨"x", "T", some ["B"], []⟩ ∧
    parseFnArg (.typed [⟨name "variant", .none⟩] (.ident "x" true) "T") =
      .ok ⟨"x", "T", some ["variant"], []⟩ := ⟨rfl, rfl⟩

/-- **C86** (documentation): after the heading of the struct, the lines before the first heading of a
variant document the struct, and each variant is documented by the lines of its (last) section. Lines
before the heading of the struct document neither. -/
theorem C86_docs (lx : Lex) (hl : LexOk lx) (structName : String) (variants : List String)
    (hs : Word lx structName) (hv : ∀ v ∈ variants, Word lx v) (attrs : List Attribute) (t : DocText)
    (ht : t.Ok lx structName variants) (ha : docLines attrs = t.lines) :
    ∃ docs, parseDocs lx attrs structName variants = .ok docs ∧ docs.inputStruct = t.intro ∧
      ∀ v, docs.variants.lookup v = t.about v := by
  have h : NamesOk lx structName variants := ⟨hl, hs, hv⟩
  obtain ⟨h1, h2, h3, h4⟩ := ht
  unfold parseDocs
  rw [docLines_eq, ha, DocText.lines, List.append_assoc, docLoop_append, docLoop_preamble h _ h1]
  simp only [Res.bind, List.cons_append]
  have h2' := (structHeading_iff h t.heading).mpr h2
  simp only [docLoop, docLine, h2', if_true, Res.bind]
  rw [docLoop_append, docLoop_intro h _ _ h3]
  simp only [Res.bind, List.nil_append]
  obtain ⟨vs, cur, hr, hlk⟩ := docLoop_sections h t.intro t.sections h4 [] none
  rw [hr]
  refine ⟨_, rfl, rfl, fun v => ?_⟩
  rw [hlk]
  simp [DocText.about]

/-- **C86** (documentation): without a heading of the struct nothing is documented. -/
theorem C86_docs_none (lx : Lex) (hl : LexOk lx) (structName : String) (variants : List String)
    (hs : Word lx structName) (hv : ∀ v ∈ variants, Word lx v) (attrs : List Attribute)
    (ht : ∀ l ∈ docLines attrs, ¬ Heading lx "# " structName l) :
    parseDocs lx attrs structName variants = .ok ⟨[], []⟩ := by
  unfold parseDocs
  rw [docLines_eq, docLoop_preamble ⟨hl, hs, hv⟩ _ ht]
  rfl

/-- **C86** (documentation): any documentation is accepted. -/
theorem C86_docs_total (lx : Lex) (structName : String) (variants : List String) (attrs : List Attribute) :
    ∃ docs, parseDocs lx attrs structName variants = .ok docs := by
  obtain ⟨s, hs⟩ := docLoop_total (lx := lx) (structName := structName) (variants := variants)
    (attrs.filterMap parseDocAttribute) ⟨⟨[], []⟩, false, none⟩ (by simp)
  exact ⟨s.docs, by rw [parseDocs, hs]; rfl⟩

def doc (s : String) : Attribute := ⟨⟨"doc", []⟩, .value (.str s)⟩

/-- A text with a preamble, a struct, and sections for two variants, one of them twice. -/
def exampleDoc : List Attribute :=
  [doc " A contract.", doc " # Inputs", doc " Inputs for it.", ⟨⟨"inline", []⟩, .none⟩, doc " ## Claim ",
   doc " old", doc " ## Refund", doc " after a while", doc " ## Claim", doc " with the secret", doc " ## x"]

example : parseDocs exampleLex exampleDoc "Inputs" ["Claim", "Refund"] =
    .ok ⟨[" Inputs for it."], [("Claim", [" with the secret", " ## x"]), ("Refund", [" after a while"])]⟩ := by
  decide +kernel

/-- A line that says something does not match a heading. -/
theorem not_heading (marker x line : String) (hx : Word exampleLex x) (more : List Char)
    (hm : marker.toList = '#' :: more) (h : isHeading exampleLex marker.toList x line = false) :
    ¬ Heading exampleLex marker x line := by
  rw [← isHeading_iff exampleLex_ok hx marker more hm, h]
  simp

theorem heading (marker x line : String) (hx : Word exampleLex x) (more : List Char)
    (hm : marker.toList = '#' :: more) (h : isHeading exampleLex marker.toList x line = true) :
    Heading exampleLex marker x line := (isHeading_iff exampleLex_ok hx marker more hm line).mp h

/-- The hypotheses of `C86_docs`. -/
example : ∃ t : DocText, t.Ok exampleLex "Inputs" ["Claim", "Refund"] ∧ docLines exampleDoc = t.lines ∧
    t.about "Claim" = some [" with the secret", " ## x"] := by
  have hI : Word exampleLex "Inputs" := ⟨by decide, by decide⟩
  have hC : Word exampleLex "Claim" := ⟨by decide, by decide⟩
  have hR : Word exampleLex "Refund" := ⟨by decide, by decide⟩
  have plain : ∀ l, isHeading exampleLex "# ".toList "Inputs" l = false →
      isHeading exampleLex "## ".toList "Claim" l = false →
      isHeading exampleLex "## ".toList "Refund" l = false →
      Plain exampleLex "Inputs" ["Claim", "Refund"] l := by
    intro l h1 h2 h3
    refine ⟨not_heading _ _ _ hI [' '] rfl h1, ?_⟩
    simp only [List.mem_cons, List.not_mem_nil, or_false]
    rintro v (rfl | rfl)
    · exact not_heading _ _ _ hC ['#', ' '] rfl h2
    · exact not_heading _ _ _ hR ['#', ' '] rfl h3
  refine ⟨⟨[" A contract."], " # Inputs", [" Inputs for it."],
    [("Claim", " ## Claim ", [" old"]), ("Refund", " ## Refund", [" after a while"]),
     ("Claim", " ## Claim", [" with the secret", " ## x"])]⟩, ⟨?_, ?_, ?_, ?_⟩, rfl, by decide +kernel⟩
  · simp only [List.mem_cons, List.not_mem_nil, or_false]
    rintro l rfl
    exact not_heading _ _ _ hI [' '] rfl (by decide +kernel)
  · exact heading _ _ _ hI [' '] rfl (by decide +kernel)
  · simp only [List.mem_cons, List.not_mem_nil, or_false]
    rintro l rfl
    exact plain _ (by decide +kernel) (by decide +kernel) (by decide +kernel)
  · simp only [List.mem_cons, List.not_mem_nil, or_false]
    rintro s (rfl | rfl | rfl)
    · refine ⟨.inl rfl, heading _ _ _ hC ['#', ' '] rfl (by decide +kernel), ?_⟩
      simp only [List.mem_cons, List.not_mem_nil, or_false]
      rintro l rfl
      exact plain _ (by decide +kernel) (by decide +kernel) (by decide +kernel)
    · refine ⟨.inr rfl, heading _ _ _ hR ['#', ' '] rfl (by decide +kernel), ?_⟩
      simp only [List.mem_cons, List.not_mem_nil, or_false]
      rintro l rfl
      exact plain _ (by decide +kernel) (by decide +kernel) (by decide +kernel)
    · refine ⟨.inl rfl, heading _ _ _ hC ['#', ' '] rfl (by decide +kernel), ?_⟩
      simp only [List.mem_cons, List.not_mem_nil, or_false]
      rintro l (rfl | rfl)
      · exact plain _ (by decide +kernel) (by decide +kernel) (by decide +kernel)
      · exact plain _ (by decide +kernel) (by decide +kernel) (by decide +kernel)

/-! ## C87: statements are read as written -/

/-- **C87**: a body is accepted exactly if its statements are written in one of the known forms and its
conditionals are balanced, and then it is read as what its statements say, block by block. -/
theorem C87_reads (body : Stmts) (p : Prog) :
    parseBody body = .ok p ↔ ∃ syn, Says body syn ∧ parseStmts syn = .ok p := by
  simp only [parseBody, parseStmts, bind_ok, stmts_iff]
  constructor
  · rintro ⟨q, ⟨syn, hs, hq⟩, hp⟩; exact ⟨syn, hs, q, hq, hp⟩
  · rintro ⟨syn, hs, q, hq, hp⟩; exact ⟨q, ⟨syn, hs, hq⟩, hp⟩

/-- **C87**: no body says two things. -/
theorem C87_unambiguous (body : Stmts) (s s' : Syn) (h : Says body s) (h' : Says body s') : s = s' := by
  have hop : ∀ {e outs o o'}, SaysOp e outs o → SaysOp e outs o' → o = o' := by
    intro e outs o o' h1 h2
    rw [← saysOp_iff] at h1 h2
    rw [h1] at h2
    exact Except.ok.inj h2
  have hnames : ∀ {p xs ys}, SaysNames p xs → SaysNames p ys → xs = ys := by
    intro p xs ys h1 h2
    rw [← saysNames_iff] at h1 h2
    rw [h1] at h2
    exact Except.ok.inj h2
  have hval : ∀ {e a b}, SaysValue e a → SaysValue e b → a = b := by
    intro e a b h1 h2
    cases h1 <;> cases h2 <;> rfl
  have hno : ∀ {e outs o a}, SaysOp e outs o → SaysValue e a → False := by
    intro e outs o a h1 h2
    cases h1 <;> cases h2
  have hnoo : ∀ {e outs o}, SaysOp e outs o → (∃ p, e = .path p) ∨ ∃ a c as, e = .call a c as := by
    intro e outs o h1
    cases h1
    · exact .inl ⟨_, rfl⟩
    · exact .inr ⟨_, _, _, rfl⟩
  induction h generalizing s' with
  | nil => cases h'; rfl
  | letOp hn ho _ ih =>
    cases h' with
    | letOp hn' ho' hr' =>
      rw [ih _ hr']
      obtain rfl := hnames hn hn'
      rw [hop ho ho']
    | letPush _ hv' _ => exact (hno ho hv').elim
  | letPush hn hv _ ih =>
    cases h' with
    | letOp _ ho' _ => exact (hno ho' hv).elim
    | letPush hn' hv' hr' =>
      rw [ih _ hr', hval hv hv']
      have := hnames hn hn'
      simp only [List.cons.injEq, and_true] at this
      rw [this]
  | op ho _ ih =>
    cases h' with
    | op ho' hr' => rw [ih _ hr', hop ho ho']
    | _ => rcases hnoo ho with ⟨_, h⟩ | ⟨_, _, _, h⟩ <;> cases h
  | push src _ ih =>
    cases h' with
    | op ho' _ => rcases hnoo ho' with ⟨_, h⟩ | ⟨_, _, _, h⟩ <;> cases h
    | push _ hr' => rw [ih _ hr']
  | block src _ _ ihb ih =>
    cases h' with
    | op ho' _ => rcases hnoo ho' with ⟨_, h⟩ | ⟨_, _, _, h⟩ <;> cases h
    | block _ hb' hr' => rw [ih _ hr', ihb _ hb']
  | forLoop src _ _ _ _ ih =>
    cases h' with
    | op ho' _ => rcases hnoo ho' with ⟨_, h⟩ | ⟨_, _, _, h⟩ <;> cases h
    | forLoop _ _ _ hr' => rw [ih _ hr']
  | ifThen src _ _ _ _ ih =>
    cases h' with
    | op ho' _ => rcases hnoo ho' with ⟨_, h⟩ | ⟨_, _, _, h⟩ <;> cases h
    | ifThen _ _ _ hr' => rw [ih _ hr']
  | ifElse src _ _ _ _ _ _ _ ih =>
    cases h' with
    | op ho' _ => rcases hnoo ho' with ⟨_, h⟩ | ⟨_, _, _, h⟩ <;> cases h
    | ifElse _ _ _ _ _ hr' => rw [ih _ hr']

/-- **C87** (with C46): a body whose conditionals have their branches written as blocks is read as the
tree of statements it says. -/
theorem C87_blocks (body : Stmts) (t : Prog) (hs : Says body (blocks t)) (hw : WellNested t) :
    parseBody body = .ok t :=
  (C87_reads body t).mpr ⟨_, hs, (C46_blocks t hw).1⟩

/-- **C87** (with C62): a body in which a Rust loop or a Rust `if` is a statement of the script is never
accepted. -/
theorem C87_no_rust (order : List (String × VState) → List (String × VState)) (d : Decl) (p : Prog)
    (h : .forLoop ∈ written p ∨ .rustIf ∈ written p) (e : List Emit) (g : Gen) :
    generate order d p ≠ .ok (e, g) := by
  intro hg
  obtain ⟨es, hes, _⟩ := C62_statements order d p e g hg
  have none : ∀ (l : Leaf) (ls : List Leaf) (es : List (List (Op Bytes))),
      List.Forall₂ Spec.Macro.Emits ls es → l ∈ ls → ∃ e, Spec.Macro.Emits l e := by
    intro l ls es h hl
    induction h with
    | nil => cases hl
    | cons h1 _ ih =>
      rcases List.mem_cons.mp hl with rfl | hl
      · exact ⟨_, h1⟩
      · exact ih hl
  rcases h with h | h
  · obtain ⟨_, he⟩ := none _ _ _ hes h; cases he
  · obtain ⟨_, he⟩ := none _ _ _ hes h; cases he

example : ∃ p, parseBody (.expr (.forLoop ⟨"for i in 0..3 { OP_DUP; }", .code .OP_0, 0⟩
      (.expr (.path (name "OP_DUP")) .nil)) .nil) = .ok p ∧ .forLoop ∈ written p :=
  ⟨.leaf .forLoop .nil, by decide +kernel, by decide⟩

/-- **C87**: a call or a path is never a value to be pushed. `let y = x;` reads as an operation called
`x`, which no script may contain (unless an opcode has that name). -/
theorem C87_variable_fails : ∃ p,
    parseBody (.letInit (.ident "y" true) (.path (name "x")) .nil) = .ok p ∧
    ∀ order d e g, generate order d p ≠ .ok (e, g) := by
  refine ⟨.leaf (.opcode ⟨.unknown "x", none, some ["y"]⟩) .nil, by decide +kernel, ?_⟩
  intro order d e g h
  obtain ⟨es, hes, _⟩ := C62_statements order d _ e g h
  cases hes with | cons h _ => cases h

/-! ## C88: from the source to the coin -/

/-- **C88** (completeness of the reading): whatever the macro accepts declares something and says
something, and the script generated is the one for that. -/
theorem C88_accepted_reads (lx : Lex) (hl : LexOk lx)
    (order : List (String × VState) → List (String × VState)) (args : List NestedMeta) (f : ItemFn)
    (s : Macro.Script) (e : List Emit) (g : Gen) (h : scriptMacro lx order args f = .ok (s, e, g)) :
    ∃ d syn p, Declares lx args f d ∧ Says f.body syn ∧ parseStmts syn = .ok p ∧
      generate order d p = .ok (e, g) := by
  simp only [scriptMacro, parseScript, Res.bind_eq_ok] at h
  obtain ⟨s', ⟨⟨structName, st⟩, hargs, h1⟩, ⟨e', g'⟩, hgen, h2⟩ := h
  split at h2
  · cases h2
  simp only [Res.ok.injEq, Prod.mk.injEq] at h2
  obtain ⟨rfl, rfl, rfl⟩ := h2
  dsimp only at h1
  split at h1
  · cases h1
  rename_i hret
  simp only [Res.bind_eq_ok] at h1
  obtain ⟨docs, _, ⟨inputs, ty⟩, hin, p, hb, h1⟩ := h1
  simp only [Res.ok.injEq] at h1
  subst h1
  have hb' : parseBody f.body = .ok p := by
    cases hq : parseBody f.body with
    | error m => rw [hq] at hb; cases hb
    | ok q => rw [hq] at hb; cases hb; rfl
  obtain ⟨l, rfl, hok, rfl⟩ := (C86_arguments lx hl _ _ _).mp hargs
  obtain ⟨attrs, pat, rest, hfi, hall⟩ := (C86_inputs _ _ _).mp hin
  obtain ⟨syn, hs, hp⟩ := (C87_reads _ _).mp hb'
  refine ⟨_, syn, p, ⟨⟨l, rfl, hok, rfl⟩, by simpa using hret, attrs, pat, ty, rest, inputs, hfi, hall, rfl⟩,
    hs, hp, hgen⟩

/-- **C88**: a function written so that it declares `d` and says the statements of `t`, with branches as
blocks, is accepted exactly if the macro generates a script for them (and the function has no const
parameter), and then that script is the one generated. -/
theorem C88_generates (lx : Lex) (hl : LexOk lx)
    (order : List (String × VState) → List (String × VState)) (args : List NestedMeta) (f : ItemFn)
    (d : Decl) (t : Prog) (hd : Declares lx args f d) (hs : Says f.body (blocks t)) (hw : WellNested t)
    (e : List Emit) (g : Gen) :
    (∃ s, scriptMacro lx order args f = .ok (s, e, g)) ↔
      generate order d t = .ok (e, g) ∧ f.constGeneric = false := by
  obtain ⟨⟨l, hargs, hok, hvar⟩, hret, attrs, pat, ty, params, inputs, hfi, hall, hin⟩ := hd
  have h1 := (C86_arguments lx hl args d.inputStruct _).mpr ⟨l, hargs, hok, rfl⟩
  have h2 := (C86_inputs f.inputs inputs ty).mpr ⟨attrs, pat, params, hfi, hall⟩
  obtain ⟨docs, h3⟩ := C86_docs_total lx d.inputStruct ((variantSettings l).map Prod.fst) f.attrs
  have h4 := C87_blocks f.body t hs hw
  have hp : parseScript lx args f = .ok ⟨d.inputStruct, crateSetting l, variantSettings l, ty, inputs, t,
      docs, (debugSetting l).getD true⟩ := by
    simp only [parseScript, h1, Res.bind, hret, h3, h2, h4, lift]
    rfl
  have hdecl : Script.decl ⟨d.inputStruct, crateSetting l, variantSettings l, ty, inputs, t, docs,
      (debugSetting l).getD true⟩ = d := by
    simp only [Script.decl]
    rw [← hvar, ← hin]
  simp only [scriptMacro, hp, Res.bind, hdecl]
  cases hg : generate order d t with
  | ok r =>
    cases hc : f.constGeneric <;> simp
  | err m => simp
  | panic => simp

/-- **C88** (partial: under the restrictions of C60): what is written is what is spent. For a function
written so that it declares `d` and says the statements of `t`, if the macro accepts it, then in any
variant the generated inputs satisfy the generated script exactly if the statements as written run to the
end on the inputs under their written names and leave a true item on top. -/
theorem C88_spend_partial (env : Vm.Env) (lx : Lex) (hl : LexOk lx)
    (order : List (String × VState) → List (String × VState)) (horder : ∀ l, (order l).Perm l)
    (args : List NestedMeta) (f : ItemFn) (d : Decl) (t : Prog)
    (hdecl : Declares lx args f d) (hs : Says f.body (blocks t)) (hw : WellNested t)
    (hd : declOk d) (hok : progOk false t = true)
    (s : Macro.Script) (e : List Emit) (g : Gen) (h : scriptMacro lx order args f = .ok (s, e, g))
    (v : String) (cond : Predicate) (hv : (v, cond) ∈ variantsOf d)
    (fields : String → Op Bytes) (values : String → Bytes)
    (hf : ∀ x ∈ inputsOf d v, (fields x).WellFormed ∧ Vm.item (fields x) = some (values x))
    (hdec : Named.run env cond t [] (start (inputsOf d v) ((inputsOf d v).map values)) ≠ .undecided) :
    ∃ unlocking locking, serializeOps ((inputNames d v).map fields) = .ok unlocking ∧
      serializeOps (e.map Emit.op) = .ok locking ∧
      (Vm.Accepts env unlocking locking ↔
        ∃ top rest alt, exec env t (start (inputsOf d v) ((inputsOf d v).map values)) =
          .ok ⟨top :: rest, alt⟩ ∧ Vm.truthy top.value = true) :=
  C61_spend env order horder d t e g
    ((C88_generates lx hl order args f d t hdecl hs hw e g).mp ⟨s, h⟩).1 hd hw hok v cond hv fields values hf
    hdec

/-- **C88** without variants (partial: under the restrictions of `C60_without_variants_partial`): the same for a
function with one way of writing its inputs, whose branches leave the same names, for all values of the fields. -/
theorem C88_without_variants_partial (env : Vm.Env) (lx : Lex) (hl : LexOk lx)
    (order : List (String × VState) → List (String × VState)) (horder : ∀ l, (order l).Perm l)
    (args : List NestedMeta) (f : ItemFn) (d : Decl) (t : Prog)
    (hdecl : Declares lx args f d) (hs : Says f.body (blocks t)) (hw : WellNested t)
    (hd : declOk d) (hok : progOk false t = true)
    (s : Macro.Script) (e : List Emit) (g : Gen) (h : scriptMacro lx order args f = .ok (s, e, g))
    (hnone : d.variants = []) (hbal : Balanced d d.inputStruct [] t)
    (fields : String → Op Bytes) (values : String → Bytes)
    (hf : ∀ x ∈ inputsOf d d.inputStruct, (fields x).WellFormed ∧ Vm.item (fields x) = some (values x)) :
    ∃ unlocking locking, serializeOps ((inputNames d d.inputStruct).map fields) = .ok unlocking ∧
      serializeOps (e.map Emit.op) = .ok locking ∧
      (Vm.Accepts env unlocking locking ↔
        ∃ top rest alt, exec env t (start (inputsOf d d.inputStruct) ((inputsOf d d.inputStruct).map values)) =
          .ok ⟨top :: rest, alt⟩ ∧ Vm.truthy top.value = true) :=
  C61_without_variants env order horder d t e g
    ((C88_generates lx hl order args f d t hdecl hs hw e g).mp ⟨s, h⟩).1 hd hw hok hnone hbal fields values hf

/-- **C88** (partial: under the restrictions of C68): a function in which all names are right is accepted. -/
theorem C88_accepted_partial (env : Vm.Env) (lx : Lex) (hl : LexOk lx)
    (order : List (String × VState) → List (String × VState)) (horder : ∀ l, (order l).Perm l)
    (args : List NestedMeta) (f : ItemFn) (hconst : f.constGeneric = false) (d : Decl) (p : Prog)
    (hdecl : Declares lx args f d) (hs : Says f.body (blocks p))
    (hd : declOk d)
    (hlisted : ∀ i ∈ d.inputs, ∀ vs, i.variants = some vs → ∀ v ∈ vs, v ∈ d.variants.map Prod.fst)
    (hconds : ∀ vc ∈ variantsOf d, ∀ c ∈ vc.2, Consistent c)
    (hwn : WellNested p) (hok : progOk false p = true) (hacc : acceptableProg p = true)
    (hreach : reached ((variantsOf d).map Prod.snd) p [] = true)
    (hsize : ∀ vc ∈ variantsOf d, (inputsOf d vc.1).length + 3 * (written p).length < 2 ^ 30)
    (values : String → List Bool → List Bytes)
    (hruns : ∀ vc ∈ variantsOf d, ∀ bs ∈ paths vc.2 p [], Follows env d p vc.1 (values vc.1 bs) bs)
    (hagree : ∀ vc ∈ variantsOf d, ∀ bs ∈ paths vc.2 p [], ∀ vc' ∈ variantsOf d, ∀ bs' ∈ paths vc'.2 p [],
      ∀ e ∈ trace env p 0 (start (inputsOf d vc.1) (values vc.1 bs)),
      ∀ e' ∈ trace env p 0 (start (inputsOf d vc'.1) (values vc'.1 bs')), e.index = e'.index → e.use = e'.use) :
    ∃ s e g, scriptMacro lx order args f = .ok (s, e, g) := by
  obtain ⟨e, g, hg⟩ := C68_accepted_partial env order horder d hd hlisted hconds p hwn hok hacc hreach hsize
    values hruns hagree
  obtain ⟨s, h⟩ := (C88_generates lx hl order args f d p hdecl hs hwn e g).mpr ⟨hg, hconst⟩
  exact ⟨s, e, g, h⟩

/-! ### Non-vacuity: the script of C60 as a function -/

/-- `#[script(Inputs, Claim = "claim", Refund = "!claim")]`. -/
def htlcArgs : List NestedMeta := writtenArgs "Inputs"
  [.variant "Claim" [[⟨"claim", true⟩]], .variant "Refund" [[⟨"claim", false⟩]]]

def val (text : String) (op : Op Bytes) : Macro.Expr := .other ⟨text, op, 0⟩
def arg (x : String) : Arg := .path (name x) ⟨x, .code .OP_0, 0⟩
def callOp (f : String) (args : List String) : Macro.Expr := .call false (.path (name f)) (args.map arg)

/--
```
fn htlc(params: Params, sig: ByteArray, #[variant(Claim)] secret: ByteArray, claim: bool) {
    OP_IF(claim);
    {
        let digest = OP_SHA256(secret);
        let expected = params.hash;
        OP_EQUALVERIFY(digest, expected);
    }
    OP_ELSE;
    {
        500;
        OP_CHECKLOCKTIMEVERIFY;
        OP_DROP;
    }
    OP_ENDIF;
    let pubkey = params.pubkey;
    depth_of(sig);
    let sig2 = OP_ROLL;
    OP_SWAP;
    OP_CHECKSIG(sig2, pubkey);
}
``` -/
def htlcFn : ItemFn where
  attrs := [doc " # Inputs"]
  hasReturn := false
  constGeneric := false
  inputs := [.typed [] (.ident "params" true) "Params", .typed [] (.ident "sig" true) "ByteArray",
    .typed [⟨name "variant", .list [.nested (.path (name "Claim"))]⟩] (.ident "secret" true) "ByteArray",
    .typed [] (.ident "claim" true) "bool"]
  body :=
    .expr (callOp "OP_IF" ["claim"]) <|
    .expr (.block ⟨"", .code .OP_0, 0⟩
      (.letInit (.ident "digest" true) (callOp "OP_SHA256" ["secret"]) <|
       .letInit (.ident "expected" true) (val "params.hash" (.pushByteArray [7, 7] true)) <|
       .expr (callOp "OP_EQUALVERIFY" ["digest", "expected"]) .nil)) <|
    .expr (.path (name "OP_ELSE")) <|
    .expr (.block ⟨"", .code .OP_0, 0⟩
      (.expr (val "500" (.pushInteger 500)) <| .expr (.path (name "OP_CHECKLOCKTIMEVERIFY")) <|
       .expr (.path (name "OP_DROP")) .nil)) <|
    .expr (.path (name "OP_ENDIF")) <|
    .letInit (.ident "pubkey" true) (val "params.pubkey" (.pushByteArray [9, 9] true)) <|
    .expr (callOp "depth_of" ["sig"]) <|
    .letInit (.ident "sig2" true) (.path (name "OP_ROLL")) <|
    .expr (.path (name "OP_SWAP")) <|
    .expr (callOp "OP_CHECKSIG" ["sig2", "pubkey"]) .nil

theorem htlc_declares : Declares exampleLex htlcArgs htlcFn exampleDecl := by
  refine ⟨⟨_, rfl, ?_, rfl⟩, rfl, [], .ident "params" true, "Params", _,
    [⟨"sig", "ByteArray", none, []⟩, ⟨"secret", "ByteArray", some ["Claim"], []⟩, ⟨"claim", "bool", none, []⟩],
    rfl, ?_, rfl⟩
  · have hg : ∀ b, GoodAtom exampleLex.alnum ⟨"claim", b⟩ :=
      fun b => ⟨⟨by show "claim".toList ≠ []; decide, by
        show ∀ c ∈ "claim".toList, exampleLex.alnum c = true ∨ c = '_'; decide +kernel⟩, fun _ => by show ("claim".toList.headD 'a').toNat < 128; decide⟩
    simp only [List.mem_cons, List.not_mem_nil, or_false]
    rintro s (rfl | rfl)
    · refine ⟨by decide, by decide, by simp, ?_⟩
      simp [hg]
    · refine ⟨by decide, by decide, by simp, ?_⟩
      simp [hg]
  · refine .cons ⟨[], true, rfl, by simp, rfl, rfl⟩ (.cons ⟨[.variants ["Claim"]], true, rfl, ?_, rfl, rfl⟩
      (.cons ⟨[], true, rfl, by simp, rfl, rfl⟩ .nil))
    simp [Mark.Ok]

theorem htlc_says : Says htlcFn.body (blocks exampleProg) := by
  refine .op (.call _ (.inl (.op .OP_IF (by decide))) (.cons (.ident _ _) .nil)) ?_
  refine .block _ (.letOp (.one _) (.call _ (.inl (.op .OP_SHA256 (by decide))) (.cons (.ident _ _) .nil))
    (.letPush (.one _) (.other _)
      (.op (.call _ (.inl (.op .OP_EQUALVERIFY (by decide))) (.cons (.ident _ _) (.cons (.ident _ _) .nil))) .nil))) ?_
  refine .op (.bare _ (.inl (.op .OP_ELSE (by decide)))) ?_
  refine .block _ (.push ⟨"500", .pushInteger 500, 0⟩
    (.op (.bare _ (.inl (.op .OP_CHECKLOCKTIMEVERIFY (by decide))))
    (.op (.bare _ (.inl (.op .OP_DROP (by decide)))) .nil))) ?_
  refine .op (.bare _ (.inl (.op .OP_ENDIF (by decide)))) ?_
  refine .letPush (.one _) (.other _) ?_
  refine .op (.call _ (.inl .depthOf) (.cons (.ident _ _) .nil)) ?_
  refine .letOp (.one _) (.bare _ (.inl (.op .OP_ROLL (by decide)))) ?_
  refine .op (.bare _ (.inl (.op .OP_SWAP (by decide)))) ?_
  exact .op (.call _ (.inl (.op .OP_CHECKSIG (by decide))) (.cons (.ident _ _) (.cons (.ident _ _) .nil))) .nil

/-- The function is accepted and gives the operations of `exampleOps` (the remaining hypotheses of
`C88_spend_partial` are shown beside `C60_names_partial`). -/
example : ∃ s e g, scriptMacro exampleLex id htlcArgs htlcFn = .ok (s, e, g) ∧ e.map Emit.op = exampleOps := by
  have hgen : ∃ e g, generate id exampleDecl exampleProg = .ok (e, g) ∧ e.map Emit.op = exampleOps :=
    ⟨_, _, rfl, rfl⟩
  obtain ⟨e, g, h, ho⟩ := hgen
  have hw : WellNested exampleProg := by simp [exampleProg, WellNested, opens, isElse, closes]
  obtain ⟨s, hs⟩ := (C88_generates exampleLex exampleLex_ok id htlcArgs htlcFn exampleDecl exampleProg
    htlc_declares htlc_says hw e g).mpr ⟨h, rfl⟩
  exact ⟨s, e, g, hs, ho⟩

/-- The hypotheses of `C88_accepted_partial`, those about the source: the script shown beside
`C68_accepted_partial` as a function (the others are shown there). -/
def acceptArgs : List NestedMeta := writtenArgs "P"
  [.variant "A" [[⟨"a", true⟩]], .variant "B" [[⟨"a", false⟩]]]

def acceptFn : ItemFn where
  attrs := []
  hasReturn := false
  constGeneric := false
  inputs := [.typed [] (.ident "params" true) "Params",
    .typed [⟨name "variant", .list [.nested (.path (name "B"))]⟩] (.ident "y" true) "ByteArray",
    .typed [] (.ident "x" true) "ByteArray", .typed [] (.ident "c" true) "bool",
    .typed [] (.ident "a" true) "bool"]
  body :=
    .expr (callOp "OP_IF" ["a"]) <|
    .expr (.block ⟨"", .code .OP_0, 0⟩
      (.expr (callOp "OP_IF" ["c"]) <|
       .expr (.block ⟨"", .code .OP_0, 0⟩
         (.expr (callOp "OP_DUP" ["x"]) <| .expr (.path (name "OP_DROP")) .nil)) <|
       .expr (.path (name "OP_ENDIF")) .nil)) <|
    .expr (.path (name "OP_ELSE")) <|
    .expr (.block ⟨"", .code .OP_0, 0⟩
      (.expr (callOp "OP_DROP" ["c"]) <| .expr (callOp "OP_NIP" ["y", "x"]) .nil)) <|
    .expr (.path (name "OP_ENDIF")) <|
    .expr (callOp "OP_TOALTSTACK" ["x"]) <|
    .expr (.path (name "OP_FROMALTSTACK")) <|
    .letInit (.tuple false [some "__", some "n"]) (callOp "OP_SIZE" ["x"]) <|
    .expr (callOp "depth_of" ["x"]) <|
    .expr (.path (name "OP_PICK")) <|
    .expr (callOp "OP_2DROP" ["n", "x"]) <|
    .expr (.call false (.path (name "transmute")) [arg "x", .other ⟨"Integer", .code .OP_0, 0⟩]) <|
    .letInit (.ident "k" true)
      (.call false (.path (name "depth_of_offset")) [arg "x", .other ⟨"3", .pushInteger 3, 3⟩]) .nil

example : Declares exampleLex acceptArgs acceptFn acceptDecl ∧ Says acceptFn.body (blocks acceptScript) := by
  constructor
  · refine ⟨⟨_, rfl, ?_, rfl⟩, rfl, [], .ident "params" true, "Params", _,
      [⟨"y", "ByteArray", some ["B"], []⟩, ⟨"x", "ByteArray", none, []⟩, ⟨"c", "bool", none, []⟩,
       ⟨"a", "bool", none, []⟩], rfl, ?_, rfl⟩
    · have hg : ∀ b, GoodAtom exampleLex.alnum ⟨"a", b⟩ :=
        fun b => ⟨⟨by show "a".toList ≠ []; decide, by
          show ∀ c ∈ "a".toList, exampleLex.alnum c = true ∨ c = '_'; decide +kernel⟩,
          fun _ => by show ("a".toList.headD 'a').toNat < 128; decide⟩
      simp only [List.mem_cons, List.not_mem_nil, or_false]
      rintro s (rfl | rfl)
      · refine ⟨by decide, by decide, by simp, ?_⟩
        simp [hg]
      · refine ⟨by decide, by decide, by simp, ?_⟩
        simp [hg]
    · refine .cons ⟨[.variants ["B"]], true, rfl, ?_, rfl, rfl⟩ (.cons ⟨[], true, rfl, by simp, rfl, rfl⟩
        (.cons ⟨[], true, rfl, by simp, rfl, rfl⟩ (.cons ⟨[], true, rfl, by simp, rfl, rfl⟩ .nil)))
      simp [Mark.Ok]
  · refine .op (.call _ (.inl (.op .OP_IF (by decide))) (.cons (.ident _ _) .nil)) ?_
    refine .block _ (.op (.call _ (.inl (.op .OP_IF (by decide))) (.cons (.ident _ _) .nil)) (.block _
      (.op (.call _ (.inl (.op .OP_DUP (by decide))) (.cons (.ident _ _) .nil))
        (.op (.bare _ (.inl (.op .OP_DROP (by decide)))) .nil))
      (.op (.bare _ (.inl (.op .OP_ENDIF (by decide)))) .nil))) ?_
    refine .op (.bare _ (.inl (.op .OP_ELSE (by decide)))) ?_
    refine .block _ (.op (.call _ (.inl (.op .OP_DROP (by decide))) (.cons (.ident _ _) .nil))
      (.op (.call _ (.inl (.op .OP_NIP (by decide))) (.cons (.ident _ _) (.cons (.ident _ _) .nil))) .nil)) ?_
    refine .op (.bare _ (.inl (.op .OP_ENDIF (by decide)))) ?_
    refine .op (.call _ (.inl (.op .OP_TOALTSTACK (by decide))) (.cons (.ident _ _) .nil)) ?_
    refine .op (.bare _ (.inl (.op .OP_FROMALTSTACK (by decide)))) ?_
    refine .letOp (.tuple ["__", "n"]) (.call _ (.inl (.op .OP_SIZE (by decide))) (.cons (.ident _ _) .nil)) ?_
    refine .op (.call _ (.inl .depthOf) (.cons (.ident _ _) .nil)) ?_
    refine .op (.bare _ (.inl (.op .OP_PICK (by decide)))) ?_
    refine .op (.call _ (.inl (.op .OP_2DROP (by decide))) (.cons (.ident _ _) (.cons (.ident _ _) .nil))) ?_
    refine .op (.call _ (.inl .transmute) (.cons (.ident _ _) (.cons (.other ⟨"Integer", .code .OP_0, 0⟩) .nil))) ?_
    exact .letOp (.one _) (.call _ (.inl .depthOfOffset)
      (.cons (.ident _ _) (.cons (.other ⟨"3", .pushInteger 3, 3⟩) .nil))) .nil

/-! ### A function without variants -/

/-- `#[script(Inputs)] fn f(p: P, secret: ByteArray, old: bool) { ... }` with the statements of `balancedProg`. -/
def balancedFn : ItemFn where
  attrs := []
  hasReturn := false
  constGeneric := false
  inputs := [.typed [] (.ident "p" true) "P", .typed [] (.ident "secret" true) "ByteArray",
    .typed [] (.ident "old" true) "bool"]
  body :=
    .expr (callOp "OP_IF" ["old"]) <|
    .expr (.block ⟨"", .code .OP_0, 0⟩
      (.letInit (.ident "digest" true) (callOp "OP_SHA1" ["secret"]) .nil)) <|
    .expr (.path (name "OP_ELSE")) <|
    .expr (.block ⟨"", .code .OP_0, 0⟩
      (.letInit (.ident "once" true) (callOp "OP_SHA256" ["secret"]) <|
       .letInit (.ident "digest" true) (callOp "OP_SHA256" ["once"]) .nil)) <|
    .expr (.path (name "OP_ENDIF")) <|
    .letInit (.ident "expected" true) (val "[7, 7]" (.pushByteArray [7, 7] true)) <|
    .expr (callOp "OP_EQUAL" ["digest", "expected"]) .nil

theorem balanced_declares : Declares exampleLex [.nested (.path (name "Inputs"))] balancedFn balancedDecl := by
  refine ⟨⟨[], rfl, by simp, rfl⟩, rfl, [], .ident "p" true, "P", _,
    [⟨"secret", "ByteArray", none, []⟩, ⟨"old", "bool", none, []⟩], rfl, ?_, rfl⟩
  exact .cons ⟨[], true, rfl, by simp, rfl, rfl⟩ (.cons ⟨[], true, rfl, by simp, rfl, rfl⟩ .nil)

theorem balanced_says : Says balancedFn.body (blocks balancedProg) := by
  refine .op (.call _ (.inl (.op .OP_IF (by decide))) (.cons (.ident _ _) .nil)) ?_
  refine .block _ (.letOp (.one _) (.call _ (.inl (.op .OP_SHA1 (by decide))) (.cons (.ident _ _) .nil)) .nil) ?_
  refine .op (.bare _ (.inl (.op .OP_ELSE (by decide)))) ?_
  refine .block _ (.letOp (.one _) (.call _ (.inl (.op .OP_SHA256 (by decide))) (.cons (.ident _ _) .nil))
    (.letOp (.one _) (.call _ (.inl (.op .OP_SHA256 (by decide))) (.cons (.ident _ _) .nil)) .nil)) ?_
  refine .op (.bare _ (.inl (.op .OP_ENDIF (by decide)))) ?_
  refine .letPush (.one _) (.other _) ?_
  exact .op (.call _ (.inl (.op .OP_EQUAL (by decide))) (.cons (.ident _ _) (.cons (.ident _ _) .nil))) .nil

theorem balanced_ok : declOk balancedDecl := by
  refine ⟨by decide, ?_, ?_⟩
  · intro i hi
    simp only [balancedDecl, List.mem_cons, List.not_mem_nil, or_false] at hi
    rcases hi with rfl | rfl <;> decide +kernel
  · intro i hi vs hvs
    simp only [balancedDecl, List.mem_cons, List.not_mem_nil, or_false] at hi
    rcases hi with rfl | rfl <;> cases hvs

set_option maxRecDepth 100000 in
/-- `C88_without_variants_partial` (and `C61_without_variants`): from the source, for every secret and either branch. -/
example (env : Vm.Env) (secret : Bytes) (hs : secret.length < 2 ^ 32) (old : Bool) :
    ∃ s e g unlocking locking,
      scriptMacro exampleLex id [.nested (.path (name "Inputs"))] balancedFn = .ok (s, e, g) ∧
      serializeOps [.pushByteArray secret true, .pushBoolean old] = .ok unlocking ∧
      serializeOps (e.map Emit.op) = .ok locking ∧
      (Vm.Accepts env unlocking locking ↔
        ∃ top rest alt, exec env balancedProg
            (start ["secret", "old"] [secret, if old then [1] else []]) = .ok ⟨top :: rest, alt⟩ ∧
          Vm.truthy top.value = true) := by
  obtain ⟨s, e, g, h⟩ : ∃ s e g,
      scriptMacro exampleLex id [.nested (.path (name "Inputs"))] balancedFn = .ok (s, e, g) := ⟨_, _, _, rfl⟩
  obtain ⟨ul, lk, h1, h2, h3⟩ := C88_without_variants_partial env exampleLex exampleLex_ok id
    (fun _ => List.Perm.refl _) _ balancedFn balancedDecl balancedProg balanced_declares balanced_says
    (by simp [balancedProg, WellNested, opens, isElse, closes]) balanced_ok (by decide +kernel) s e g h rfl
    (by decide +kernel) (fun x => if x = "secret" then .pushByteArray secret true else .pushBoolean old)
    (fun x => if x = "secret" then secret else if old then [1] else []) (by
      intro x hx
      have : x = "secret" ∨ x = "old" := by simpa [inputsOf, balancedDecl] using hx
      rcases this with rfl | rfl
      · exact ⟨hs, rfl⟩
      · exact ⟨trivial, by cases old <;> rfl⟩)
  exact ⟨s, e, g, ul, lk, h, h1, h2, h3⟩

end BCash
