import Verif.Spec.Macro

/-! # C46, C47: conditions and conditionals of the script macro -/

namespace BCash
open Macro Spec.Macro

/-! ## C47: conditions -/

theorem holds_iff (p : Predicate) (insts : List Atom) (hp : p ≠ []) :
    p.holds insts = true ↔ ∃ c ∈ p, ∀ a ∈ c, ∀ i ∈ insts, i.varName = a.varName →
      i.isPositive = a.isPositive := by
  unfold Predicate.holds
  have : p.isEmpty = false := by cases p <;> simp_all
  simp only [this, Bool.false_or, List.any_eq_true, List.all_eq_true, Bool.or_eq_true, bne_iff_ne,
    beq_iff_eq]
  constructor
  · rintro ⟨c, hc, h⟩
    refine ⟨c, hc, fun a ha i hi he => ?_⟩
    rcases h a ha i hi with h | h
    · exact absurd he h
    · exact h
  · rintro ⟨c, hc, h⟩
    refine ⟨c, hc, fun a ha i hi => ?_⟩
    by_cases he : i.varName = a.varName
    · exact Or.inr (h a ha i hi he)
    · exact Or.inl he

/-- **C47**: when the truth value of every variable of the condition is known, the condition holds
exactly when one of its alternatives is satisfied. -/
theorem C47_holds_iff_sat (p : Predicate) (hp : p ≠ []) (α : String → Bool) (known : List Atom)
    (hα : Agrees α known)
    (hall : ∀ c ∈ p, ∀ a ∈ c, ∃ i ∈ known, i.varName = a.varName) :
    p.holds known = true ↔ Sat α p := by
  rw [holds_iff p known hp]
  constructor
  · rintro ⟨c, hc, h⟩
    refine ⟨c, hc, fun a ha => ?_⟩
    obtain ⟨i, hi, he⟩ := hall c hc a ha
    rw [← h a ha i hi he, ← he]
    exact hα i hi
  · rintro ⟨c, hc, h⟩
    refine ⟨c, hc, fun a ha i hi he => ?_⟩
    rw [← h a ha, ← he]
    exact (hα i hi).symm

/-- **C47** (during generation only some truth values are known): the condition holds exactly when some
assignment that agrees with what is known satisfies it, provided no alternative contradicts itself. -/
theorem C47_holds_iff_possible (p : Predicate) (hp : p ≠ []) (hc : ∀ c ∈ p, Consistent c)
    (known : List Atom) (hk : Consistent known) :
    p.holds known = true ↔ ∃ α, Agrees α known ∧ Sat α p := by
  rw [holds_iff p known hp]
  constructor
  · rintro ⟨c, hcp, h⟩
    -- true exactly for the variables that occur plain in `known` or in the alternative
    refine ⟨fun x => (known ++ c).any fun a => a.varName == x && a.isPositive, ?_, c, hcp, ?_⟩
    · intro a ha
      cases hpos : a.isPositive with
      | true =>
        simp only [List.any_eq_true, Bool.and_eq_true, beq_iff_eq]
        exact ⟨a, by simp [ha], rfl, hpos⟩
      | false =>
        simp only [List.any_eq_false, Bool.and_eq_true, beq_iff_eq, not_and, Bool.not_eq_true]
        intro b hb he
        rcases List.mem_append.mp hb with hb | hb
        · rw [← hpos]; exact hk b hb a ha he
        · rw [← hpos]; exact (h b hb a ha he.symm).symm
    · intro a ha
      cases hpos : a.isPositive with
      | true =>
        simp only [List.any_eq_true, Bool.and_eq_true, beq_iff_eq]
        exact ⟨a, by simp [ha], rfl, hpos⟩
      | false =>
        simp only [List.any_eq_false, Bool.and_eq_true, beq_iff_eq, not_and, Bool.not_eq_true]
        intro b hb he
        rcases List.mem_append.mp hb with hb | hb
        · rw [← hpos]; exact h a ha b hb he
        · rw [← hpos]; exact hc c hcp b hb a ha he
  · rintro ⟨α, hα, c, hcp, h⟩
    refine ⟨c, hcp, fun a ha i hi he => ?_⟩
    rw [← h a ha, ← he]
    exact (hα i hi).symm

/-- **C47** (scripts without variants): the absent condition always holds. -/
theorem C47_no_variants (known : List Atom) : Predicate.holds [] known = true := rfl

/-- The condition `a && !a` counts as holding as long as `a` is unknown. -/
theorem C47_contradiction_fails : ∃ p : Predicate, p ≠ [] ∧ p.holds [] = true ∧ ∀ α, ¬ Sat α p := by
  refine ⟨[[⟨"a", true⟩, ⟨"a", false⟩]], by decide, by decide, ?_⟩
  rintro α ⟨c, hc, h⟩
  simp only [List.mem_singleton] at hc
  subst hc
  have h1 := h ⟨"a", true⟩ (by simp)
  have h2 := h ⟨"a", false⟩ (by simp)
  simp only at h1 h2
  rw [h1] at h2; cases h2

/-- Non-vacuity: `p1 && !p2 || p3` with `p1` false and `p3` unknown. -/
example : Predicate.holds [[⟨"p1", true⟩, ⟨"p2", false⟩], [⟨"p3", true⟩]] [⟨"p1", false⟩] = true ∧
    Predicate.holds [[⟨"p1", true⟩, ⟨"p2", false⟩], [⟨"p3", true⟩]] [⟨"p1", false⟩, ⟨"p3", false⟩] =
      false := by decide

/-! ### Parsing conditions -/

namespace MacroProofs

theorem splitTwice_piece (c : Char) (piece : List Char) (hp : c ∉ piece) (acc rest : List Char) :
    splitTwice c acc (piece ++ c :: c :: rest) = (acc.reverse ++ piece) :: splitTwice c [] rest := by
  induction piece generalizing acc with
  | nil => simp [splitTwice]
  | cons x xs ih =>
    have hx : x ≠ c := fun h => hp (by simp [h])
    have hxs : c ∉ xs := fun h => hp (by simp [h])
    cases xs with
    | nil =>
      simp only [List.cons_append, List.nil_append]
      rw [splitTwice, if_neg (by simp [hx])]
      have := ih (by simp) (x :: acc)
      simpa using this
    | cons y ys =>
      simp only [List.cons_append]
      rw [splitTwice, if_neg (by simp [hx])]
      have := ih hxs (x :: acc)
      simpa using this

theorem splitTwice_last (c : Char) (piece : List Char) (hp : c ∉ piece) (acc : List Char) :
    splitTwice c acc piece = [acc.reverse ++ piece] := by
  induction piece generalizing acc with
  | nil => simp [splitTwice]
  | cons x xs ih =>
    have hx : x ≠ c := fun h => hp (by simp [h])
    have hxs : c ∉ xs := fun h => hp (by simp [h])
    cases xs with
    | nil => simp [splitTwice]
    | cons y ys =>
      rw [splitTwice, if_neg (by simp [hx]), ih hxs]
      simp

theorem splitTwice_sepBy (c : Char) (ps : List (List Char)) (hne : ps ≠ [])
    (h : ∀ p ∈ ps, c ∉ p) : splitTwice c [] (sepBy [c, c] ps) = ps := by
  induction ps with
  | nil => exact absurd rfl hne
  | cons p ps ih =>
    cases ps with
    | nil => simpa [sepBy] using splitTwice_last c p (h p (by simp)) []
    | cons q qs =>
      have h1 : sepBy [c, c] (p :: q :: qs) = p ++ c :: c :: sepBy [c, c] (q :: qs) := by
        simp [sepBy]
      rw [h1, splitTwice_piece c p (h p (by simp)), ih (by simp) (fun p hp => h p (by simp [hp]))]
      simp

theorem splitTwice_ne_nil (c : Char) (acc s : List Char) : splitTwice c acc s ≠ [] := by
  induction acc, s using splitTwice.induct (c := c) <;> unfold splitTwice <;> (try split) <;> simp_all

theorem sepBy_splitTwice (c : Char) (acc s : List Char) :
    sepBy [c, c] (splitTwice c acc s) = acc.reverse ++ s := by
  induction acc, s using splitTwice.induct (c := c) with
  | case1 acc => simp [splitTwice, sepBy]
  | case2 acc x => simp [splitTwice, sepBy]
  | case3 acc x y rest h ih =>
    obtain ⟨rfl, rfl⟩ := h
    rw [splitTwice, if_pos ⟨rfl, rfl⟩]
    cases hs : splitTwice y [] rest with
    | nil => exact absurd hs (splitTwice_ne_nil _ _ _)
    | cons q qs => rw [sepBy, ← hs, ih]; simp
  | case4 acc x y rest h ih =>
    rw [splitTwice, if_neg h, ih]; simp

theorem collect_map {α β ε : Type} (f : α → Res ε β) (g : β → α) (l : List β)
    (h : ∀ b ∈ l, f (g b) = .ok b) : collect f (l.map g) = .ok l := by
  induction l with
  | nil => rfl
  | cons b bs ih =>
    simp only [List.map_cons, collect]
    rw [h b (by simp), ih (fun b hb => h b (by simp [hb]))]
    rfl

theorem collect_ok {α β ε : Type} (f : α → Res ε β) (g : β → α) (l : List α) (l' : List β)
    (h : ∀ a b, f a = .ok b → g b = a) (hc : collect f l = .ok l') :
    l = l'.map g ∧ ∀ b ∈ l', f (g b) = .ok b := by
  induction l generalizing l' with
  | nil => simp [collect] at hc; subst hc; simp
  | cons a as ih =>
    simp only [collect, Res.bind_eq_ok] at hc
    obtain ⟨b, hb, bs, hbs, heq⟩ := hc
    simp only [Res.ok.injEq] at heq
    subst heq
    obtain ⟨h1, h2⟩ := ih bs hbs
    have := h a b hb
    refine ⟨by simp [this, ← h1], ?_⟩
    intro b' hb'
    rcases List.mem_cons.mp hb' with rfl | hb'
    · rw [this]; exact hb
    · exact h2 b' hb'

end MacroProofs
open MacroProofs

theorem parseAtom_iff (alnum : Char → Bool) (h1 : alnum '!' = false) (s : List Char) (a : Atom) :
    parseAtom alnum s = .ok a ↔ s = writeAtom a ∧ GoodAtom alnum a := by
  obtain ⟨name, pos⟩ := a
  cases s with
  | nil =>
    simp only [parseAtom, reduceCtorEq, false_iff, not_and]
    intro h hg
    have : name.toList = [] := by
      exact (List.append_eq_nil_iff.mp h.symm).2
    exact hg.1.1 this
  | cons c cs =>
    unfold parseAtom
    dsimp only
    by_cases hc : 128 ≤ c.toNat
    · rw [if_pos hc]
      simp only [reduceCtorEq, false_iff, not_and]
      intro h hg
      cases pos with
      | true =>
        have h2 := hg.2 rfl
        simp only [writeAtom, if_true, List.nil_append] at h
        simp only [← h, List.headD_cons] at h2
        omega
      | false =>
        simp only [writeAtom, Bool.false_eq_true, if_false, List.cons_append] at h
        injection h with h _
        rw [h] at hc
        exact absurd hc (by decide)
    · rw [if_neg hc]
      by_cases hb : c = '!'
      · subst hb
        simp only [decide_true, if_true, Bool.not_true]
        constructor
        · intro h
          split at h
          · cases h
          split at h
          · cases h
          · next he ha =>
            simp only [Res.ok.injEq, Atom.mk.injEq] at h
            obtain ⟨rfl, rfl⟩ := h
            simp only [Bool.not_eq_true', Bool.not_eq_false, List.all_eq_true, Bool.or_eq_true,
              decide_eq_true_eq] at ha
            refine ⟨by simp [writeAtom], ⟨by simpa using he, by simpa using ha⟩, by simp⟩
        · rintro ⟨h, hg⟩
          cases pos with
          | true =>
            simp only [writeAtom, if_true, List.nil_append] at h
            have := hg.1.2 '!' (by rw [← h]; simp)
            rw [h1] at this
            exact absurd this (by decide)
          | false =>
            simp only [writeAtom, Bool.false_eq_true, if_false, List.cons_append, List.nil_append] at h
            injection h with _ h
            rw [h]
            have hne := hg.1.1
            rw [if_neg (by simpa using hne), if_neg]
            · simp
            · simp only [Bool.not_eq_true', Bool.not_eq_false, List.all_eq_true, Bool.or_eq_true,
                decide_eq_true_eq]
              exact hg.1.2
      · simp only [hb, decide_false, if_false, Bool.not_false]
        constructor
        · intro h
          split at h
          · next he => simp at he
          split at h
          · cases h
          · next he ha =>
            simp only [Res.ok.injEq, Atom.mk.injEq] at h
            obtain ⟨rfl, rfl⟩ := h
            simp only [Bool.not_eq_true', Bool.not_eq_false, List.all_eq_true, Bool.or_eq_true,
              decide_eq_true_eq] at ha
            refine ⟨by simp [writeAtom], ⟨by simp, by simpa using ha⟩, fun _ => ?_⟩
            simp only [String.toList_ofList, List.headD_cons]
            omega
        · rintro ⟨h, hg⟩
          cases pos with
          | true =>
            simp only [writeAtom, if_true, List.nil_append] at h
            rw [h]
            have hne := hg.1.1
            rw [if_neg (by simpa using hne), if_neg]
            · simp
            · simp only [Bool.not_eq_true', Bool.not_eq_false, List.all_eq_true, Bool.or_eq_true,
                decide_eq_true_eq]
              exact hg.1.2
          | false =>
            simp only [writeAtom, Bool.false_eq_true, if_false, List.cons_append] at h
            injection h with h _
            exact absurd h hb

theorem sepBy_mem (sep : List Char) (ps : List (List Char)) (x : Char) (h : x ∈ sepBy sep ps) :
    x ∈ sep ∨ ∃ p ∈ ps, x ∈ p := by
  induction ps with
  | nil => simp [sepBy] at h
  | cons p ps ih =>
    cases ps with
    | nil => exact Or.inr ⟨p, by simp, by simpa [sepBy] using h⟩
    | cons q qs =>
      simp only [sepBy, List.mem_append] at h
      rcases h with (h | h) | h
      · exact Or.inr ⟨p, by simp, h⟩
      · exact Or.inl h
      · rcases ih h with h | ⟨p', hp', h⟩
        · exact Or.inl h
        · exact Or.inr ⟨p', by simp [hp'], h⟩

/-- **C47** (parsing; partial, missing: plain atoms whose name starts with a non-ASCII letter): reading
a string yields a condition exactly when the string is that condition written out, with good names. -/
theorem C47_parse_iff_partial (alnum : Char → Bool) (h1 : alnum '!' = false) (h2 : alnum '&' = false)
    (h3 : alnum '|' = false) (s : List Char) (p : Predicate) :
    parsePredicate alnum s = .ok p ↔
      s = write p ∧ p ≠ [] ∧ ∀ c ∈ p, c ≠ [] ∧ ∀ a ∈ c, GoodAtom alnum a := by
  have hchars : ∀ a : Atom, GoodAtom alnum a → '&' ∉ writeAtom a ∧ '|' ∉ writeAtom a := by
    intro a ha
    constructor
    all_goals
      intro h
      simp only [writeAtom, List.mem_append] at h
      rcases h with h | h
      · split at h <;> simp at h
      · have := ha.1.2 _ h
        simp_all
  have hconj : ∀ (cs : List Char) (c : List Atom),
      collect (parseAtom alnum) (splitTwice '&' [] cs) = .ok c ↔
        cs = sepBy ['&', '&'] (c.map writeAtom) ∧ c ≠ [] ∧ ∀ a ∈ c, GoodAtom alnum a := by
    intro cs c
    constructor
    · intro h
      obtain ⟨e1, e2⟩ := collect_ok (parseAtom alnum) writeAtom _ _
        (fun a b hab => ((parseAtom_iff alnum h1 a b).mp hab).1.symm) h
      refine ⟨?_, ?_, fun a ha => ((parseAtom_iff alnum h1 _ a).mp (e2 a ha)).2⟩
      · rw [← e1, sepBy_splitTwice]; simp
      · intro hc
        rw [hc] at e1
        exact splitTwice_ne_nil _ _ _ e1
    · rintro ⟨rfl, hne, hg⟩
      rw [splitTwice_sepBy]
      · exact collect_map _ _ _ fun a ha => (parseAtom_iff alnum h1 _ a).mpr ⟨rfl, hg a ha⟩
      · simpa using hne
      · intro q hq
        obtain ⟨a, ha, rfl⟩ := List.mem_map.mp hq
        exact (hchars a (hg a ha)).1
  unfold parsePredicate
  constructor
  · intro h
    obtain ⟨e1, e2⟩ := collect_ok _ (fun c => sepBy ['&', '&'] (c.map writeAtom)) _ _
      (fun a b hab => ((hconj a b).mp hab).1.symm) h
    refine ⟨?_, ?_, fun c hc => ((hconj _ c).mp (e2 c hc)).2⟩
    · rw [write, ← e1, sepBy_splitTwice]; simp
    · intro hc
      rw [hc] at e1
      exact splitTwice_ne_nil _ _ _ e1
  · rintro ⟨rfl, hne, hg⟩
    unfold write
    rw [splitTwice_sepBy]
    · exact collect_map _ _ _ fun c hc => (hconj _ c).mpr ⟨rfl, hg c hc⟩
    · simpa using hne
    · intro q hq
      obtain ⟨c, hc, rfl⟩ := List.mem_map.mp hq
      intro hmem
      rcases sepBy_mem _ _ _ hmem with h | ⟨q, hq, h⟩
      · exact absurd h (by decide)
      · obtain ⟨a, ha, rfl⟩ := List.mem_map.mp hq
        exact (hchars a ((hg c hc).2 a ha)).2 h

/-- **C47 fails** for names starting with a non-ASCII letter: the macro panics. -/
theorem C47_nonascii_fails (alnum : Char → Bool) (h : alnum 'é' = true) :
    GoodName alnum "é" ∧ parsePredicate alnum "é".toList = .panic := by
  refine ⟨⟨by decide, fun c hc => ?_⟩, rfl⟩
  have : c = 'é' := by simpa using hc
  subst this; exact Or.inl h

/-- Non-vacuity: `p1&&!p2||p3`. -/
example : parsePredicate Char.isAlphanum "p1&&!p2||p3".toList =
    .ok [[⟨"p1", true⟩, ⟨"p2", false⟩], [⟨"p3", true⟩]] ∧
    write [[⟨"p1", true⟩, ⟨"p2", false⟩], [⟨"p3", true⟩]] = "p1&&!p2||p3".toList := by decide +kernel
example : parsePredicate Char.isAlphanum "p1&&".toList = .err "Empty predicate name" ∧
    parsePredicate Char.isAlphanum "p1|||p2".toList = .err "Not a valid predicate name" := by
  decide +kernel

/-! ## C46: conditionals -/

/-- Spec for the partial result: the conditionals that are direct statements of a branch all have
(`true`) or all lack (`false`) an OP_ELSE. -/
def AllIfs (hasElse : Bool) : Prog → Prop
  | .nil => True
  | .leaf _ rest => AllIfs hasElse rest
  | .scriptIf _ _ e _ _ rest => e.isSome = hasElse ∧ AllIfs hasElse rest

/-- Spec for the partial result: conditionals nested in a then branch have no OP_ELSE, those nested in
an else branch have one. -/
def SimpleNesting : Prog → Prop
  | .nil => True
  | .leaf _ rest => SimpleNesting rest
  | .scriptIf _ t _ el _ rest =>
    AllIfs false t ∧ AllIfs true el ∧ SimpleNesting t ∧ SimpleNesting el ∧ SimpleNesting rest

namespace MacroProofs

theorem append_nil (p : Prog) : p ++ Prog.nil = p := by
  show p.append .nil = p
  induction p <;> simp_all [Prog.append]

theorem append_assoc (p q r : Prog) : p ++ q ++ r = p ++ (q ++ r) := by
  show (p.append q).append r = p.append (q.append r)
  induction p <;> simp_all [Prog.append]

theorem nil_append (p : Prog) : Prog.nil ++ p = p := rfl

theorem place_nil (s : IfState) : s.place .nil = s := by
  obtain ⟨new, st, b⟩ := s
  unfold IfState.place
  cases st with
  | nil => simp [append_nil]
  | cons top more => cases b <;> simp [append_nil]

theorem place_place (s : IfState) (p q : Prog) : (s.place p).place q = s.place (p ++ q) := by
  obtain ⟨new, st, b⟩ := s
  unfold IfState.place
  cases st with
  | nil => simp [append_assoc]
  | cons top more => cases b <;> simp [append_assoc]

theorem place_isThen (s : IfState) (p : Prog) : (s.place p).isThen = s.isThen := by
  obtain ⟨new, st, b⟩ := s
  unfold IfState.place
  cases st with
  | nil => rfl
  | cons top more => cases b <;> rfl

theorem place_stack_length (s : IfState) (p : Prog) :
    (s.place p).ifStack.length = s.ifStack.length := by
  obtain ⟨new, st, b⟩ := s
  unfold IfState.place
  cases st with
  | nil => rfl
  | cons top more => cases b <;> rfl

theorem parseLoop_append (p q : Prog) (s : IfState) :
    parseLoop (p ++ q) s = (parseLoop p s).bind (parseLoop q) := by
  show parseLoop (p.append q) s = _
  induction p generalizing s with
  | nil => rfl
  | leaf l rest ih =>
    cases l with
    | opcode o =>
      simp only [Prog.append, parseLoop]
      cases s.opcode o with
      | error e => rfl
      | ok s' => exact ih s'
    | push _ _ => exact ih _
    | forLoop => exact ih _
    | rustIf => exact ih _
  | scriptIf i t e el en rest _ _ ih => exact ih _

theorem plain_append (a b : List Leaf) : plain (a ++ b) = plain a ++ plain b := by
  induction a with
  | nil => rfl
  | cons l ls ih => simp only [List.cons_append, plain, ih]; rfl

theorem opcode_opens (s : IfState) (o : OpcodeStmt) (h : opens (.opcode o) = true) :
    s.opcode o = .ok { s with ifStack := ⟨o, none, .nil, .nil⟩ :: s.ifStack, isThen := true } := by
  obtain ⟨hd, i, ou⟩ := o
  unfold opens at h
  unfold IfState.opcode
  split at h
  · next heq => cases heq; rfl
  · next heq => cases heq; rfl
  · cases h

theorem opcode_else (s : IfState) (top : OpenIf) (more : List OpenIf) (hs : s.ifStack = top :: more)
    (o : OpcodeStmt) (h : isElse (.opcode o) = true) :
    s.opcode o = .ok { s with ifStack := { top with elseOpcode := some o } :: more, isThen := false } := by
  obtain ⟨hd, i, ou⟩ := o
  unfold isElse at h
  unfold IfState.opcode
  split at h
  · next heq => cases heq; simp only [hs]
  · cases h

theorem opcode_closes (s : IfState) (top : OpenIf) (more : List OpenIf) (hs : s.ifStack = top :: more)
    (o : OpcodeStmt) (h : closes (.opcode o) = true) :
    s.opcode o = .ok (IfState.place { s with ifStack := more }
        (.scriptIf top.ifOpcode top.thenStmts top.elseOpcode top.elseStmts o .nil)) := by
  obtain ⟨hd, i, ou⟩ := o
  unfold closes at h
  unfold IfState.opcode
  split at h
  · next heq => cases heq; simp only [hs]
  · cases h

theorem opcode_other (s : IfState) (o : OpcodeStmt) (h1 : opens (.opcode o) = false)
    (h2 : isElse (.opcode o) = false) (h3 : closes (.opcode o) = false) :
    s.opcode o = .ok (s.place (.leaf (.opcode o) .nil)) := by
  obtain ⟨hd, i, ou⟩ := o
  unfold IfState.opcode
  split
  · next heq => dsimp only at heq; subst heq; simp [opens] at h1
  · next heq => dsimp only at heq; subst heq; simp [opens] at h1
  · next heq => dsimp only at heq; subst heq; simp [isElse] at h2
  · next heq => dsimp only at heq; subst heq; simp [closes] at h3
  · rfl

theorem parseLoop_leaf (l : Leaf) (rest : Prog) (s : IfState) (h1 : opens l = false)
    (h2 : isElse l = false) (h3 : closes l = false) :
    parseLoop (.leaf l rest) s = parseLoop rest (s.place (.leaf l .nil)) := by
  cases l with
  | opcode o => simp only [parseLoop, opcode_other s o h1 h2 h3]; rfl
  | push _ _ => rfl
  | forLoop => rfl
  | rustIf => rfl

theorem parse_written (t : Prog) (hw : WellNested t) (hsim : SimpleNesting t) (s : IfState)
    (h : s.ifStack = [] ∨ AllIfs (!s.isThen) t) :
    ∃ f, parseLoop (plain (written t)) s = .ok { s.place t with isThen := f } ∧
      (s.ifStack ≠ [] → f = s.isThen) := by
  induction t generalizing s with
  | nil => exact ⟨s.isThen, by rw [place_nil]; rfl, fun _ => rfl⟩
  | leaf l rest ih =>
    obtain ⟨h1, h2, h3, hw⟩ := hw
    have hs' : (s.place (.leaf l .nil)).ifStack = [] ∨
        AllIfs (!(s.place (.leaf l .nil)).isThen) rest := by
      rcases h with h | h
      · left
        have := place_stack_length s (.leaf l .nil)
        rw [h] at this
        exact List.length_eq_zero_iff.mp this
      · right; rw [place_isThen]; exact h
    obtain ⟨f, hf, hb⟩ := ih hw hsim _ hs'
    refine ⟨f, ?_, fun hne => ?_⟩
    · simp only [written, plain]
      rw [parseLoop_leaf l _ s h1 h2 h3, hf, place_place]
      rfl
    · rw [hb ?_, place_isThen]
      intro he
      have := place_stack_length s (.leaf l .nil)
      rw [he] at this
      exact hne (List.length_eq_zero_iff.mp this.symm)
  | scriptIf i t e el en rest iht ihe ihr =>
    obtain ⟨h1, h2, h3, h4, wt, we, wr⟩ := hw
    obtain ⟨at', ae, st, se, sr⟩ := hsim
    obtain ⟨new, stack, b⟩ := s
    -- the then branch
    obtain ⟨f1, hf1, hb1⟩ := iht wt st ⟨new, ⟨i, none, .nil, .nil⟩ :: stack, true⟩ (Or.inr at')
    have hb1 := hb1 (by simp)
    subst hb1
    -- the else branch
    have hmid : parseLoop (plain (e.toList.map Leaf.opcode ++ written el))
        ⟨new, ⟨i, none, t, .nil⟩ :: stack, true⟩ =
          .ok ⟨new, ⟨i, e, t, el⟩ :: stack, !e.isSome⟩ := by
      cases e with
      | none => rw [h3 rfl]; rfl
      | some o =>
        obtain ⟨f2, hf2, hb2⟩ := ihe we se ⟨new, ⟨i, some o, t, .nil⟩ :: stack, false⟩ (Or.inr ae)
        have hb2 := hb2 (by simp)
        subst hb2
        simp only [Option.toList_some, List.map_cons, List.map_nil, List.cons_append, List.nil_append,
          plain, parseLoop]
        rw [opcode_else _ ⟨i, none, t, .nil⟩ stack rfl o (h2 o rfl)]
        exact hf2
    -- what follows
    have hrest : ∃ f, parseLoop (plain (written rest))
        (IfState.place ⟨new, stack, !e.isSome⟩ (.scriptIf i t e el en .nil)) =
          .ok { IfState.place ⟨new, stack, b⟩ (.scriptIf i t e el en rest) with isThen := f } ∧
        (stack ≠ [] → f = b) := by
      cases stack with
      | nil =>
        obtain ⟨f, hf, _⟩ := ihr wr sr (IfState.place ⟨new, [], !e.isSome⟩ (.scriptIf i t e el en .nil))
          (Or.inl rfl)
        exact ⟨f, by rw [hf, place_place]; rfl, fun h => absurd rfl h⟩
      | cons top more =>
        have hall : AllIfs (!b) (.scriptIf i t e el en rest) := by
          rcases h with h | h
          · cases h
          · exact h
        have he : (!e.isSome) = b := by rw [hall.1]; simp
        rw [he]
        obtain ⟨f, hf, hb⟩ := ihr wr sr
          (IfState.place ⟨new, top :: more, b⟩ (.scriptIf i t e el en .nil))
          (Or.inr (by rw [place_isThen]; exact hall.2))
        refine ⟨f, by rw [hf, place_place]; rfl, fun _ => ?_⟩
        rw [hb ?_, place_isThen]
        cases b <;> simp [IfState.place]
    obtain ⟨f, hf, hb⟩ := hrest
    refine ⟨f, ?_, hb⟩
    have hw' : written (.scriptIf i t e el en rest) = Leaf.opcode i ::
        (written t ++ ((e.toList.map Leaf.opcode ++ written el) ++ Leaf.opcode en :: written rest)) := by
      simp [written, List.append_assoc]
    rw [hw']
    simp only [plain, parseLoop]
    rw [opcode_opens _ i h1]
    show parseLoop (plain _) _ = _
    rw [plain_append, parseLoop_append, hf1]
    show parseLoop (plain _) ⟨new, ⟨i, none, t, .nil⟩ :: stack, true⟩ = _
    rw [plain_append, parseLoop_append, hmid]
    show parseLoop (plain (Leaf.opcode en :: written rest)) ⟨new, ⟨i, e, t, el⟩ :: stack, !e.isSome⟩ = _
    simp only [plain, parseLoop]
    rw [opcode_closes _ ⟨i, e, t, el⟩ stack rfl en h4]
    exact hf

end MacroProofs

/-- **C46** (partial; missing: nested conditionals with an OP_ELSE in a then branch or without in an
else branch, when branches are not written as blocks, and repeated OP_ELSE): structuring the written
statements gives back the tree, every statement in the branch in which it was written. -/
theorem C46_structure_partial (t : Prog) (hw : WellNested t) (hs : SimpleNesting t) :
    parseOpIf (plain (written t)) = .ok t := by
  obtain ⟨f, hf, _⟩ := parse_written t hw hs ⟨.nil, [], true⟩ (Or.inl rfl)
  unfold parseOpIf
  rw [hf]
  rfl

namespace MacroProofs

theorem parseLoop_wellNested (p : Prog) (hw : WellNested p) (s : IfState) :
    parseLoop p s = .ok (s.place p) := by
  induction p generalizing s with
  | nil => rw [place_nil]; rfl
  | leaf l rest ih =>
    obtain ⟨h1, h2, h3, hw⟩ := hw
    rw [parseLoop_leaf l rest s h1 h2 h3, ih hw, place_place]; rfl
  | scriptIf i t e el en rest _ _ ih =>
    simp only [parseLoop]
    rw [ih hw.2.2.2.2.2.2, place_place]; rfl

/-- The flat form of a tree in which branches are already structured. -/
def semi : Prog → Prog
  | .nil => .nil
  | .leaf l rest => .leaf l (semi rest)
  | .scriptIf i t none _ en rest => .leaf (.opcode i) (t ++ .leaf (.opcode en) (semi rest))
  | .scriptIf i t (some e) el en rest => .leaf (.opcode i) (t ++ .leaf (.opcode e)
      (el ++ .leaf (.opcode en) (semi rest)))

theorem parse_semi (t : Prog) (hw : WellNested t) (new : Prog) (b : Bool) :
    ∃ f, parseLoop (semi t) ⟨new, [], b⟩ = .ok ⟨new ++ t, [], f⟩ := by
  induction t generalizing new b with
  | nil => exact ⟨b, by rw [append_nil]; rfl⟩
  | leaf l rest ih =>
    obtain ⟨h1, h2, h3, hw⟩ := hw
    obtain ⟨f, hf⟩ := ih hw (new ++ .leaf l .nil) b
    refine ⟨f, ?_⟩
    simp only [semi]
    rw [parseLoop_leaf l _ _ h1 h2 h3]
    show parseLoop (semi rest) ⟨new ++ .leaf l .nil, [], b⟩ = _
    rw [hf, append_assoc]; rfl
  | scriptIf i t e el en rest _ _ ih =>
    obtain ⟨h1, h2, h3, h4, wt, we, wr⟩ := hw
    have hend : ∀ f, ∃ f', (IfState.opcode ⟨new, [⟨i, e, t, el⟩], f⟩ en).bind (parseLoop (semi rest)) =
        .ok ⟨new ++ .scriptIf i t e el en rest, [], f'⟩ := by
      intro f
      rw [opcode_closes _ ⟨i, e, t, el⟩ [] rfl en h4]
      obtain ⟨f', hf'⟩ := ih wr (new ++ .scriptIf i t e el en .nil) f
      refine ⟨f', ?_⟩
      show parseLoop (semi rest) ⟨new ++ .scriptIf i t e el en .nil, [], f⟩ = _
      rw [hf', append_assoc]; rfl
    cases e with
    | none =>
      have := h3 rfl
      subst this
      obtain ⟨f, hf⟩ := hend true
      refine ⟨f, ?_⟩
      simp only [semi, parseLoop]
      rw [opcode_opens _ i h1]
      show parseLoop (t ++ _) _ = _
      rw [parseLoop_append, parseLoop_wellNested t wt]
      exact hf
    | some o =>
      obtain ⟨f, hf⟩ := hend false
      refine ⟨f, ?_⟩
      simp only [semi, parseLoop]
      rw [opcode_opens _ i h1]
      show parseLoop (t ++ _) _ = _
      rw [parseLoop_append, parseLoop_wellNested t wt]
      show parseLoop (.leaf (.opcode o) (el ++ _)) ⟨new, [⟨i, none, t, .nil⟩], true⟩ = _
      simp only [parseLoop]
      rw [opcode_else _ ⟨i, none, t, .nil⟩ [] rfl o (h2 o rfl)]
      show parseLoop (el ++ _) ⟨new, [⟨i, some o, t, .nil⟩], false⟩ = _
      rw [parseLoop_append, parseLoop_wellNested el we]
      exact hf

theorem parseOpIf_semi (t : Prog) (hw : WellNested t) : parseOpIf (semi t) = .ok t := by
  obtain ⟨f, hf⟩ := parse_semi t hw .nil true
  unfold parseOpIf
  rw [hf]
  rfl

theorem parseList_blocks (t : Prog) (hw : WellNested t) : parseList (blocks t) = .ok (semi t) := by
  induction t with
  | nil => rfl
  | leaf l rest ih => simp only [blocks, parseList, semi]; rw [ih hw.2.2.2]; rfl
  | scriptIf i t e el en rest iht ihe ihr =>
    obtain ⟨h1, h2, h3, h4, wt, we, wr⟩ := hw
    cases e with
    | none =>
      simp only [blocks, parseList, semi]
      rw [iht wt, ihr wr]
      show Except.map _ (Except.bind (parseOpIf (semi t)) _) = _
      rw [parseOpIf_semi t wt]
      rfl
    | some o =>
      simp only [blocks, parseList, semi]
      rw [iht wt, ihe we, ihr wr]
      show Except.map _ (Except.bind (parseOpIf (semi t)) _) = _
      rw [parseOpIf_semi t wt]
      show Except.map _ (Except.map _ (Except.map _ (Except.bind (parseOpIf (semi el)) _))) = _
      rw [parseOpIf_semi el we]
      rfl

theorem body_blocks (t : Prog) (hw : WellNested t) : body (blocks t) = written t := by
  induction t with
  | nil => rfl
  | leaf l rest ih => simp only [blocks, body, written]; rw [ih hw.2.2.2]
  | scriptIf i t e el en rest iht ihe ihr =>
    obtain ⟨h1, h2, h3, h4, wt, we, wr⟩ := hw
    cases e with
    | none =>
      have := h3 rfl
      subst this
      simp [blocks, body, written, iht wt, ihr wr]
    | some o => simp [blocks, body, written, iht wt, ihe we, ihr wr]

end MacroProofs

/-- **C46** (branches written as blocks): for arbitrarily nested conditionals whose branches are
written as blocks, structuring the body gives back the tree, and emitting the tree gives back the
written statement sequence. -/
theorem C46_blocks (t : Prog) (hw : WellNested t) :
    parseStmts (blocks t) = .ok t ∧ body (blocks t) = written t := by
  refine ⟨?_, body_blocks t hw⟩
  unfold parseStmts
  rw [parseList_blocks t hw]
  exact parseOpIf_semi t hw

namespace MacroProofs

theorem parse_balanced (ls : List Leaf) (s : IfState) :
    (∃ s', parseLoop (plain ls) s = .ok s' ∧ s'.ifStack = []) ↔ balanced s.ifStack.length ls = true := by
  induction ls generalizing s with
  | nil => simp [plain, parseLoop, balanced]
  | cons l ls ih =>
    unfold balanced
    split
    · next h =>
      cases l with
      | opcode o =>
        simp only [plain, parseLoop]
        rw [opcode_opens s o h]
        exact ih _
      | push _ _ => cases h
      | forLoop => cases h
      | rustIf => cases h
    · split
      · next h1 h =>
        cases l with
        | opcode o =>
          simp only [plain, parseLoop]
          cases hs : s.ifStack with
          | nil =>
            have : s.opcode o = .error "No previous OP_IF found." := by
              obtain ⟨hd, i, ou⟩ := o
              unfold isElse at h
              unfold IfState.opcode
              split at h
              · next heq => cases heq; simp only [hs]
              · cases h
            rw [this]
            simp [Except.bind]
          | cons top more =>
            rw [opcode_else s top more hs o h]
            have := ih { s with ifStack := { top with elseOpcode := some o } :: more, isThen := false }
            simp only [List.length_cons, ne_eq, Nat.add_eq_zero_iff, Nat.one_ne_zero, and_false,
              not_false_eq_true, bne, Bool.not_eq_true', beq_eq_false_iff_ne, Bool.and_eq_true, true_and]
            exact this
        | push _ _ => cases h
        | forLoop => cases h
        | rustIf => cases h
      · split
        · next h1 h2 h =>
          cases l with
          | opcode o =>
            simp only [plain, parseLoop]
            cases hs : s.ifStack with
            | nil =>
              have : s.opcode o = .error "No previous OP_IF found." := by
                obtain ⟨hd, i, ou⟩ := o
                unfold closes at h
                unfold IfState.opcode
                split at h
                · next heq => cases heq; simp only [hs]
                · cases h
              rw [this]
              simp [Except.bind]
            | cons top more =>
              rw [opcode_closes s top more hs o h]
              have := ih (IfState.place { s with ifStack := more }
                (.scriptIf top.ifOpcode top.thenStmts top.elseOpcode top.elseStmts o .nil))
              rw [place_stack_length] at this
              simp only [List.length_cons, ne_eq, Nat.add_eq_zero_iff, Nat.one_ne_zero, and_false,
                not_false_eq_true, bne, Bool.not_eq_true', beq_eq_false_iff_ne, Bool.and_eq_true, true_and,
                Nat.add_sub_cancel]
              exact this
          | push _ _ => cases h
          | forLoop => cases h
          | rustIf => cases h
        · next h1 h2 h3 =>
          simp only [plain]
          rw [parseLoop_leaf l _ s (by simpa using h1) (by simpa using h2) (by simpa using h3), ih,
            place_stack_length]

end MacroProofs

/-- **C46** (rejection): a statement sequence is accepted exactly when its conditionals are balanced. -/
theorem C46_accepts_iff_balanced (ls : List Leaf) :
    (∃ t, parseOpIf (plain ls) = .ok t) ↔ balanced 0 ls = true := by
  refine Iff.trans ?_ (parse_balanced ls ⟨.nil, [], true⟩)
  unfold parseOpIf
  constructor
  · rintro ⟨t, h⟩
    cases hp : parseLoop (plain ls) ⟨.nil, [], true⟩ with
    | error e => rw [hp] at h; cases h
    | ok s =>
      rw [hp] at h
      refine ⟨s, rfl, ?_⟩
      cases hs : s.ifStack with
      | nil => rfl
      | cons top more =>
        simp only [Except.bind, hs] at h
        cases h
  · rintro ⟨s, h, hs⟩
    rw [h]
    refine ⟨s.newStmts, ?_⟩
    simp only [Except.bind, hs]

namespace MacroProofs

/-- The statements held in the parser state. -/
def held (s : IfState) : List Leaf :=
  written s.newStmts ++ (s.ifStack.map fun f => Leaf.opcode f.ifOpcode ::
    (written f.thenStmts ++ (f.elseOpcode.toList.map Leaf.opcode ++ written f.elseStmts))).flatten

theorem written_append (p q : Prog) : written (p ++ q) = written p ++ written q := by
  show written (p.append q) = _
  induction p <;> simp_all [Prog.append, written]

theorem count_place (s : IfState) (p : Prog) (x : Leaf) :
    (held (s.place p)).count x = (held s).count x + (written p).count x := by
  obtain ⟨new, st, b⟩ := s
  unfold IfState.place held
  cases st with
  | nil => simp [written_append, List.count_append]
  | cons top more =>
    cases b <;> simp [written_append, List.count_append, List.count_cons] <;> omega

/-- Recorded OP_ELSE statements are OP_ELSE statements. -/
def ElseOk (s : IfState) : Prop :=
  ∀ f ∈ s.ifStack, ∀ o, f.elseOpcode = some o → isElse (.opcode o) = true

theorem elseOk_place (s : IfState) (p : Prog) (h : ElseOk s) : ElseOk (s.place p) := by
  obtain ⟨new, st, b⟩ := s
  unfold IfState.place
  cases st with
  | nil => exact h
  | cons top more =>
    cases b
    all_goals
      intro f hf o ho
      rcases List.mem_cons.mp hf with rfl | hf
      · exact h top (by simp) o ho
      · exact h f (by simp [hf]) o ho

theorem count_parse (ls : List Leaf) (s s' : IfState) (x : Leaf) (hx : isElse x = false)
    (hok : ElseOk s) (h : parseLoop (plain ls) s = .ok s') :
    (held s').count x = (held s).count x + ls.count x := by
  induction ls generalizing s with
  | nil => cases h; simp
  | cons l ls ih =>
    cases h1 : opens l with
    | true =>
      cases l with
      | opcode o =>
        simp only [plain, parseLoop] at h
        rw [opcode_opens s o h1] at h
        have hok' : ElseOk { s with ifStack := ⟨o, none, .nil, .nil⟩ :: s.ifStack, isThen := true } := by
          intro f hf o' ho
          rcases List.mem_cons.mp hf with rfl | hf
          · cases ho
          · exact hok f hf o' ho
        rw [ih _ hok' h]
        simp [held, List.count_cons, List.count_append, written]
        omega
      | push _ _ => cases h1
      | forLoop => cases h1
      | rustIf => cases h1
    | false =>
    cases h2 : isElse l with
    | true =>
      cases l with
      | opcode o =>
        simp only [plain, parseLoop] at h
        cases hs : s.ifStack with
        | nil =>
          have : s.opcode o = .error "No previous OP_IF found." := by
            obtain ⟨hd, i, ou⟩ := o
            unfold isElse at h2
            unfold IfState.opcode
            split at h2
            · next heq => cases heq; simp only [hs]
            · cases h2
          rw [this] at h; cases h
        | cons top more =>
          rw [opcode_else s top more hs o h2] at h
          have hok' : ElseOk { s with
              ifStack := { top with elseOpcode := some o } :: more, isThen := false } := by
            intro f hf o' ho
            rcases List.mem_cons.mp hf with rfl | hf
            · cases ho; exact h2
            · exact hok f (by rw [hs]; simp [hf]) o' ho
          rw [ih _ hok' h]
          have hk : ∀ e : Option OpcodeStmt, (∀ o, e = some o → isElse (.opcode o) = true) →
              (e.toList.map Leaf.opcode).count x = 0 := by
            intro e he
            cases e with
            | none => rfl
            | some o =>
              have := he o rfl
              have hne : Leaf.opcode o ≠ x := by rintro rfl; rw [hx] at this; cases this
              simp [hne]
          have hne : Leaf.opcode o ≠ x := by rintro rfl; rw [hx] at h2; cases h2
          have k1 := hk top.elseOpcode (hok top (by rw [hs]; simp))
          have k2 := hk (some o) (by rintro o' ⟨⟩; exact h2)
          simp only [held, hs, List.map_cons, List.flatten_cons, List.count_append, List.count_cons, k1, k2,
            beq_iff_eq, hne, if_false]
          omega
      | push _ _ => cases h2
      | forLoop => cases h2
      | rustIf => cases h2
    | false =>
    cases h3 : closes l with
    | true =>
      cases l with
      | opcode o =>
        simp only [plain, parseLoop] at h
        cases hs : s.ifStack with
        | nil =>
          have : s.opcode o = .error "No previous OP_IF found." := by
            obtain ⟨hd, i, ou⟩ := o
            unfold closes at h3
            unfold IfState.opcode
            split at h3
            · next heq => cases heq; simp only [hs]
            · cases h3
          rw [this] at h; cases h
        | cons top more =>
          rw [opcode_closes s top more hs o h3] at h
          have hok' : ElseOk { s with ifStack := more } := fun f hf => hok f (by rw [hs]; simp [hf])
          rw [ih _ (elseOk_place _ _ hok') h, count_place]
          simp [held, hs, List.count_cons, List.count_append, written]
          omega
      | push _ _ => cases h3
      | forLoop => cases h3
      | rustIf => cases h3
    | false =>
      simp only [plain] at h
      rw [parseLoop_leaf l _ s h1 h2 h3] at h
      rw [ih _ (elseOk_place _ _ hok) h, count_place]
      simp [written, List.count_cons]
      omega

end MacroProofs

/-- **C46** (no statement is lost or duplicated): in every accepted sequence, each statement other than
OP_ELSE occurs in the result exactly as often as it was written. -/
theorem C46_no_loss (ls : List Leaf) (t : Prog) (h : parseOpIf (plain ls) = .ok t) (x : Leaf)
    (hx : isElse x = false) : (written t).count x = ls.count x := by
  unfold parseOpIf at h
  cases hp : parseLoop (plain ls) ⟨.nil, [], true⟩ with
  | error e => rw [hp] at h; cases h
  | ok s =>
    rw [hp] at h
    have hc := count_parse ls _ s x hx (by intro f hf; cases hf) hp
    cases hs : s.ifStack with
    | nil =>
      simp only [Except.bind, hs] at h
      cases h
      simpa [held, hs, written] using hc
    | cons top more => simp only [Except.bind, hs] at h; cases h

/-- Spec: the tree a statement sequence means is unique: two well-formed trees that are written the same
way are the same. -/
theorem C46_written_unique (t t' : Prog) (hw : WellNested t) (hw' : WellNested t')
    (h : written t = written t') : t = t' := by
  have key : ∀ (t : Prog), WellNested t → ∀ (t' : Prog), WellNested t' → ∀ (r r' : List Leaf),
      (∀ l ls, r = l :: ls → isElse l = true ∨ closes l = true) →
      (∀ l ls, r' = l :: ls → isElse l = true ∨ closes l = true) →
      written t ++ r = written t' ++ r' → t = t' ∧ r = r' := by
    intro t
    induction t with
    | nil =>
      intro _ t' hw' r r' hr hr' h
      cases t' with
      | nil => exact ⟨rfl, h⟩
      | leaf l rest =>
        rcases hr l (written rest ++ r') (by simpa [written] using h) with h | h
        · rw [hw'.2.1] at h; cases h
        · rw [hw'.2.2.1] at h; cases h
      | scriptIf i t e el en rest =>
        have ho := hw'.1
        rcases hr (.opcode i) _ (by simpa [written] using h) with h | h
        · obtain ⟨hd, _, _⟩ := i
          unfold isElse at h; unfold opens at ho
          split at h
          · next heq => cases heq; cases ho
          · cases h
        · obtain ⟨hd, _, _⟩ := i
          unfold closes at h; unfold opens at ho
          split at h
          · next heq => cases heq; cases ho
          · cases h
    | leaf l rest ih =>
      intro hw t' hw' r r' hr hr' h
      cases t' with
      | nil =>
        rcases hr' l (written rest ++ r) (by simpa [written] using h.symm) with h | h
        · rw [hw.2.1] at h; cases h
        · rw [hw.2.2.1] at h; cases h
      | leaf l' rest' =>
        simp only [written, List.cons_append, List.cons.injEq] at h
        obtain ⟨rfl, h⟩ := h
        obtain ⟨rfl, rfl⟩ := ih hw.2.2.2 rest' hw'.2.2.2 r r' hr hr' h
        exact ⟨rfl, rfl⟩
      | scriptIf i t e el en rest' =>
        simp only [written, List.cons_append, List.cons.injEq] at h
        have := hw.1
        rw [h.1, hw'.1] at this
        cases this
    | scriptIf i t e el en rest iht ihe ihr =>
      intro hw t' hw' r r' hr hr' h
      obtain ⟨h1, h2, h3, h4, wt, we, wr⟩ := hw
      cases t' with
      | nil =>
        rcases hr' (.opcode i) _ (by simpa [written] using h.symm) with h | h
        · obtain ⟨hd, _, _⟩ := i
          unfold isElse at h; unfold opens at h1
          split at h
          · next heq => cases heq; cases h1
          · cases h
        · obtain ⟨hd, _, _⟩ := i
          unfold closes at h; unfold opens at h1
          split at h
          · next heq => cases heq; cases h1
          · cases h
      | leaf l' rest' =>
        simp only [written, List.cons_append, List.cons.injEq] at h
        have := hw'.1
        rw [← h.1, h1] at this
        cases this
      | scriptIf i' t' e' el' en' rest' =>
        obtain ⟨h1', h2', h3', h4', wt', we', wr'⟩ := hw'
        simp only [written, List.cons_append, List.cons.injEq, List.append_assoc, Leaf.opcode.injEq] at h
        obtain ⟨rfl, h⟩ := h
        have hstart : ∀ (e : Option OpcodeStmt) (el : Prog) (en : OpcodeStmt) (tail : List Leaf),
            (∀ o, e = some o → isElse (.opcode o) = true) → (e = none → el = .nil) →
            closes (.opcode en) = true → ∀ l ls,
            e.toList.map Leaf.opcode ++ (written el ++ Leaf.opcode en :: tail) = l :: ls →
            isElse l = true ∨ closes l = true := by
          intro e el en tail he hel hen l ls heq
          cases e with
          | none =>
            rw [hel rfl] at heq
            simp only [Option.toList_none, List.map_nil, written, List.nil_append, List.cons.injEq] at heq
            exact Or.inr (heq.1 ▸ hen)
          | some o =>
            simp only [Option.toList_some, List.map_cons, List.map_nil, List.cons_append,
              List.cons.injEq] at heq
            exact Or.inl (heq.1 ▸ he o rfl)
        obtain ⟨htt, hm⟩ := iht wt t' wt' _ _ (hstart e el en _ h2 h3 h4) (hstart e' el' en' _ h2' h3' h4') h
        subst htt
        clear h
        have notBoth : ∀ o, isElse (Leaf.opcode o) = true → closes (Leaf.opcode o) = true → False := by
          rintro ⟨hd, _, _⟩ a b
          unfold isElse at a; unfold closes at b
          split at a
          · next heq => cases heq; cases b
          · cases a
        have hclose : ∀ (en : OpcodeStmt) (tail : List Leaf), closes (.opcode en) = true → ∀ l ls,
            Leaf.opcode en :: tail = l :: ls → isElse l = true ∨ closes l = true := by
          intro en tail hen l ls heq
          simp only [List.cons.injEq] at heq
          exact Or.inr (heq.1 ▸ hen)
        have hee : e = e' ∧ el = el' ∧ Leaf.opcode en :: (written rest ++ r) =
            Leaf.opcode en' :: (written rest' ++ r') := by
          cases e with
          | none =>
            cases e' with
            | none =>
              rw [h3 rfl, h3' rfl] at hm
              exact ⟨rfl, by rw [h3 rfl, h3' rfl], by simpa [written] using hm⟩
            | some o' =>
              rw [h3 rfl] at hm
              simp [written] at hm
              exact (notBoth o' (h2' o' rfl) (hm.1 ▸ h4)).elim
          | some o =>
            cases e' with
            | none =>
              rw [h3' rfl] at hm
              simp [written] at hm
              exact (notBoth o (h2 o rfl) (hm.1 ▸ h4')).elim
            | some o' =>
              simp only [Option.toList_some, List.map_cons, List.map_nil, List.cons_append,
                List.nil_append, List.cons.injEq, Leaf.opcode.injEq] at hm
              obtain ⟨rfl, hm⟩ := hm
              obtain ⟨hq, hm2⟩ := ihe we el' we' _ _ (hclose en _ h4) (hclose en' _ h4') hm
              exact ⟨rfl, hq, hm2⟩
        obtain ⟨rfl, rfl, hm3⟩ := hee
        simp only [List.cons.injEq, Leaf.opcode.injEq] at hm3
        obtain ⟨rfl, hm3⟩ := hm3
        obtain ⟨rfl, rfl⟩ := ihr wr rest' wr' r r' hr hr' hm3
        exact ⟨rfl, rfl⟩
  exact (key t hw t' hw' [] [] (by simp) (by simp) (by simpa using h)).1

/-! ### Examples and failures -/

/-- An opcode statement without names. -/
def stmt (o : Opcode) : OpcodeStmt := ⟨.op o, none, none⟩
def leafOp (o : Opcode) : Leaf := .opcode (stmt o)

/-- **C46 fails** for a nested conditional with an OP_ELSE in a then branch written without blocks: in
`IF IF 1 ELSE 2 ENDIF 3 ELSE 4 ENDIF` the inner conditional and `3` end up in the else branch, and the
emitted sequence is `IF ELSE IF 1 ELSE 2 ENDIF 3 4 ENDIF`. -/
theorem C46_nested_fails : ∃ t r, WellNested t ∧ parseOpIf (plain (written t)) = .ok r ∧
    written r ≠ written t := by
  refine ⟨.scriptIf (stmt .OP_IF)
      (.scriptIf (stmt .OP_IF) (.leaf (leafOp .OP_1) .nil) (some (stmt .OP_ELSE))
        (.leaf (leafOp .OP_2) .nil) (stmt .OP_ENDIF) (.leaf (leafOp .OP_3) .nil))
      (some (stmt .OP_ELSE)) (.leaf (leafOp .OP_4) .nil) (stmt .OP_ENDIF) .nil,
    .scriptIf (stmt .OP_IF) .nil (some (stmt .OP_ELSE))
      (.scriptIf (stmt .OP_IF) (.leaf (leafOp .OP_1) .nil) (some (stmt .OP_ELSE))
        (.leaf (leafOp .OP_2) .nil) (stmt .OP_ENDIF) (.leaf (leafOp .OP_3) (.leaf (leafOp .OP_4) .nil)))
      (stmt .OP_ENDIF) .nil, ?_, by decide, by decide⟩
  simp [WellNested, opens, isElse, closes, stmt, leafOp]

/-- **C46 fails** for a nested conditional without OP_ELSE in an else branch:
`IF 1 ELSE IF 2 ENDIF 3 ENDIF` is emitted as `IF 1 IF 2 ENDIF 3 ELSE ENDIF`. -/
theorem C46_nested_else_fails : ∃ t r, WellNested t ∧ parseOpIf (plain (written t)) = .ok r ∧
    written r ≠ written t := by
  refine ⟨.scriptIf (stmt .OP_IF) (.leaf (leafOp .OP_1) .nil) (some (stmt .OP_ELSE))
      (.scriptIf (stmt .OP_IF) (.leaf (leafOp .OP_2) .nil) none .nil (stmt .OP_ENDIF)
        (.leaf (leafOp .OP_3) .nil)) (stmt .OP_ENDIF) .nil,
    .scriptIf (stmt .OP_IF) (.leaf (leafOp .OP_1)
      (.scriptIf (stmt .OP_IF) (.leaf (leafOp .OP_2) .nil) none .nil (stmt .OP_ENDIF)
        (.leaf (leafOp .OP_3) .nil))) (some (stmt .OP_ELSE)) .nil (stmt .OP_ENDIF) .nil, ?_,
    by decide, by decide⟩
  simp [WellNested, opens, isElse, closes, stmt, leafOp]

/-- **C46 fails** for a repeated OP_ELSE (which the script machine allows): the sequence is accepted but
one OP_ELSE is dropped. -/
theorem C46_double_else_fails : ∃ ls r, parseOpIf (plain ls) = .ok r ∧
    (written r).length < ls.length :=
  ⟨[leafOp .OP_IF, leafOp .OP_1, leafOp .OP_ELSE, leafOp .OP_2, leafOp .OP_ELSE, leafOp .OP_3,
    leafOp .OP_ENDIF],
   .scriptIf (stmt .OP_IF) (.leaf (leafOp .OP_1) .nil) (some (stmt .OP_ELSE))
    (.leaf (leafOp .OP_2) (.leaf (leafOp .OP_3) .nil)) (stmt .OP_ENDIF) .nil, by decide, by decide⟩

/-- Non-vacuity of `C46_structure_partial`: `IF IF 1 ENDIF ELSE IF ELSE 2 ENDIF ENDIF`. -/
example : ∃ t, WellNested t ∧ SimpleNesting t ∧ written t = [leafOp .OP_IF, leafOp .OP_IF, leafOp .OP_1,
    leafOp .OP_ENDIF, leafOp .OP_ELSE, leafOp .OP_IF, leafOp .OP_ELSE, leafOp .OP_2, leafOp .OP_ENDIF,
    leafOp .OP_ENDIF] := by
  refine ⟨.scriptIf (stmt .OP_IF)
    (.scriptIf (stmt .OP_IF) (.leaf (leafOp .OP_1) .nil) none .nil (stmt .OP_ENDIF) .nil)
    (some (stmt .OP_ELSE))
    (.scriptIf (stmt .OP_IF) .nil (some (stmt .OP_ELSE)) (.leaf (leafOp .OP_2) .nil) (stmt .OP_ENDIF)
      .nil) (stmt .OP_ENDIF) .nil, ?_, ?_, by decide⟩
  · simp [WellNested, opens, isElse, closes, stmt, leafOp]
  · simp [SimpleNesting, AllIfs]

/-- Non-vacuity of the rejection theorem. -/
example : balanced 0 [leafOp .OP_IF, leafOp .OP_ELSE, leafOp .OP_ENDIF] = true ∧
    balanced 0 [leafOp .OP_IF, leafOp .OP_ENDIF, leafOp .OP_ELSE] = false ∧
    balanced 0 [leafOp .OP_IF] = false := by decide

end BCash
