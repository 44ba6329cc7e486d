import Verif.Spec.Text
import Verif.Proofs.MacroTyped
import Verif.Props.Macro

/-! # Recorded source texts: parsing, formatting, generation -/

namespace BCash
open Spec Spec.Macro Spec.Text Macro

namespace TextProofs

/-! ## Structuring -/

theorem append_nil (p : TProg) : p ++ TProg.nil = p := by
  show p.append .nil = p
  induction p <;> simp_all [TProg.append]

theorem append_assoc (p q r : TProg) : p ++ q ++ r = p ++ (q ++ r) := by
  show (p.append q).append r = p.append (q.append r)
  induction p <;> simp_all [TProg.append]

theorem erase_append (p q : TProg) : erase (p ++ q) = erase p ++ erase q := by
  show erase (p.append q) = (erase p).append (erase q)
  induction p <;> simp_all [TProg.append, Prog.append, erase]

theorem place_nil (s : TIfState) : s.place .nil = s := by
  obtain ⟨new, st, b⟩ := s
  unfold TIfState.place
  cases st with
  | nil => simp [append_nil]
  | cons top more => cases b <;> simp [append_nil]

theorem place_place (s : TIfState) (p q : TProg) : (s.place p).place q = s.place (p ++ q) := by
  obtain ⟨new, st, b⟩ := s
  unfold TIfState.place
  cases st with
  | nil => simp [append_assoc]
  | cons top more => cases b <;> simp [append_assoc]

theorem parseLoop_append (p q : TProg) (s : TIfState) :
    parseLoopT (p ++ q) s = (parseLoopT p s).bind (parseLoopT q) := by
  show parseLoopT (p.append q) s = _
  induction p generalizing s with
  | nil => rfl
  | leaf x l rest ih =>
    cases l with
    | opcode o =>
      simp only [TProg.append, parseLoopT]
      cases s.opcode x o with
      | error e => rfl
      | ok s' => exact ih s'
    | push _ _ => exact ih _
    | forLoop => exact ih _
    | rustIf => exact ih _
  | scriptIf ix i t e el ex en rest _ _ ih => exact ih _

theorem opcode_opens (s : TIfState) (x : String) (o : OpcodeStmt) (h : opens (.opcode o) = true) :
    s.opcode x o = .ok { s with ifStack := ⟨x, o, none, .nil, .nil⟩ :: s.ifStack, isThen := true } := by
  obtain ⟨hd, i, ou⟩ := o
  unfold opens at h
  unfold TIfState.opcode
  split at h
  · next heq => cases heq; rfl
  · next heq => cases heq; rfl
  · cases h

theorem opcode_else (s : TIfState) (top : TOpenIf) (more : List TOpenIf) (hs : s.ifStack = top :: more)
    (x : String) (o : OpcodeStmt) (h : isElse (.opcode o) = true) :
    s.opcode x o =
      .ok { s with ifStack := { top with elseOpcode := some (x, o) } :: more, isThen := false } := by
  obtain ⟨hd, i, ou⟩ := o
  unfold isElse at h
  unfold TIfState.opcode
  split at h
  · next heq => cases heq; simp only [hs]
  · cases h

theorem opcode_closes (s : TIfState) (top : TOpenIf) (more : List TOpenIf) (hs : s.ifStack = top :: more)
    (x : String) (o : OpcodeStmt) (h : closes (.opcode o) = true) :
    s.opcode x o = .ok (TIfState.place { s with ifStack := more }
        (.scriptIf top.ifText top.ifOpcode top.thenStmts top.elseOpcode top.elseStmts x o .nil)) := by
  obtain ⟨hd, i, ou⟩ := o
  unfold closes at h
  unfold TIfState.opcode
  split at h
  · next heq => cases heq; simp only [hs]
  · cases h

theorem opcode_other (s : TIfState) (x : String) (o : OpcodeStmt) (h1 : opens (.opcode o) = false)
    (h2 : isElse (.opcode o) = false) (h3 : closes (.opcode o) = false) :
    s.opcode x o = .ok (s.place (.leaf x (.opcode o) .nil)) := by
  obtain ⟨hd, i, ou⟩ := o
  unfold TIfState.opcode
  split
  · next heq => dsimp only at heq; subst heq; simp [opens] at h1
  · next heq => dsimp only at heq; subst heq; simp [opens] at h1
  · next heq => dsimp only at heq; subst heq; simp [isElse] at h2
  · next heq => dsimp only at heq; subst heq; simp [closes] at h3
  · rfl

theorem parseLoop_leaf (x : String) (l : Leaf) (rest : TProg) (s : TIfState) (h1 : opens l = false)
    (h2 : isElse l = false) (h3 : closes l = false) :
    parseLoopT (.leaf x l rest) s = parseLoopT rest (s.place (.leaf x l .nil)) := by
  cases l with
  | opcode o => simp only [parseLoopT, opcode_other s x o h1 h2 h3]; rfl
  | push _ _ => rfl
  | forLoop => rfl
  | rustIf => rfl

theorem parseLoop_wellNested (p : TProg) (hw : WellNested (erase p)) (s : TIfState) :
    parseLoopT p s = .ok (s.place p) := by
  induction p generalizing s with
  | nil => rw [place_nil]; rfl
  | leaf x l rest ih =>
    obtain ⟨h1, h2, h3, hw⟩ := hw
    rw [parseLoop_leaf x l rest s h1 h2 h3, ih hw, place_place]; rfl
  | scriptIf ix i t e el ex en rest _ _ ih =>
    simp only [parseLoopT]
    rw [ih hw.2.2.2.2.2.2, place_place]; rfl

def semi : TProg → TProg
  | .nil => .nil
  | .leaf x l rest => .leaf x l (semi rest)
  | .scriptIf ix i t none _ ex en rest => .leaf ix (.opcode i) (t ++ .leaf ex (.opcode en) (semi rest))
  | .scriptIf ix i t (some e) el ex en rest => .leaf ix (.opcode i) (t ++ .leaf e.1 (.opcode e.2)
      (el ++ .leaf ex (.opcode en) (semi rest)))

theorem erase_eq_nil {p : TProg} (h : erase p = .nil) : p = .nil := by
  cases p <;> simp_all [erase]

theorem parse_semi (t : TProg) (hw : WellNested (erase t)) (new : TProg) (b : Bool) :
    ∃ f, parseLoopT (semi t) ⟨new, [], b⟩ = .ok ⟨new ++ t, [], f⟩ := by
  induction t generalizing new b with
  | nil => exact ⟨b, by rw [append_nil]; rfl⟩
  | leaf x l rest ih =>
    obtain ⟨h1, h2, h3, hw⟩ := hw
    obtain ⟨f, hf⟩ := ih hw (new ++ .leaf x l .nil) b
    refine ⟨f, ?_⟩
    simp only [semi]
    rw [parseLoop_leaf x l _ _ h1 h2 h3]
    show parseLoopT (semi rest) ⟨new ++ .leaf x l .nil, [], b⟩ = _
    rw [hf, append_assoc]; rfl
  | scriptIf ix i t e el ex en rest _ _ ih =>
    obtain ⟨h1, h2, h3, h4, wt, we, wr⟩ := hw
    have hend : ∀ f, ∃ f', (TIfState.opcode ⟨new, [⟨ix, i, e, t, el⟩], f⟩ ex en).bind (parseLoopT (semi rest)) =
        .ok ⟨new ++ .scriptIf ix i t e el ex en rest, [], f'⟩ := by
      intro f
      rw [opcode_closes _ ⟨ix, i, e, t, el⟩ [] rfl ex en h4]
      obtain ⟨f', hf'⟩ := ih wr (new ++ .scriptIf ix i t e el ex en .nil) f
      refine ⟨f', ?_⟩
      show parseLoopT (semi rest) ⟨new ++ .scriptIf ix i t e el ex en .nil, [], f⟩ = _
      rw [hf', append_assoc]; rfl
    cases e with
    | none =>
      have := erase_eq_nil (h3 rfl)
      subst this
      obtain ⟨f, hf⟩ := hend true
      refine ⟨f, ?_⟩
      simp only [semi, parseLoopT]
      rw [opcode_opens _ ix i h1]
      show parseLoopT (t ++ _) _ = _
      rw [parseLoop_append, parseLoop_wellNested t wt]
      exact hf
    | some o =>
      obtain ⟨f, hf⟩ := hend false
      refine ⟨f, ?_⟩
      simp only [semi, parseLoopT]
      rw [opcode_opens _ ix i h1]
      show parseLoopT (t ++ _) _ = _
      rw [parseLoop_append, parseLoop_wellNested t wt]
      show parseLoopT (.leaf o.1 (.opcode o.2) (el ++ _)) ⟨new, [⟨ix, i, none, t, .nil⟩], true⟩ = _
      simp only [parseLoopT]
      rw [opcode_else _ ⟨ix, i, none, t, .nil⟩ [] rfl o.1 o.2 (h2 o.2 rfl)]
      show parseLoopT (el ++ _) ⟨new, [⟨ix, i, some o, t, .nil⟩], false⟩ = _
      rw [parseLoop_append, parseLoop_wellNested el we]
      exact hf

theorem parseOpIf_semi (t : TProg) (hw : WellNested (erase t)) : parseOpIfT (semi t) = .ok t := by
  obtain ⟨f, hf⟩ := parse_semi t hw .nil true
  unfold parseOpIfT
  rw [hf]
  rfl

theorem parseList_blocks (t : TProg) (hw : WellNested (erase t)) :
    parseListT (Spec.Text.blocks t) = .ok (semi t) := by
  induction t with
  | nil => rfl
  | leaf x l rest ih => simp only [Spec.Text.blocks, parseListT, semi]; rw [ih hw.2.2.2]; rfl
  | scriptIf ix i t e el ex en rest iht ihe ihr =>
    obtain ⟨h1, h2, h3, h4, wt, we, wr⟩ := hw
    cases e with
    | none =>
      simp only [Spec.Text.blocks, parseListT, semi]
      rw [iht wt, ihr wr]
      show Except.map _ (Except.bind (parseOpIfT (semi t)) _) = _
      rw [parseOpIf_semi t wt]
      rfl
    | some o =>
      simp only [Spec.Text.blocks, parseListT, semi]
      rw [iht wt, ihe we, ihr wr]
      show Except.map _ (Except.bind (parseOpIfT (semi t)) _) = _
      rw [parseOpIf_semi t wt]
      show Except.map _ (Except.map _ (Except.map _ (Except.bind (parseOpIfT (semi el)) _))) = _
      rw [parseOpIf_semi el we]
      rfl

theorem source_blocks (t : TProg) (hw : WellNested (erase t)) : source (Spec.Text.blocks t) = statements t := by
  induction t with
  | nil => rfl
  | leaf x l rest ih => simp only [Spec.Text.blocks, source, statements]; rw [ih hw.2.2.2]
  | scriptIf ix i t e el ex en rest iht ihe ihr =>
    obtain ⟨h1, h2, h3, h4, wt, we, wr⟩ := hw
    cases e with
    | none =>
      have := erase_eq_nil (h3 rfl)
      subst this
      simp [Spec.Text.blocks, source, statements, iht wt, ihr wr]
    | some o => simp [Spec.Text.blocks, source, statements, iht wt, ihe we, ihr wr]

/-! ## Structuring does not look at texts -/

def eraseOpen (o : TOpenIf) : OpenIf := ⟨o.ifOpcode, o.elseOpcode.map Prod.snd, erase o.thenStmts, erase o.elseStmts⟩

def eraseState (s : TIfState) : IfState := ⟨erase s.newStmts, s.ifStack.map eraseOpen, s.isThen⟩

theorem erase_place (s : TIfState) (p : TProg) : eraseState (s.place p) = (eraseState s).place (erase p) := by
  obtain ⟨new, st, b⟩ := s
  unfold TIfState.place IfState.place eraseState
  cases st with
  | nil => simp [erase_append]
  | cons top more => cases b <;> simp [erase_append, eraseOpen]

theorem erase_opcode (s : TIfState) (x : String) (o : OpcodeStmt) :
    (s.opcode x o).map eraseState = (eraseState s).opcode o := by
  by_cases h1 : opens (.opcode o) = true
  · rw [opcode_opens s x o h1, MacroProofs.opcode_opens _ o h1]; rfl
  by_cases h2 : isElse (.opcode o) = true
  · obtain ⟨new, st, b⟩ := s
    cases st with
    | nil =>
      obtain ⟨hd, i, ou⟩ := o
      unfold isElse at h2
      split at h2
      · next heq => cases heq; rfl
      · cases h2
    | cons top more =>
      rw [opcode_else _ top more rfl x o h2, MacroProofs.opcode_else _ (eraseOpen top) (more.map eraseOpen) rfl o h2]
      rfl
  by_cases h3 : closes (.opcode o) = true
  · obtain ⟨new, st, b⟩ := s
    cases st with
    | nil =>
      obtain ⟨hd, i, ou⟩ := o
      unfold closes at h3
      split at h3
      · next heq => cases heq; rfl
      · cases h3
    | cons top more =>
      rw [opcode_closes _ top more rfl x o h3,
        MacroProofs.opcode_closes _ (eraseOpen top) (more.map eraseOpen) rfl o h3]
      simp only [Except.map]
      rw [erase_place]; rfl
  simp only [Bool.not_eq_true] at h1 h2 h3
  rw [opcode_other s x o h1 h2 h3, MacroProofs.opcode_other _ o h1 h2 h3]
  simp only [Except.map]
  rw [erase_place]; rfl

theorem erase_loop (p : TProg) (s : TIfState) :
    (parseLoopT p s).map eraseState = parseLoop (erase p) (eraseState s) := by
  induction p generalizing s with
  | nil => rfl
  | leaf x l rest ih =>
    cases l with
    | opcode o =>
      simp only [parseLoopT, erase, parseLoop]
      rw [← erase_opcode s x o]
      cases s.opcode x o with
      | error e => rfl
      | ok s' => exact ih s'
    | push _ _ => simp only [parseLoopT, erase, parseLoop]; rw [ih, erase_place]; rfl
    | forLoop => simp only [parseLoopT, erase, parseLoop]; rw [ih, erase_place]; rfl
    | rustIf => simp only [parseLoopT, erase, parseLoop]; rw [ih, erase_place]; rfl
  | scriptIf ix i t e el ex en rest _ _ ih =>
    simp only [parseLoopT, erase, parseLoop]; rw [ih, erase_place]; rfl

theorem erase_opIf (p : TProg) : (parseOpIfT p).map erase = parseOpIf (erase p) := by
  unfold parseOpIfT parseOpIf
  have h := erase_loop p ⟨.nil, [], true⟩
  have h0 : eraseState ⟨.nil, [], true⟩ = ⟨.nil, [], true⟩ := rfl
  rw [h0] at h
  rw [← h]
  cases parseLoopT p ⟨.nil, [], true⟩ with
  | error e => rfl
  | ok s =>
    obtain ⟨new, st, b⟩ := s
    cases st <;> rfl

theorem erase_list (s : TSyn) : (parseListT s).map erase = parseList (eraseBody s) := by
  induction s with
  | nil => rfl
  | leaf x l rest ih =>
    simp only [parseListT, eraseBody, parseList]
    rw [← ih]
    cases parseListT rest <;> rfl
  | block inner rest ih1 ih2 =>
    simp only [parseListT, eraseBody, parseList]
    rw [← ih1, ← ih2]
    cases parseListT inner with
    | error e => rfl
    | ok p =>
      simp only [Except.map, Except.bind]
      rw [← erase_opIf]
      cases parseOpIfT p with
      | error e => rfl
      | ok q =>
        simp only [Except.map]
        cases parseListT rest with
        | error e => rfl
        | ok r => simp only [erase_append]

theorem erase_stmts (s : TSyn) : (parseStmtsT s).map erase = parseStmts (eraseBody s) := by
  unfold parseStmtsT parseStmts
  rw [← erase_list]
  cases parseListT s with
  | error e => rfl
  | ok p => exact erase_opIf p

/-! ## Where the statements of a tree come from; brackets -/

/-- Brackets of a parsed tree have their texts formatted. -/
def Brackets : TProg → Prop
  | .nil => True
  | .leaf _ _ rest => Brackets rest
  | .scriptIf _ i t e el _ en rest =>
    opens (.opcode i) = true ∧ (∀ o, e = some o → isElse (.opcode o.2) = true) ∧ closes (.opcode en) = true ∧
      Brackets t ∧ Brackets el ∧ Brackets rest

theorem brackets_append {p q : TProg} (hp : Brackets p) (hq : Brackets q) : Brackets (p ++ q) := by
  show Brackets (p.append q)
  induction p with
  | nil => exact hq
  | leaf x l rest ih => exact ih hp
  | scriptIf ix i t e el ex en rest _ _ ih =>
    exact ⟨hp.1, hp.2.1, hp.2.2.1, hp.2.2.2.1, hp.2.2.2.2.1, ih hp.2.2.2.2.2⟩

theorem statements_append (p q : TProg) : statements (p ++ q) = statements p ++ statements q := by
  show statements (p.append q) = _
  induction p <;> simp_all [TProg.append, statements]

def openStatements (o : TOpenIf) : List (String × Leaf) :=
  (o.ifText, .opcode o.ifOpcode) :: (statements o.thenStmts ++
    (o.elseOpcode.toList.map fun p => (p.1, Leaf.opcode p.2)) ++ statements o.elseStmts)

/-- What is known of the state of `parse_op_if`. -/
structure Inv (S : List (String × Leaf)) (s : TIfState) : Prop where
  new : Brackets s.newStmts ∧ ∀ x ∈ statements s.newStmts, x ∈ S
  stack : ∀ o ∈ s.ifStack, opens (.opcode o.ifOpcode) = true ∧
    (∀ e, o.elseOpcode = some e → isElse (.opcode e.2) = true) ∧ Brackets o.thenStmts ∧ Brackets o.elseStmts ∧
    ∀ x ∈ openStatements o, x ∈ S

theorem inv_place {S : List (String × Leaf)} {s : TIfState} (h : Inv S s) {p : TProg} (hp : Brackets p)
    (hx : ∀ x ∈ statements p, x ∈ S) : Inv S (s.place p) := by
  obtain ⟨new, st, b⟩ := s
  cases st with
  | nil =>
    exact ⟨⟨brackets_append h.new.1 hp, fun x hm => by
      simp only [TIfState.place, statements_append, List.mem_append] at hm
      exact hm.elim (h.new.2 x) (hx x)⟩, fun o ho => by cases ho⟩
  | cons top more =>
    obtain ⟨t1, t2, t3, t4, t5⟩ := h.stack top (by simp)
    cases b with
    | true =>
      refine ⟨h.new, fun o ho => ?_⟩
      simp only [TIfState.place, if_true, List.mem_cons] at ho
      rcases ho with rfl | ho
      · refine ⟨t1, t2, brackets_append t3 hp, t4, fun x hm => ?_⟩
        simp only [openStatements, statements_append, List.mem_cons, List.mem_append] at hm t5
        rcases hm with h | ((h | h) | h) | h
        · exact t5 x (Or.inl h)
        · exact t5 x (Or.inr (Or.inl (Or.inl h)))
        · exact hx x h
        · exact t5 x (Or.inr (Or.inl (Or.inr h)))
        · exact t5 x (Or.inr (Or.inr h))
      · exact h.stack o (by simp [ho])
    | false =>
      refine ⟨h.new, fun o ho => ?_⟩
      simp only [TIfState.place, Bool.false_eq_true, if_false, List.mem_cons] at ho
      rcases ho with rfl | ho
      · refine ⟨t1, t2, t3, brackets_append t4 hp, fun x hm => ?_⟩
        simp only [openStatements, statements_append, List.mem_cons, List.mem_append] at hm t5
        rcases hm with h | (h | h) | h | h
        · exact t5 x (Or.inl h)
        · exact t5 x (Or.inr (Or.inl (Or.inl h)))
        · exact t5 x (Or.inr (Or.inl (Or.inr h)))
        · exact t5 x (Or.inr (Or.inr h))
        · exact hx x h
      · exact h.stack o (by simp [ho])

theorem inv_opcode {S : List (String × Leaf)} {s s' : TIfState} (h : Inv S s) {x : String} {o : OpcodeStmt}
    (hx : (x, Leaf.opcode o) ∈ S) (hs : s.opcode x o = .ok s') : Inv S s' := by
  by_cases h1 : opens (.opcode o) = true
  · rw [opcode_opens s x o h1] at hs
    cases hs
    refine ⟨h.new, fun p hp => ?_⟩
    simp only [List.mem_cons] at hp
    rcases hp with rfl | hp
    · refine ⟨h1, by simp, trivial, trivial, fun y hy => ?_⟩
      simp only [openStatements, statements, Option.toList_none, List.map_nil, List.append_nil,
        List.mem_singleton] at hy
      exact hy ▸ hx
    · exact h.stack p hp
  by_cases h2 : isElse (.opcode o) = true
  · obtain ⟨new, st, b⟩ := s
    cases st with
    | nil =>
      obtain ⟨hd, i, ou⟩ := o
      unfold isElse at h2
      split at h2
      · next heq => cases heq; cases hs
      · cases h2
    | cons top more =>
      rw [opcode_else _ top more rfl x o h2] at hs
      cases hs
      obtain ⟨t1, t2, t3, t4, t5⟩ := h.stack top (by simp)
      refine ⟨h.new, fun p hp => ?_⟩
      simp only [List.mem_cons] at hp
      rcases hp with rfl | hp
      · refine ⟨t1, by rintro e ⟨⟩; exact h2, t3, t4, fun y hy => ?_⟩
        simp only [openStatements, List.mem_cons, List.mem_append, Option.toList_some, List.map_cons, List.map_nil,
          List.not_mem_nil, or_false] at hy t5
        rcases hy with h | (h | h) | h
        · exact t5 y (Or.inl h)
        · exact t5 y (Or.inr (Or.inl (Or.inl h)))
        · exact h ▸ hx
        · exact t5 y (Or.inr (Or.inr h))
      · exact h.stack p (by simp [hp])
  by_cases h3 : closes (.opcode o) = true
  · obtain ⟨new, st, b⟩ := s
    cases st with
    | nil =>
      obtain ⟨hd, i, ou⟩ := o
      unfold closes at h3
      split at h3
      · next heq => cases heq; cases hs
      · cases h3
    | cons top more =>
      rw [opcode_closes _ top more rfl x o h3] at hs
      cases hs
      obtain ⟨t1, t2, t3, t4, t5⟩ := h.stack top (by simp)
      refine inv_place (s := ⟨new, more, b⟩) ⟨h.new, fun p hp => h.stack p (List.mem_cons_of_mem _ hp)⟩
        (show Brackets (.scriptIf top.ifText top.ifOpcode top.thenStmts top.elseOpcode top.elseStmts x o .nil) from
          ⟨t1, t2, h3, t3, t4, trivial⟩) fun y hy => ?_
      simp only [statements, List.mem_append, List.mem_cons, List.not_mem_nil, or_false] at hy
      simp only [openStatements, List.mem_cons, List.mem_append] at t5
      rcases hy with (h | h | h | h) | h
      · exact t5 y (Or.inl h)
      · exact t5 y (Or.inr (Or.inl (Or.inl h)))
      · exact t5 y (Or.inr (Or.inl (Or.inr h)))
      · exact t5 y (Or.inr (Or.inr h))
      · exact h ▸ hx
  simp only [Bool.not_eq_true] at h1 h2 h3
  rw [opcode_other s x o h1 h2 h3] at hs
  cases hs
  exact inv_place h trivial fun y hy => by
    simp only [statements, List.mem_singleton] at hy
    exact hy ▸ hx

theorem inv_loop {S : List (String × Leaf)} {p : TProg} {s s' : TIfState} (h : Inv S s) (hp : Brackets p)
    (hx : ∀ x ∈ statements p, x ∈ S) (hs : parseLoopT p s = .ok s') : Inv S s' := by
  induction p generalizing s with
  | nil => cases hs; exact h
  | leaf x l rest ih =>
    have hr : ∀ y ∈ statements rest, y ∈ S := fun y hy => hx y (by simp [statements, hy])
    have hl : ∀ y ∈ statements (.leaf x l .nil), y ∈ S := fun y hy => by
      simp only [statements, List.mem_singleton] at hy
      exact hx y (by simp [statements, hy])
    cases l with
    | opcode o =>
      simp only [parseLoopT] at hs
      cases ho : s.opcode x o with
      | error e => rw [ho] at hs; cases hs
      | ok s1 =>
        rw [ho] at hs
        exact ih (inv_opcode h (hx _ (by simp [statements])) ho) hp hr hs
    | push _ _ => exact ih (inv_place (p := .leaf x _ .nil) h trivial hl) hp hr hs
    | forLoop => exact ih (inv_place (p := .leaf x _ .nil) h trivial hl) hp hr hs
    | rustIf => exact ih (inv_place (p := .leaf x _ .nil) h trivial hl) hp hr hs
  | scriptIf ix i t e el ex en rest _ _ ih =>
    simp only [parseLoopT] at hs
    refine ih (inv_place (p := .scriptIf ix i t e el ex en .nil) h
      ⟨hp.1, hp.2.1, hp.2.2.1, hp.2.2.2.1, hp.2.2.2.2.1, trivial⟩ fun y hy => hx y ?_)
      hp.2.2.2.2.2 (fun y hy => hx y (by simp [statements, hy])) hs
    simp only [statements, List.mem_append, List.mem_cons, List.not_mem_nil, or_false] at hy ⊢
    tauto

theorem inv_opIf {S : List (String × Leaf)} {p q : TProg} (hp : Brackets p) (hx : ∀ x ∈ statements p, x ∈ S)
    (h : parseOpIfT p = .ok q) : Brackets q ∧ ∀ x ∈ statements q, x ∈ S := by
  unfold parseOpIfT at h
  cases hl : parseLoopT p ⟨.nil, [], true⟩ with
  | error e => rw [hl] at h; cases h
  | ok s =>
    rw [hl] at h
    have hi : Inv S s := inv_loop (s := ⟨.nil, [], true⟩) ⟨⟨trivial, by simp [statements]⟩, by simp⟩ hp hx hl
    obtain ⟨new, st, b⟩ := s
    cases st with
    | nil => cases h; exact hi.new
    | cons _ _ => cases h

theorem inv_list {s : TSyn} {p : TProg} (h : parseListT s = .ok p) :
    Brackets p ∧ ∀ x ∈ statements p, x ∈ source s := by
  induction s generalizing p with
  | nil => cases h; exact ⟨trivial, by simp [statements]⟩
  | leaf x l rest ih =>
    simp only [parseListT] at h
    cases hr : parseListT rest with
    | error e => rw [hr] at h; cases h
    | ok r =>
      rw [hr] at h
      cases h
      obtain ⟨h1, h2⟩ := ih hr
      refine ⟨h1, fun y hy => ?_⟩
      simp only [statements, source, List.mem_cons] at hy ⊢
      exact hy.imp id (h2 y)
  | block inner rest ih1 ih2 =>
    simp only [parseListT] at h
    cases hi : parseListT inner with
    | error e => rw [hi] at h; cases h
    | ok i =>
      cases hq : parseOpIfT i with
      | error e => rw [hi] at h; simp only [Except.bind] at h; rw [hq] at h; cases h
      | ok q =>
        cases hr : parseListT rest with
        | error e => rw [hi] at h; simp only [Except.bind] at h; rw [hq, hr] at h; cases h
        | ok r =>
          rw [hi] at h; simp only [Except.bind] at h; rw [hq, hr] at h
          cases h
          obtain ⟨a1, a2⟩ := ih1 hi
          obtain ⟨b1, b2⟩ := inv_opIf a1 a2 hq
          obtain ⟨c1, c2⟩ := ih2 hr
          refine ⟨brackets_append b1 c1, fun y hy => ?_⟩
          rw [statements_append] at hy
          simp only [source, List.mem_append] at hy ⊢
          exact hy.imp (b2 y) (c2 y)

theorem inv_stmts {s : TSyn} {t : TProg} (h : parseStmtsT s = .ok t) :
    Brackets t ∧ ∀ x ∈ statements t, x ∈ source s := by
  unfold parseStmtsT at h
  cases hl : parseListT s with
  | error e => rw [hl] at h; cases h
  | ok p =>
    rw [hl] at h
    obtain ⟨h1, h2⟩ := inv_list hl
    exact inv_opIf h1 h2 h

/-! ## Formatting -/

theorem dropFirst_indent (l : List Char) : dropFirstIndent ("\n    ".toList ++ l) = l := rfl

theorem dropIndents_line (l r : List Char) (h : '\n' ∉ l) : dropIndents (l ++ r) = l ++ dropIndents r := by
  induction l with
  | nil => rfl
  | cons c l ih =>
    simp only [List.mem_cons, not_or] at h
    rw [List.cons_append, dropIndents, ih h.2]
    · rfl
    · intro rest hc
      exact absurd hc.symm (by simpa using h.1)

theorem dropIndents_indent (l : List Char) : dropIndents ("\n    ".toList ++ l) = '\n' :: dropIndents l := rfl

theorem dedent_indented (ls : List String) (h : ∀ l ∈ ls, '\n' ∉ l.toList) (hne : ls ≠ []) :
    dedent (indented ls) = "\n".intercalate ls := by
  cases ls with
  | nil => exact absurd rfl hne
  | cons l ls =>
    have hind : ∀ ls : List String, (indented ls).toList = (ls.map fun l => "\n    ".toList ++ l.toList).flatten := by
      intro ls
      induction ls with
      | nil => rfl
      | cons l ls ih => simp [indented, String.join_cons] at ih ⊢; exact ih
    have htail : ∀ ls : List String, (∀ l ∈ ls, '\n' ∉ l.toList) →
        dropIndents (ls.map fun l => "\n    ".toList ++ l.toList).flatten =
          (ls.map fun l => '\n' :: l.toList).flatten := by
      intro ls hls
      induction ls with
      | nil => rfl
      | cons l ls ih =>
        rw [List.map_cons, List.flatten_cons, List.append_assoc, dropIndents_indent,
          dropIndents_line _ _ (hls l (by simp)), ih fun x hx => hls x (by simp [hx])]
        simp
    have hint : ∀ (ls : List String) (l : String), ("\n".intercalate (l :: ls)).toList =
        l.toList ++ (ls.map fun l => '\n' :: l.toList).flatten := by
      intro ls
      induction ls with
      | nil => intro l; simp
      | cons m ls ih =>
        intro l
        rw [String.intercalate_cons_cons, String.toList_append, String.toList_append, ih m]
        simp
    apply String.toList_inj.mp
    unfold dedent
    rw [String.toList_ofList, hind, List.map_cons, List.flatten_cons, List.append_assoc, dropFirst_indent,
      dropIndents_line _ _ (h l (by simp)), htail ls fun x hx => h x (by simp [hx]), hint]

theorem keepPieces_ok (b a : String) (xs : List String) :
    keepPieces (b :: xs ++ [a]) = .ok (xs.map dedent) := by
  unfold keepPieces
  rw [List.cons_append, List.drop_one, List.tail_cons, List.map_append]
  cases h : xs.map dedent ++ [a].map dedent with
  | nil => simp at h
  | cons x ys =>
    have : (x :: ys).dropLast = xs.map dedent := by rw [← h]; simp
    simp only [this]

theorem formatStmts_ok {fmt : Rustfmt} {lines : Nat → String → List String} {stmts : List String}
    (h : FormatsEach fmt lines stmts) : formatStmts fmt maxLineWidths stmts =
      .ok ([30, 40, 60, 80].map fun w => stmts.map fun x => "\n".intercalate (lines w x)) := by
  unfold formatStmts maxLineWidths
  have hf : ∀ w ∈ [30, 40, 60, 80], ∃ p, fmt w stmts = .ok p ∧
      keepPieces p = .ok (stmts.map fun x => "\n".intercalate (lines w x)) := by
    intro w hw
    obtain ⟨h1, b, a, hb⟩ := h w hw
    refine ⟨_, hb, ?_⟩
    rw [keepPieces_ok, List.map_map]
    congr 1
    exact List.map_congr_left fun x hx => dedent_indented _ (h1 x hx).2 (h1 x hx).1
  clear h
  generalize [30, 40, 60, 80] = widths at hf
  have key : ∃ ps, collect (fun w => lift (fmt w stmts)) widths = .ok ps ∧ collect keepPieces ps =
      .ok (widths.map fun w => stmts.map fun x => "\n".intercalate (lines w x)) := by
    induction widths with
    | nil => exact ⟨[], rfl, rfl⟩
    | cons w ws ih =>
      obtain ⟨p, hp, hk⟩ := hf w (by simp)
      obtain ⟨ps, h1, h2⟩ := ih fun x hx => hf x (by simp [hx])
      refine ⟨p :: ps, ?_, ?_⟩
      · simp only [collect]
        rw [hp, h1]; rfl
      · simp only [collect]
        rw [hk, h2]; rfl
  obtain ⟨ps, h1, h2⟩ := key
  rw [h1]
  exact h2

/-! ## Generation -/

theorem op_emit {c : Opcode} {inp : Option (List OpcodeInput)} {out : Option (List String)} {g g' : Gen}
    {e : List Emit} (h : runOpcode ⟨.op c, inp, out⟩ g = .ok (e, g')) : e.map Emit.op = [.code c] := by
  unfold runOpcode at h
  split at h
  · next heq =>
    cases heq
    obtain ⟨_, _, h⟩ := Res.bind_eq_ok.mp h
    obtain ⟨_, _, h⟩ := Res.bind_eq_ok.mp h
    obtain ⟨_, _, h⟩ := Res.bind_eq_ok.mp h
    cases h
    rfl
  · next heq =>
    cases heq
    obtain ⟨_, _, h⟩ := Res.bind_eq_ok.mp h
    obtain ⟨_, _, h⟩ := Res.bind_eq_ok.mp h
    obtain ⟨_, _, h⟩ := Res.bind_eq_ok.mp h
    cases h
    rfl
  · next heq => cases heq; exact TypeProofs.runPickRoll_emit h
  · next heq => cases heq; exact TypeProofs.runPickRoll_emit h
  · next heq =>
    cases heq
    split at h
    · exact TypeProofs.runOther_emit h
    · cases h
  · next heq => cases heq
  · next heq => cases heq
  · next heq => cases heq
  · next heq => cases heq

theorem depth_emit {name : String} {k : Int} {stmt : OpcodeStmt} {g g' : Gen} {e : List Emit}
    (h : runDepthOf name k stmt g = .ok (e, g')) : ∃ n, e.map Emit.op = [.pushInteger n] := by
  unfold runDepthOf at h
  obtain ⟨d, _, h⟩ := Res.bind_eq_ok.mp h
  generalize Integer.new (d : Int) = r at h
  cases r with
  | error _ => cases h
  | ok d =>
    dsimp only at h
    generalize Integer.new (d + k) = r at h
    by_cases hc : ¬ InI32 (d + k)
    · rw [if_pos hc] at h; cases h
    · rw [if_neg hc] at h
      cases r with
      | error _ => cases h
      | ok i => cases h; exact ⟨_, rfl⟩

theorem transmute_emit {stmt : OpcodeStmt} {g g' : Gen} {e : List Emit}
    (h : runTransmute stmt g = .ok (e, g')) : e = [] := by
  unfold runTransmute at h
  (repeat' split at h) <;>
    first
    | cases h
    | (obtain ⟨_, _, h⟩ := Res.bind_eq_ok.mp h; cases h; rfl)

theorem opcode_becomes {o : OpcodeStmt} {g g' : Gen} {e : List Emit} (h : runOpcode o g = .ok (e, g')) :
    List.Forall₂ (fun l em => Becomes l em.op) (if silent (.opcode o) then [] else [Leaf.opcode o]) e := by
  obtain ⟨hd, inp, out⟩ := o
  have one : ∀ {l : Leaf} {x : Op Bytes} {e : List Emit}, e.map Emit.op = [x] → Becomes l x →
      List.Forall₂ (fun l em => Becomes l em.op) [l] e := by
    intro l x e he hb
    cases e with
    | nil => cases he
    | cons a as =>
      cases as with
      | nil =>
        simp only [List.map_cons, List.map_nil, List.cons.injEq, and_true] at he
        exact .cons (he ▸ hb) .nil
      | cons _ _ => simp at he
  cases hd with
  | op c => exact one (op_emit h) rfl
  | depthOf =>
    unfold runOpcode at h
    dsimp only at h
    split at h
    · obtain ⟨n, hn⟩ := depth_emit h
      exact one hn ⟨n, rfl⟩
    · cases h
  | depthOfOffset =>
    unfold runOpcode at h
    dsimp only at h
    split at h
    · obtain ⟨n, hn⟩ := depth_emit h
      exact one hn ⟨n, rfl⟩
    · cases h
  | transmute =>
    have := transmute_emit (h : runTransmute _ g = _)
    subst this
    exact .nil
  | unknown => cases h

theorem leaf_becomes {l : Leaf} {g g' : Gen} {e : List Emit} (h : runLeaf l g = .ok (e, g')) :
    List.Forall₂ (fun l em => Becomes l em.op) (if silent l then [] else [l]) e ∧ l.takesLine = !silent l := by
  cases l with
  | push op name => cases h; exact ⟨.cons rfl .nil, rfl⟩
  | opcode o =>
    refine ⟨opcode_becomes h, ?_⟩
    obtain ⟨hd, inp, out⟩ := o
    cases hd <;> rfl
  | forLoop => cases h
  | rustIf => cases h

theorem silent_of_opens {o : OpcodeStmt} (h : opens (.opcode o) = true) : silent (.opcode o) = false := by
  obtain ⟨hd, i, ou⟩ := o; cases hd <;> first | rfl | cases h
theorem silent_of_else {o : OpcodeStmt} (h : isElse (.opcode o) = true) : silent (.opcode o) = false := by
  obtain ⟨hd, i, ou⟩ := o; cases hd <;> first | rfl | cases h
theorem silent_of_closes {o : OpcodeStmt} (h : closes (.opcode o) = true) : silent (.opcode o) = false := by
  obtain ⟨hd, i, ou⟩ := o; cases hd <;> first | rfl | cases h

/-- A stretch of statements `xs` was turned into `ops`, taking the texts from number `idx` to number `idx'`. -/
structure Piece (c : Texts) (xs : List (String × Leaf)) (ops : List Tagged) (idx idx' : Nat) : Prop where
  next : idx' = idx + xs.length
  become : List.Forall₂ (fun x (op : Tagged) => Becomes x.2 op.op) xs ops
  texts : c.debug = true → ops.map Tagged.srcCode = (List.range' idx xs.length).map (formattedAt c.lines c.widths)
  off : c.debug = false → ∀ op ∈ ops, op.srcCode = []

theorem Piece.append {c : Texts} {xs ys : List (String × Leaf)} {as bs : List Tagged} {i j k : Nat}
    (h1 : Piece c xs as i j) (h2 : Piece c ys bs j k) : Piece c (xs ++ ys) (as ++ bs) i k := by
  refine ⟨by rw [h2.next, h1.next, List.length_append]; omega, List.rel_append h1.become h2.become,
    fun hd => ?_, fun hd op ho => ?_⟩
  · rw [List.map_append, h1.texts hd, h2.texts hd, h1.next, List.length_append, ← List.range'_append_1,
      List.map_append]
  · rcases List.mem_append.mp ho with h | h
    · exact h1.off hd op h
    · exact h2.off hd op h

theorem Piece.nil (c : Texts) (i : Nat) : Piece c [] [] i i :=
  ⟨rfl, .nil, fun _ => rfl, fun _ op h => by cases h⟩

theorem piece_tag {c : Texts} {l : Leaf} {x : String} {g' : Gen} {idx idx' : Nat} {ops : List Tagged}
    {r : Res String (List Emit × Gen)} (hb : ∀ e g', r = .ok (e, g') →
      List.Forall₂ (fun l em => Becomes l em.op) (if silent l then [] else [l]) e ∧ l.takesLine = !silent l)
    (h : tagWith c l.takesLine idx r = .ok (ops, g', idx')) :
    Piece c ([(x, l)].filter fun x => !silent x.2) ops idx idx' := by
  unfold tagWith at h
  obtain ⟨⟨e, g1⟩, h1, h⟩ := Res.bind_eq_ok.mp h
  simp only [Res.ok.injEq, Prod.mk.injEq] at h
  obtain ⟨rfl, rfl, rfl⟩ := h
  obtain ⟨b1, b2⟩ := hb e g1 h1
  rw [b2]
  cases hs : silent l with
  | true =>
    rw [hs] at b1
    cases b1
    simp only [hs, List.filter_cons, List.filter_nil, Bool.not_true, List.map_nil, Bool.false_eq_true, if_false]
    exact Piece.nil c idx
  | false =>
    rw [hs] at b1
    cases b1 with
    | cons hem hnil =>
      cases hnil
      simp only [hs, List.filter_cons, List.filter_nil, Bool.not_false, if_true, List.map_cons, List.map_nil]
      refine ⟨rfl, .cons ?_ .nil, fun hd => ?_, fun hd op ho => ?_⟩
      · unfold makeTaggedOp; split <;> exact hem
      · simp [makeTaggedOp, hd]
      · simp only [List.mem_singleton] at ho
        subst ho
        simp [makeTaggedOp, hd]

theorem piece_op {c : Texts} {o : OpcodeStmt} {x : String} {g g' : Gen} {idx idx' : Nat} {ops : List Tagged}
    (hs : silent (.opcode o) = false)
    (h : tagWith c (Leaf.opcode o).takesLine idx (runOpcode o g) = .ok (ops, g', idx')) :
    Piece c [(x, .opcode o)] ops idx idx' := by
  have := piece_tag (x := x) (l := .opcode o) (r := runLeaf (.opcode o) g) (fun e g' h => leaf_becomes h) h
  simpa [List.filter_cons, hs] using this

theorem texts_loud (t : TProg) (hb : Brackets t)
    (hl : ∀ x ∈ statements t, x.2.takesLine = !silent x.2) : t.texts = (spoken t).map Prod.fst := by
  unfold spoken
  induction t with
  | nil => rfl
  | leaf x l rest ih =>
    have h1 := hl (x, l) (by simp [statements])
    simp only [TProg.texts, statements, List.filter_cons]
    rw [ih hb fun y hy => hl y (by simp [statements, hy])]
    dsimp only at h1
    rw [h1]
    split <;> simp
  | scriptIf ix i t e el ex en rest iht ihe ihr =>
    obtain ⟨b1, b2, b3, b4, b5, b6⟩ := hb
    simp only [TProg.texts]
    rw [iht b4 fun y hy => hl y (by simp [statements, hy]), ihe b5 fun y hy => hl y (by simp [statements, hy]),
      ihr b6 fun y hy => hl y (by simp [statements, hy])]
    have s1 := silent_of_opens b1
    have s3 := silent_of_closes b3
    cases e with
    | none => simp [statements, List.filter_append, s1, s3]
    | some o =>
      have s2 := silent_of_else (b2 o rfl)
      simp [statements, List.filter_append, s1, s2, s3]

theorem piece_prog {c : Texts} {t : TProg} (hb : Brackets t) {g g' : Gen} {idx idx' : Nat} {ops : List Tagged}
    (h : runProgT c t g idx = .ok (ops, g', idx')) : Piece c (spoken t) ops idx idx' ∧
      ∀ x ∈ statements t, x.2.takesLine = !silent x.2 := by
  unfold spoken
  induction t generalizing g g' idx idx' ops with
  | nil => cases h; exact ⟨Piece.nil c _, by simp [statements]⟩
  | leaf x l rest ih =>
    simp only [runProgT] at h
    obtain ⟨⟨e1, g1, i1⟩, h1, h⟩ := Res.bind_eq_ok.mp h
    obtain ⟨⟨e2, g2, i2⟩, h2, h⟩ := Res.bind_eq_ok.mp h
    simp only [Res.ok.injEq, Prod.mk.injEq] at h
    obtain ⟨rfl, rfl, rfl⟩ := h
    have p1 := piece_tag (x := x) (fun e g' h => leaf_becomes h) h1
    obtain ⟨p2, q2⟩ := ih hb h2
    refine ⟨?_, fun y hy => ?_⟩
    · have := p1.append p2
      rwa [← List.filter_append] at this
    · simp only [statements, List.mem_cons] at hy
      rcases hy with rfl | hy
      · unfold tagWith at h1
        obtain ⟨⟨e, g3⟩, h3, _⟩ := Res.bind_eq_ok.mp h1
        exact (leaf_becomes h3).2
      · exact q2 y hy
  | scriptIf ix i t e el ex en rest iht ihe ihr =>
    obtain ⟨b1, b2, b3, b4, b5, b6⟩ := hb
    have s1 := silent_of_opens b1
    have s3 := silent_of_closes b3
    simp only [runProgT] at h
    obtain ⟨⟨e1, g1, i1⟩, h1, h⟩ := Res.bind_eq_ok.mp h
    obtain ⟨name, h0, h⟩ := Res.bind_eq_ok.mp h
    obtain ⟨⟨e2, g2, i2⟩, h2, h⟩ := Res.bind_eq_ok.mp h
    obtain ⟨⟨e3, g3, i3⟩, h3, h⟩ := Res.bind_eq_ok.mp h
    obtain ⟨⟨e4, g4, i4⟩, h4, h⟩ := Res.bind_eq_ok.mp h
    obtain ⟨⟨e5, g5, i5⟩, h5, h⟩ := Res.bind_eq_ok.mp h
    obtain ⟨states, hm, h⟩ := Res.bind_eq_ok.mp h
    obtain ⟨⟨e6, g6, i6⟩, h6, h⟩ := Res.bind_eq_ok.mp h
    simp only [Res.ok.injEq, Prod.mk.injEq] at h
    obtain ⟨rfl, rfl, rfl⟩ := h
    have p1 := piece_op (x := ix) s1 h1
    obtain ⟨p2, q2⟩ := iht b4 h2
    obtain ⟨p4, q4⟩ := ihe b5 h4
    have p5 := piece_op (x := ex) s3 h5
    obtain ⟨p6, q6⟩ := ihr b6 h6
    have tl : ∀ o : OpcodeStmt, (Leaf.opcode o).takesLine = !silent (.opcode o) := by
      intro o; obtain ⟨hd, i, ou⟩ := o; cases hd <;> rfl
    have p3 : Piece c (e.toList.map fun p => (p.1, Leaf.opcode p.2)) e3 i2 i3 := by
      cases e with
      | none => cases h3; exact Piece.nil c _
      | some o => exact piece_op (x := o.1) (silent_of_else (b2 o rfl)) h3
    refine ⟨?_, fun y hy => ?_⟩
    · have := ((((p1.append p2).append p3).append p4).append p5).append p6
      have hf : List.filter (fun x : String × Leaf => !silent x.2) (e.toList.map fun p => (p.1, Leaf.opcode p.2)) =
          e.toList.map fun p => (p.1, Leaf.opcode p.2) := by
        cases e with
        | none => rfl
        | some o => simp [silent_of_else (b2 o rfl)]
      simpa [statements, List.filter_cons, List.filter_append, s1, s3, hf] using this
    · simp only [statements, List.mem_append, List.mem_cons, List.mem_map] at hy
      rcases hy with (rfl | hy | ⟨o, _, rfl⟩ | hy) | rfl | hy
      · exact tl i
      · exact q2 y hy
      · exact tl o.2
      · exact q4 y hy
      · exact tl en
      · exact q6 y hy

/-! ## Generation does not look at texts -/

/-- What is recorded with an operation besides its text. -/
def names (x : Tagged) : Op Bytes × Option (List (Option String)) × Option (List (Option String)) :=
  (x.op, x.pushed, x.altPushed)

def emitNames (debug : Bool) (e : Emit) : Op Bytes × Option (List (Option String)) × Option (List (Option String)) :=
  if debug then (e.op, some e.pushed, some e.altPushed) else (e.op, none, none)

def viewT {γ : Type} (r : Res String (List Tagged × Gen × γ)) := r.map fun x => (x.1.map names, x.2.1)
def view (debug : Bool) (r : Res String (List Emit × Gen)) := r.map fun x => (x.1.map (emitNames debug), x.2)

theorem view_tag (c : Texts) (b : Bool) (idx : Nat) (r : Res String (List Emit × Gen)) :
    viewT (tagWith c b idx r) = view c.debug r := by
  cases r with
  | ok p =>
    obtain ⟨es, g⟩ := p
    simp only [viewT, tagWith, Res.bind, Res.map, view, List.map_map]
    congr 2
    apply List.map_congr_left
    intro e _
    simp only [Function.comp, names, makeTaggedOp, emitNames]
    cases c.debug <;> rfl
  | err _ => rfl
  | panic => rfl

theorem view_bind {debug : Bool} {a : Res String (List Tagged × Gen × Nat)} {b : Res String (List Emit × Gen)}
    {k : List Tagged × Gen × Nat → Res String (List Tagged × Gen × Nat)}
    {l : List Emit × Gen → Res String (List Emit × Gen)} (h : viewT a = view debug b)
    (hk : ∀ ops es g i, ops.map names = es.map (emitNames debug) →
      viewT (k (ops, g, i)) = view debug (l (es, g))) : viewT (a.bind k) = view debug (b.bind l) := by
  cases a with
  | ok x =>
    obtain ⟨ops, g, i⟩ := x
    cases b with
    | ok y =>
      obtain ⟨es, g'⟩ := y
      simp only [viewT, view, Res.map, Res.ok.injEq, Prod.mk.injEq] at h
      obtain ⟨h, rfl⟩ := h
      exact hk ops es g i h
    | err _ => simp [viewT, view, Res.map] at h
    | panic => simp [viewT, view, Res.map] at h
  | err e => cases b with
    | err e' => simp only [viewT, view, Res.map, Res.err.injEq] at h; subst h; rfl
    | ok _ => simp [viewT, view, Res.map] at h
    | panic => simp [viewT, view, Res.map] at h
  | panic => cases b with
    | panic => rfl
    | ok _ => simp [viewT, view, Res.map] at h
    | err _ => simp [viewT, view, Res.map] at h

theorem view_bind' {α : Type} {debug : Bool} {a : Res String α}
    {k : α → Res String (List Tagged × Gen × Nat)} {l : α → Res String (List Emit × Gen)}
    (hk : ∀ x, viewT (k x) = view debug (l x)) : viewT (a.bind k) = view debug (a.bind l) := by
  cases a with
  | ok x => exact hk x
  | err _ => rfl
  | panic => rfl

theorem view_prog (c : Texts) (t : TProg) (g : Gen) (idx : Nat) :
    viewT (runProgT c t g idx) = view c.debug (runProg (erase t) g) := by
  induction t generalizing g idx with
  | nil => rfl
  | leaf x l rest ih =>
    simp only [runProgT, erase, runProg]
    refine view_bind (view_tag c _ idx _) fun ops es g i h1 => view_bind (ih g i) fun ops2 es2 g2 i2 h2 => ?_
    simp [viewT, view, Res.map, h1, h2]
  | scriptIf ix i t e el ex en rest iht ihe ihr =>
    simp only [runProgT, erase, runProg]
    refine view_bind (view_tag c _ idx _) fun o1 e1 g1 i1 h1 => ?_
    refine view_bind' fun name => ?_
    refine view_bind (iht _ _) fun o2 e2 g2 i2 h2 => ?_
    refine view_bind ?_ fun o3 e3 g3 i3 h3 => ?_
    · cases e with
      | none => rfl
      | some o => exact view_tag c _ _ _
    refine view_bind (ihe _ _) fun o4 e4 g4 i4 h4 => ?_
    refine view_bind (view_tag c _ _ _) fun o5 e5 g5 i5 h5 => ?_
    refine view_bind' fun states => ?_
    refine view_bind (ihr _ _) fun o6 e6 g6 i6 h6 => ?_
    simp [viewT, view, Res.map, h1, h2, h3, h4, h5, h6]

/-! ## Putting the parts together -/

theorem runProgT_ok {c : Texts} {t : TProg} {g : Gen} {idx : Nat} {es : List Emit} {g' : Gen}
    (h : runProg (erase t) g = .ok (es, g')) : ∃ ops i, runProgT c t g idx = .ok (ops, g', i) ∧
      ops.map names = es.map (emitNames c.debug) := by
  have hv := view_prog c t g idx
  rw [h] at hv
  cases hr : runProgT c t g idx with
  | ok r =>
    obtain ⟨ops, g1, i⟩ := r
    rw [hr] at hv
    simp only [viewT, view, Res.map, Res.ok.injEq, Prod.mk.injEq] at hv
    exact ⟨ops, i, by rw [hv.2], hv.1⟩
  | err e => rw [hr] at hv; simp [viewT, view, Res.map] at hv
  | panic => rw [hr] at hv; simp [viewT, view, Res.map] at hv

theorem runProg_of_T {c : Texts} {t : TProg} {g g' : Gen} {idx i : Nat} {ops : List Tagged}
    (h : runProgT c t g idx = .ok (ops, g', i)) : ∃ es, runProg (erase t) g = .ok (es, g') ∧
      ops.map names = es.map (emitNames c.debug) := by
  have hv := view_prog c t g idx
  rw [h] at hv
  cases hr : runProg (erase t) g with
  | ok r =>
    obtain ⟨es, g1⟩ := r
    rw [hr] at hv
    simp only [viewT, view, Res.map, Res.ok.injEq, Prod.mk.injEq] at hv
    exact ⟨es, by rw [hv.2], hv.1⟩
  | err e => rw [hr] at hv; simp [viewT, view, Res.map] at hv
  | panic => rw [hr] at hv; simp [viewT, view, Res.map] at hv

theorem texts_of_generate {t : TProg} (hb : Brackets t) {g g' : Gen} {es : List Emit}
    (h : runProg (erase t) g = .ok (es, g')) : t.texts = (spoken t).map Prod.fst := by
  obtain ⟨ops, i, h1, _⟩ := runProgT_ok (c := ⟨[], [], true⟩) (idx := 0) h
  exact texts_loud t hb (piece_prog hb h1).2

theorem recorded_at (lines : Nat → String → List String) (xs : List String) (j : Nat) (hj : j < xs.length) :
    formattedAt ([30, 40, 60, 80].map fun w => xs.map fun x => "\n".intercalate (lines w x)) maxLineWidths j =
      recorded lines xs[j] := by
  simp [formattedAt, recorded, maxLineWidths, hj]

end TextProofs
end BCash
