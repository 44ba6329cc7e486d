import Verif.Model.MacroGen
import Verif.Proofs.Named

/-! # The states of the script generator -/

namespace BCash
open Spec Spec.Macro Spec.Named Macro

namespace GenProofs

/-- Applies to the states of the variants that are possible under the given branches. -/
def Ev (atoms : List Atom) (P : VState → VState → Prop) (p p' : String × VState) : Prop :=
  p'.1 = p.1 ∧ p'.2.condition = p.2.condition ∧
    (if p.2.condition.holds atoms then P p.2 p'.2 else p'.2 = p.2)

/-- A step of the generator: states change by `P` or not at all. -/
def Step (P : VState → VState → Prop) (g g' : Gen) : Prop :=
  g'.atoms = g.atoms ∧ List.Forall₂ (Ev g.atoms P) g.states g'.states

theorem Step.trans {P Q R : VState → VState → Prop} {g g1 g2 : Gen} (h1 : Step P g g1) (h2 : Step Q g1 g2)
    (hR : ∀ a b c, P a b → Q b c → R a c) : Step R g g2 := by
  obtain ⟨a1, f1⟩ := h1
  obtain ⟨a2, f2⟩ := h2
  refine ⟨a2.trans a1, ?_⟩
  rw [a1] at f2
  generalize g.states = l, g1.states = l1, g2.states = l2 at f1 f2
  induction f1 generalizing l2 with
  | nil => cases f2; exact .nil
  | cons h t ih =>
    cases f2 with
    | cons h' t' =>
      refine .cons ?_ (ih _ t')
      obtain ⟨e1, c1, p1⟩ := h
      obtain ⟨e2, c2, p2⟩ := h'
      refine ⟨e2.trans e1, c2.trans c1, ?_⟩
      rw [c1] at p2
      split
      · next hh => rw [if_pos hh] at p1 p2; exact hR _ _ _ p1 p2
      · next hh => rw [if_neg hh] at p1 p2; rw [p2, p1]

theorem Step.mono {P Q : VState → VState → Prop} {g g' : Gen} (h : Step P g g')
    (hPQ : ∀ a b, P a b → Q a b) : Step Q g g' := by
  refine ⟨h.1, h.2.imp ?_⟩
  rintro p p' ⟨e, c, hp⟩
  refine ⟨e, c, ?_⟩
  split
  · next hh => rw [if_pos hh] at hp; exact hPQ _ _ hp
  · next hh => rw [if_neg hh] at hp; exact hp

theorem Step.refl (g : Gen) (n : Nat) : Step (fun s s' => s' = s) g { g with nIdent := n } := by
  refine ⟨rfl, ?_⟩
  dsimp only
  induction g.states with
  | nil => exact .nil
  | cons p ps ih => exact .cons ⟨rfl, rfl, by split <;> rfl⟩ ih

/-- Names of variants with their conditions. -/
def signature (g : Gen) : List (String × Predicate) := g.states.map fun p => (p.1, p.2.condition)

theorem Step.signature {P : VState → VState → Prop} {g g' : Gen} (h : Step P g g') :
    signature g' = signature g := by
  obtain ⟨_, f⟩ := h
  unfold GenProofs.signature
  generalize g.states = l, g'.states = l' at f
  induction f with
  | nil => rfl
  | cons h t ih => simp only [List.map_cons, ih, h.1, h.2.1]

theorem Step.mem {P : VState → VState → Prop} {g g' : Gen} (h : Step P g g') {v : String} {s : VState}
    (hm : (v, s) ∈ g.states) :
    ∃ s', (v, s') ∈ g'.states ∧ s'.condition = s.condition ∧
      (s.condition.holds g.atoms = true → P s s') ∧ (s.condition.holds g.atoms = false → s' = s) := by
  obtain ⟨_, f⟩ := h
  generalize g.states = l, g'.states = l' at f hm
  induction f with
  | nil => cases hm
  | cons h t ih =>
    next p p' ps ps' =>
    rcases List.mem_cons.mp hm with rfl | hm
    · obtain ⟨e, c, hp⟩ := h
      refine ⟨p'.2, ?_, c, ?_, ?_⟩
      · simp only at e; rw [← e]; exact List.mem_cons_self
      · intro hh; rw [if_pos hh] at hp; exact hp
      · intro hh; rw [if_neg (by simpa using hh)] at hp; exact hp
    · obtain ⟨s', h1, h2⟩ := ih hm
      exact ⟨s', List.mem_cons_of_mem _ h1, h2⟩

theorem Step.mem' {P : VState → VState → Prop} {g g' : Gen} (h : Step P g g') {v : String} {s' : VState}
    (hm : (v, s') ∈ g'.states) :
    ∃ s, (v, s) ∈ g.states ∧ s'.condition = s.condition ∧
      (s.condition.holds g.atoms = true → P s s') ∧ (s.condition.holds g.atoms = false → s' = s) := by
  obtain ⟨_, f⟩ := h
  generalize g.states = l, g'.states = l' at f hm
  induction f with
  | nil => cases hm
  | cons h t ih =>
    next p p' ps ps' =>
    rcases List.mem_cons.mp hm with rfl | hm
    · obtain ⟨e, c, hp⟩ := h
      refine ⟨p.2, ?_, c, ?_, ?_⟩
      · simp only at e; rw [e]; exact List.mem_cons_self
      · intro hh; rw [if_pos hh] at hp; exact hp
      · intro hh; rw [if_neg (by simpa using hh)] at hp; exact hp
    · obtain ⟨s, h1, h2⟩ := ih hm
      exact ⟨s, List.mem_cons_of_mem _ h1, h2⟩

/-! ### Items -/

/-- Unnamed items are exactly those with a reserved name. -/
def Good (i : Item) : Prop := i.generated = reserved i.name

def GoodState (s : VState) : Prop := (∀ i ∈ s.stack, Good i) ∧ (∀ i ∈ s.alt, Good i)

def GoodGen (g : Gen) : Prop := ∀ p ∈ g.states, GoodState p.2

theorem Step.good {P : VState → VState → Prop} {g g' : Gen} (h : Step P g g') (hg : GoodGen g)
    (hP : ∀ s s', GoodState s → P s s' → GoodState s') : GoodGen g' := by
  rintro ⟨v, s'⟩ hm
  obtain ⟨s, h1, _, h2, h3⟩ := h.mem' hm
  cases hh : s.condition.holds g.atoms with
  | true => exact hP s s' (hg _ h1) (h2 hh)
  | false => rw [h3 hh]; exact hg _ h1

theorem reserved_fresh (n : Nat) : reserved (freshName n) = true := by
  unfold reserved freshName
  rw [String.toList_append]
  exact List.isPrefixOf_iff_prefix.mpr (List.prefix_append _ _)

theorem good_fresh (n : Nat) (i : Option Int) : Good ⟨freshName n, true, i⟩ := (reserved_fresh n).symm

theorem good_user {x : String} (h : reserved x = false) (i : Option Int) : Good ⟨x, false, i⟩ := h.symm

theorem tag_eq_some {i : Item} {x : String} : i.tag = some x ↔ i.generated = false ∧ i.name = x := by
  unfold Item.tag
  cases i.generated <;> simp

theorem tag_eq_none {i : Item} : i.tag = none ↔ i.generated = true := by
  unfold Item.tag
  cases i.generated <;> simp

theorem good_name {i : Item} {x : String} (hi : Good i) (hx : reserved x = false) :
    i.name = x ↔ i.tag = some x := by
  rw [tag_eq_some]
  constructor
  · rintro rfl; exact ⟨by rw [hi, hx], rfl⟩
  · exact And.right

theorem consistent_iff (p i : Item) : Gen.consistent (some p) i = true ↔ i.tag = p.tag := by
  obtain ⟨n, g, k⟩ := i
  obtain ⟨n', g', k'⟩ := p
  unfold Gen.consistent Item.tag
  cases g <;> cases g' <;> simp

/-! ### Operations on states -/

theorem push_step (g : Gen) (item : Item) :
    Step (fun s s' => s' = { s with stack := item :: s.stack }) g (g.push item) := by
  refine ⟨rfl, ?_⟩
  unfold Gen.push
  dsimp only
  generalize g.states = l
  induction l with
  | nil => exact .nil
  | cons p ps ih =>
    simp only [List.map_cons]
    refine .cons ?_ ih
    unfold Ev
    split <;> exact ⟨rfl, rfl, rfl⟩

theorem pushAlt_step (g : Gen) (item : Item) :
    Step (fun s s' => s' = { s with alt := item :: s.alt }) g (g.pushAlt item) := by
  refine ⟨rfl, ?_⟩
  unfold Gen.pushAlt
  dsimp only
  generalize g.states = l
  induction l with
  | nil => exact .nil
  | cons p ps ih =>
    simp only [List.map_cons]
    refine .cons ?_ ih
    unfold Ev
    split <;> exact ⟨rfl, rfl, rfl⟩

theorem takeLoop_spec (f : VState → Except String (Item × VState))
    (hf : ∀ s i s', f s = .ok (i, s') → s'.condition = s.condition) (atoms : List Atom)
    (l : List (String × VState)) (prev : Option Item) (l' : List (String × VState)) (last : Option Item)
    (h : Gen.takeLoop f atoms l prev = .ok (l', last)) :
    List.Forall₂ (Ev atoms fun s s' => ∃ i, f s = .ok (i, s') ∧ ∃ j, last = some j ∧ i.tag = j.tag) l l' ∧
    (∀ p, prev = some p → ∃ j, last = some j ∧ j.tag = p.tag) ∧
    (∀ j, last = some j → prev = some j ∨
      ∃ v s s', (v, s) ∈ l ∧ s.condition.holds atoms = true ∧ f s = .ok (j, s')) := by
  induction l generalizing prev l' last with
  | nil =>
    simp only [Gen.takeLoop, Except.ok.injEq, Prod.mk.injEq] at h
    obtain ⟨rfl, rfl⟩ := h
    exact ⟨.nil, fun p hp => ⟨p, hp, rfl⟩, fun j hj => .inl hj⟩
  | cons p ps ih =>
    obtain ⟨v, s⟩ := p
    simp only [Gen.takeLoop] at h
    split at h
    · next hh =>
      cases hfs : f s with
      | error e => rw [hfs] at h; cases h
      | ok r =>
        obtain ⟨item, s'⟩ := r
        rw [hfs] at h
        simp only [Except.bind] at h
        split at h
        · next hc =>
          cases hr : Gen.takeLoop f atoms ps (some item) with
          | error e => rw [hr] at h; cases h
          | ok r =>
            obtain ⟨l1, last1⟩ := r
            rw [hr] at h
            simp only [Except.ok.injEq, Prod.mk.injEq] at h
            obtain ⟨rfl, rfl⟩ := h
            obtain ⟨i1, i2, i3⟩ := ih (some item) l1 last1 hr
            obtain ⟨j, hj, hjt⟩ := i2 item rfl
            refine ⟨.cons ⟨rfl, hf _ _ _ hfs, ?_⟩ i1, ?_, ?_⟩
            · rw [if_pos hh]
              exact ⟨item, hfs, j, hj, hjt.symm⟩
            · rintro p rfl
              rw [consistent_iff] at hc
              exact ⟨j, hj, hjt.trans hc⟩
            · intro k hk
              rcases i3 k hk with h | ⟨v', t, t', h1, h2, h3⟩
              · cases h; exact .inr ⟨v, s, s', by simp, hh, hfs⟩
              · exact .inr ⟨v', t, t', by simp [h1], h2, h3⟩
        · cases h
    · next hh =>
      cases hr : Gen.takeLoop f atoms ps prev with
      | error e => rw [hr] at h; cases h
      | ok r =>
        obtain ⟨l1, last1⟩ := r
        rw [hr] at h
        simp only [Except.bind, Except.ok.injEq, Prod.mk.injEq] at h
        obtain ⟨rfl, rfl⟩ := h
        obtain ⟨i1, i2, i3⟩ := ih prev l1 last1 hr
        refine ⟨.cons ⟨rfl, rfl, by rw [if_neg hh]⟩ i1, i2, ?_⟩
        intro k hk
        rcases i3 k hk with h | ⟨v', t, t', h1, h2, h3⟩
        · exact .inl h
        · exact .inr ⟨v', t, t', by simp [h1], h2, h3⟩

theorem take_spec (f : VState → Except String (Item × VState))
    (hf : ∀ s i s', f s = .ok (i, s') → s'.condition = s.condition) (g g' : Gen) (item : Item)
    (h : Gen.take f g = .ok (item, g')) :
    Step (fun s s' => ∃ i, f s = .ok (i, s') ∧ i.tag = item.tag) g g' ∧ g'.nIdent = g.nIdent ∧
    ∃ v s s', (v, s) ∈ g.states ∧ s.condition.holds g.atoms = true ∧ f s = .ok (item, s') := by
  unfold Gen.take at h
  cases hr : Gen.takeLoop f g.atoms g.states none with
  | error e => rw [hr] at h; cases h
  | ok r =>
    obtain ⟨l1, last⟩ := r
    rw [hr] at h
    simp only [Except.bind] at h
    cases last with
    | none => cases h
    | some j =>
      simp only [Except.ok.injEq, Prod.mk.injEq] at h
      obtain ⟨rfl, rfl⟩ := h
      obtain ⟨i1, _, i3⟩ := takeLoop_spec f hf g.atoms g.states none l1 (some j) hr
      refine ⟨⟨rfl, i1.imp ?_⟩, rfl, ?_⟩
      · rintro p p' ⟨e, c, hp⟩
        refine ⟨e, c, ?_⟩
        split
        · next hh =>
          rw [if_pos hh] at hp
          obtain ⟨i, h1, k, hk, ht⟩ := hp
          cases hk
          exact ⟨i, h1, ht⟩
        · next hh => rw [if_neg hh] at hp; exact hp
      · rcases i3 j rfl with h | h
        · cases h
        · exact h

theorem pop_spec (g g' : Gen) (item : Item) (h : g.pop = .ok (item, g')) :
    Step (fun s s' => ∃ i, s.stack = i :: s'.stack ∧ s'.alt = s.alt ∧ i.tag = item.tag) g g' ∧
    g'.nIdent = g.nIdent ∧
    ∃ v s rest, (v, s) ∈ g.states ∧ s.condition.holds g.atoms = true ∧ s.stack = item :: rest := by
  obtain ⟨h1, h2, v, s, s', h3, h4, h5⟩ := take_spec _ (by
    intro s i s' h
    split at h
    · cases h; rfl
    · cases h) g g' item h
  refine ⟨h1.mono ?_, h2, v, s, ?_⟩
  · rintro a b ⟨i, hi, ht⟩
    split at hi
    · next it st heq => cases hi; exact ⟨_, heq, rfl, ht⟩
    · cases hi
  · split at h5
    · next it st heq => cases h5; exact ⟨st, h3, h4, heq⟩
    · cases h5

theorem popAlt_spec (g g' : Gen) (item : Item) (h : g.popAlt = .ok (item, g')) :
    Step (fun s s' => ∃ i, s.alt = i :: s'.alt ∧ s'.stack = s.stack ∧ i.tag = item.tag) g g' ∧
    g'.nIdent = g.nIdent ∧
    ∃ v s rest, (v, s) ∈ g.states ∧ s.condition.holds g.atoms = true ∧ s.alt = item :: rest := by
  obtain ⟨h1, h2, v, s, s', h3, h4, h5⟩ := take_spec _ (by
    intro s i s' h
    split at h
    · cases h; rfl
    · cases h) g g' item h
  refine ⟨h1.mono ?_, h2, v, s, ?_⟩
  · rintro a b ⟨i, hi, ht⟩
    split at hi
    · next it st heq => cases hi; exact ⟨_, heq, rfl, ht⟩
    · cases hi
  · split at h5
    · next it st heq => cases h5; exact ⟨st, h3, h4, heq⟩
    · cases h5

theorem pick_spec (g g' : Gen) (k : Nat) (item : Item) (h : g.pick k = .ok (item, g')) :
    Step (fun s s' => ∃ i, s.stack[k]? = some i ∧ s' = s ∧ i.tag = item.tag) g g' ∧
    g'.nIdent = g.nIdent ∧
    ∃ v s, (v, s) ∈ g.states ∧ s.condition.holds g.atoms = true ∧ s.stack[k]? = some item := by
  obtain ⟨h1, h2, v, s, s', h3, h4, h5⟩ := take_spec _ (by
    intro s i s' h
    split at h
    · cases h; rfl
    · cases h) g g' item h
  refine ⟨h1.mono ?_, h2, v, s, h3, h4, ?_⟩
  · rintro a b ⟨i, hi, ht⟩
    split at hi
    · next it heq => cases hi; exact ⟨_, heq, rfl, ht⟩
    · cases hi
  · split at h5
    · next it heq => cases h5; exact heq
    · cases h5

theorem roll_spec (g g' : Gen) (k : Nat) (item : Item) (h : g.roll k = .ok (item, g')) :
    Step (fun s s' => ∃ i, s.stack[k]? = some i ∧ s' = { s with stack := s.stack.eraseIdx k } ∧
      i.tag = item.tag) g g' ∧
    g'.nIdent = g.nIdent ∧
    ∃ v s, (v, s) ∈ g.states ∧ s.condition.holds g.atoms = true ∧ s.stack[k]? = some item := by
  obtain ⟨h1, h2, v, s, s', h3, h4, h5⟩ := take_spec _ (by
    intro s i s' h
    split at h
    · cases h; rfl
    · cases h) g g' item h
  refine ⟨h1.mono ?_, h2, v, s, h3, h4, ?_⟩
  · rintro a b ⟨i, hi, ht⟩
    split at hi
    · next it heq => cases hi; exact ⟨_, heq, rfl, ht⟩
    · cases hi
  · split at h5
    · next it heq => cases h5; exact heq
    · cases h5

theorem lift_ok {α : Type} {x : Except String α} {a : α} (h : lift x = .ok a) : x = .ok a := by
  cases x with
  | ok b => simp only [lift, Res.ok.injEq] at h; rw [h]
  | error e => cases h

theorem popN_spec (n : Nat) (g g' : Gen) (items : List Item) (hg : GoodGen g)
    (h : popN n g = .ok (items, g')) :
    Step (fun s s' => ∃ its : List Item, its.length = n ∧ s.stack = its.reverse ++ s'.stack ∧ s'.alt = s.alt ∧
      its.map Item.tag = items.map Item.tag) g g' ∧ g'.nIdent = g.nIdent ∧
    (∀ i ∈ items, Good i) ∧ items.length = n ∧ GoodGen g' := by
  induction n generalizing g items g' with
  | zero =>
    simp only [popN, Res.ok.injEq, Prod.mk.injEq] at h
    obtain ⟨rfl, rfl⟩ := h
    exact ⟨(Step.refl g g.nIdent).mono (by rintro s s' rfl; exact ⟨[], rfl, rfl, rfl, rfl⟩), rfl, by simp,
      rfl, hg⟩
  | succ n ih =>
    simp only [popN, Res.bind_eq_ok, Prod.exists] at h
    obtain ⟨item, g1, h1, items1, g2, h2, h3⟩ := h
    simp only [Res.ok.injEq, Prod.mk.injEq] at h3
    obtain ⟨rfl, rfl⟩ := h3
    obtain ⟨s1, n1, v, s, rest, m1, m2, m3⟩ := pop_spec g g1 item (lift_ok h1)
    have hg1 : GoodGen g1 := s1.good hg (by
      rintro s s' ⟨gs, ga⟩ ⟨i, e1, e2, _⟩
      exact ⟨fun x hx => gs x (by rw [e1]; simp [hx]), by rw [e2]; exact ga⟩)
    obtain ⟨s2, n2, good2, len2, gg2⟩ := ih g1 g2 items1 hg1 h2
    refine ⟨s1.trans s2 ?_, n2.trans n1, ?_, by simp [len2], gg2⟩
    · rintro a b c ⟨i, e1, e2, e3⟩ ⟨its, l1, l2, l3, l4⟩
      refine ⟨its ++ [i], by simp [l1], by simp [e1, l2], by rw [l3, e2], by simp [l4, e3]⟩
    · intro x hx
      rcases List.mem_append.mp hx with hx | hx
      · exact good2 x hx
      · simp only [List.mem_singleton] at hx
        subst hx
        exact (hg _ m1).1 x (by rw [m3]; simp)

/-- Pushing several items. -/
theorem pushAll_step (items : List Item) (g : Gen) :
    Step (fun s s' => s' = { s with stack := items.reverse ++ s.stack }) g (items.foldl Gen.push g) ∧
    (items.foldl Gen.push g).nIdent = g.nIdent := by
  induction items generalizing g with
  | nil => exact ⟨(Step.refl g g.nIdent), rfl⟩
  | cons i is ih =>
    obtain ⟨h1, h2⟩ := ih (g.push i)
    refine ⟨(push_step g i).trans h1 ?_, h2⟩
    rintro a b c rfl rfl
    simp

end GenProofs
end BCash
