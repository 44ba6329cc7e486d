import Verif.Proofs.MacroDiag
import Verif.Spec.Diag

/-! # The reports of the script macro are true: one statement -/

namespace BCash.DiagProofs
open BCash BCash.Macro BCash.Spec BCash.Spec.Macro BCash.Spec.Named BCash.Spec.Diag BCash.GenProofs

theorem bind_err {ε α β : Type} {x : Res ε α} {f : α → Res ε β} {d : ε} (h : x.bind f = .err d) :
    x = .err d ∨ ∃ a, x = .ok a ∧ f a = .err d := by
  cases x with
  | ok a => exact .inr ⟨a, rfl, h⟩
  | err e => cases h; exact .inl rfl
  | panic => cases h

theorem mapErr_err {ε ε' α : Type} {x : Res ε α} {f : ε → ε'} {d : ε'} (h : x.mapErr f = .err d) :
    ∃ e, x = .err e ∧ d = f e := by
  cases x with
  | ok a => cases h
  | err e => cases h; exact ⟨e, rfl, rfl⟩
  | panic => cases h

theorem mapErr_ok {ε ε' α : Type} {x : Res ε α} {f : ε → ε'} {a : α} (h : x.mapErr f = .ok a) : x = .ok a := by
  cases x with
  | ok a => cases h; rfl
  | err e => cases h
  | panic => cases h

/-- The report is true of the tracked stacks. -/
structure Told (stmt : OpcodeStmt) (g : Gen) (dg : Diag) : Prop where
  written : WrittenOp stmt g.atoms dg
  named : ∀ w ∈ variants dg, ∃ s, (w, s) ∈ g.states ∧ s.condition.holds g.atoms = true
  about : ∀ v s, (v, s) ∈ g.states → s.condition.holds g.atoms = true →
    About v (s.stack.map Item.tag) (s.alt.map Item.tag) dg

theorem Told.inOpcode {stmt : OpcodeStmt} {g : Gen} {dg : Diag} (h : Told stmt g dg) {o : Opcode}
    (ho : stmt.head = .op o) : Told stmt g (.inOpcode o dg) := by
  refine ⟨?_, ?_, ?_⟩
  · unfold WrittenOp; exact ⟨ho, h.written⟩
  · unfold variants; exact h.named
  · intro v s hm hh; unfold About; exact h.about v s hm hh

theorem takeLoopD_err (f : String → VState → Except Diag (Item × VState)) (roll : Option (Nat × Bool)) (place : Place)
    (atoms : List Atom) (l : List (String × VState)) (prev : Option (String × Item)) (d : Diag)
    (hn : (l.map Prod.fst).Nodup) (hp : ∀ w p, prev = some (w, p) → w ∉ l.map Prod.fst)
    (h : Gen.takeLoopD f roll place atoms l prev = .error d) :
    (∃ v s, (v, s) ∈ l ∧ s.condition.holds atoms = true ∧ f v s = .error d) ∨
    (∃ w p v s i s', (prev = some (w, p) ∨ ∃ t t', (w, t) ∈ l ∧ t.condition.holds atoms = true ∧ f w t = .ok (p, t')) ∧
      (v, s) ∈ l ∧ s.condition.holds atoms = true ∧ f v s = .ok (i, s') ∧ i.tag ≠ p.tag ∧ w ≠ v ∧
      d = Gen.differing roll place w p v i) := by
  induction l generalizing prev with
  | nil => cases h
  | cons q l ih =>
    obtain ⟨v, s⟩ := q
    simp only [List.map_cons, List.nodup_cons] at hn
    unfold Gen.takeLoopD at h
    have lift : ((∃ v s, (v, s) ∈ l ∧ s.condition.holds atoms = true ∧ f v s = .error d) ∨
        (∃ w p v s i s', (∃ t t', (w, t) ∈ l ∧ t.condition.holds atoms = true ∧ f w t = .ok (p, t')) ∧
        (v, s) ∈ l ∧ s.condition.holds atoms = true ∧ f v s = .ok (i, s') ∧ i.tag ≠ p.tag ∧ w ≠ v ∧
        d = Gen.differing roll place w p v i)) →
      (∃ v' s', (v', s') ∈ (v, s) :: l ∧ s'.condition.holds atoms = true ∧ f v' s' = .error d) ∨
      (∃ w p v' s' i s'', (prev = some (w, p) ∨ ∃ t t', (w, t) ∈ (v, s) :: l ∧ t.condition.holds atoms = true ∧
        f w t = .ok (p, t')) ∧
        (v', s') ∈ (v, s) :: l ∧ s'.condition.holds atoms = true ∧ f v' s' = .ok (i, s'') ∧ i.tag ≠ p.tag ∧ w ≠ v' ∧
        d = Gen.differing roll place w p v' i) := by
      rintro (⟨v', s', h1, h2, h3⟩ | ⟨w, p, v', s', i, s'', ⟨t, t', h1, h2, h3⟩, h4, h5⟩)
      · exact .inl ⟨v', s', List.mem_cons_of_mem _ h1, h2, h3⟩
      · exact .inr ⟨w, p, v', s', i, s'', .inr ⟨t, t', List.mem_cons_of_mem _ h1, h2, h3⟩, List.mem_cons_of_mem _ h4, h5⟩
    split at h
    · next hh =>
      cases hf : f v s with
      | error d' => rw [hf] at h; cases h; exact .inl ⟨v, s, List.mem_cons_self, hh, hf⟩
      | ok r =>
        obtain ⟨item, s'⟩ := r
        rw [hf] at h
        dsimp only at h
        have again : Gen.takeLoopD f roll place atoms l (some (v, item)) = .error d →
          (∃ v' s', (v', s') ∈ (v, s) :: l ∧ s'.condition.holds atoms = true ∧ f v' s' = .error d) ∨
          (∃ w p v' s' i s'', (prev = some (w, p) ∨ ∃ t t', (w, t) ∈ (v, s) :: l ∧ t.condition.holds atoms = true ∧
            f w t = .ok (p, t')) ∧
            (v', s') ∈ (v, s) :: l ∧ s'.condition.holds atoms = true ∧ f v' s' = .ok (i, s'') ∧ i.tag ≠ p.tag ∧ w ≠ v' ∧
            d = Gen.differing roll place w p v' i) := by
          intro hr
          rcases ih (some (v, item)) hn.2 (by rintro w p h; cases h; exact hn.1) hr with h1 |
            ⟨w, p, v', t, i, t', h1, h2⟩
          · exact lift (.inl h1)
          · rcases h1 with h1 | h1
            · cases h1
              obtain ⟨h3, h4⟩ := h2
              exact .inr ⟨v, item, v', t, i, t', .inr ⟨s, s', List.mem_cons_self, hh, hf⟩, List.mem_cons_of_mem _ h3, h4⟩
            · exact lift (.inr ⟨w, p, v', t, i, t', h1, h2⟩)
        cases prev with
        | none =>
          dsimp only at h
          cases hr : Gen.takeLoopD f roll place atoms l (some (v, item)) with
          | error d' => rw [hr] at h; cases h; exact again hr
          | ok r => rw [hr] at h; cases h
        | some q =>
          obtain ⟨w, p⟩ := q
          dsimp only at h
          split at h
          · cases hr : Gen.takeLoopD f roll place atoms l (some (v, item)) with
            | error d' => rw [hr] at h; cases h; exact again hr
            | ok r => rw [hr] at h; cases h
          · next hc =>
            cases h
            refine .inr ⟨w, p, v, s, item, s', .inl rfl, List.mem_cons_self, hh, hf, ?_, ?_, rfl⟩
            · rw [consistent_iff] at hc; exact hc
            · intro hwv
              exact hp w p rfl (by rw [hwv]; simp)
    · cases hr : Gen.takeLoopD f roll place atoms l prev with
      | error d' =>
        rw [hr] at h
        cases h
        rcases ih prev hn.2 (fun w p h hm => hp w p h (by simp only [List.map_cons]; exact List.mem_cons_of_mem _ hm)) hr
          with h1 | ⟨w, p, v', t, i, t', h1, h2⟩
        · exact lift (.inl h1)
        · rcases h1 with h1 | h1
          · obtain ⟨h3, h4⟩ := h2
            exact .inr ⟨w, p, v', t, i, t', .inl h1, List.mem_cons_of_mem _ h3, h4⟩
          · exact lift (.inr ⟨w, p, v', t, i, t', h1, h2⟩)
      | ok r => rw [hr] at h; cases h

theorem takeLoopD_none (f : String → VState → Except Diag (Item × VState)) (roll : Option (Nat × Bool)) (place : Place)
    (atoms : List Atom) (l : List (String × VState)) (prev : Option (String × Item)) (st : List (String × VState))
    (h : Gen.takeLoopD f roll place atoms l prev = .ok (st, none)) :
    prev = none ∧ ∀ v s, (v, s) ∈ l → s.condition.holds atoms = false := by
  induction l generalizing prev st with
  | nil =>
    cases prev with
    | none => exact ⟨rfl, by simp⟩
    | some p => cases h
  | cons q l ih =>
    obtain ⟨v, s⟩ := q
    unfold Gen.takeLoopD at h
    split at h
    · exfalso
      cases hf : f v s with
      | error d' => rw [hf] at h; cases h
      | ok r =>
        obtain ⟨item, s'⟩ := r
        rw [hf] at h
        dsimp only at h
        cases hr : Gen.takeLoopD f roll place atoms l (some (v, item)) with
        | error d' =>
          rw [hr] at h
          cases prev with
          | none => cases h
          | some q => obtain ⟨w, p⟩ := q; dsimp only at h; split at h <;> cases h
        | ok r =>
          obtain ⟨st', last⟩ := r
          cases last with
          | none => cases (ih _ _ hr).1
          | some j =>
            rw [hr] at h
            cases prev with
            | none => cases h
            | some q => obtain ⟨w, p⟩ := q; dsimp only at h; split at h <;> cases h
    · next hh =>
      cases hr : Gen.takeLoopD f roll place atoms l prev with
      | error d' => rw [hr] at h; cases h
      | ok r =>
        obtain ⟨st', last⟩ := r
        rw [hr] at h
        cases last with
        | some j => cases h
        | none =>
          obtain ⟨i1, i2⟩ := ih _ _ hr
          refine ⟨i1, fun v' s' hm => ?_⟩
          rcases List.mem_cons.mp hm with hm | hm
          · cases hm; simpa using hh
          · exact i2 v' s' hm

theorem take_told {P : VState → VState → Prop} {g0 g : Gen} (hstep : Step P g0 g)
    (hkeys : (g0.states.map Prod.fst).Nodup) (stmt : OpcodeStmt)
    (f : String → VState → Except Diag (Item × VState)) (roll : Option (Nat × Bool)) (place : Place)
    (read : VState → Option Item) (hread : ∀ v s i s', f v s = .ok (i, s') → read s = some i)
    (hplace : ∀ s0 s, P s0 s → nameAt (s0.stack.map Item.tag) (s0.alt.map Item.tag) place = (read s).map Item.tag)
    (herr : ∀ w s d, f w s = .error d → WrittenOp stmt g0.atoms d ∧ variants d = [w] ∧
      (∀ s0, P s0 s → About w (s0.stack.map Item.tag) (s0.alt.map Item.tag) d) ∧
      ∀ (v : String) (s0 : VState), v ≠ w → About v (s0.stack.map Item.tag) (s0.alt.map Item.tag) d)
    (htakes : Takes stmt place)
    (hroll : ∀ depth isRoll, roll = some (depth, isRoll) →
      stmt.head = .op (if isRoll then .OP_ROLL else .OP_PICK) ∧ place = .main (depth + 1))
    (d : Diag) (h : Gen.takeD f roll place g = .err d) : Told stmt g0 d := by
  have hkeys' : (g.states.map Prod.fst).Nodup := by rw [keys_of_signature hstep.signature]; exact hkeys
  have hat : g.atoms = g0.atoms := hstep.1
  have back : ∀ w t, (w, t) ∈ g.states → t.condition.holds g.atoms = true →
      ∃ s, (w, s) ∈ g0.states ∧ s.condition.holds g0.atoms = true := by
    intro w t hm hh
    obtain ⟨s, h1, h2, _⟩ := hstep.mem' hm
    exact ⟨s, h1, by rw [← h2, ← hat]; exact hh⟩
  unfold Gen.takeD at h
  cases hl : Gen.takeLoopD f roll place g.atoms g.states none with
  | error d' =>
    rw [hl] at h
    cases h
    rcases takeLoopD_err f roll place g.atoms g.states none d hkeys' (by rintro w p h; cases h) hl with
      ⟨w, t, h1, h2, h3⟩ | ⟨w, p, v, t, i, t', h1, h2, h3, h4, h5, h6, rfl⟩
    · obtain ⟨e1, e2, e3, e4⟩ := herr w t d h3
      refine ⟨e1, ?_, ?_⟩
      · rw [e2]
        intro w' hw'
        simp only [List.mem_singleton] at hw'
        subst hw'
        exact back w' t h1 h2
      · intro v s hm hh
        by_cases hvw : v = w
        · subst hvw
          obtain ⟨s', q1, _, q2, _⟩ := hstep.mem hm
          have := key_unique hkeys' q1 h1
          subst this
          exact e3 s (q2 hh)
        · exact e4 v s hvw
    · rcases h1 with h1 | ⟨u, u', k1, k2, k3⟩
      · cases h1
      have name : ∀ (w : String) (t : VState) (i : Item) (t' : VState), (w, t) ∈ g.states → f w t = .ok (i, t') → ∀ s, (w, s) ∈ g0.states →
          s.condition.holds g0.atoms = true →
          nameAt (s.stack.map Item.tag) (s.alt.map Item.tag) place = some i.tag := by
        intro w t i t' hm hf s hs hh
        obtain ⟨s', q1, _, q2, _⟩ := hstep.mem hs
        have := key_unique hkeys' q1 hm
        subst this
        rw [hplace s _ (q2 hh), hread _ _ _ _ hf]
        rfl
      unfold Gen.differing
      split
      · next hg =>
        refine ⟨?_, ?_, ?_⟩
        · unfold WrittenOp
          refine ⟨htakes, h6, ?_, hroll⟩
          intro hc
          apply hg
          unfold Item.tag at hc
          cases hx : p.generated <;> cases hy : i.generated <;> simp_all
        · unfold variants
          intro w' hw'
          simp only [List.mem_cons, List.not_mem_nil, or_false] at hw'
          rcases hw' with rfl | rfl
          · exact back _ _ k1 k2
          · exact back _ _ h2 h3
        · intro x s hm hh
          unfold About
          refine ⟨?_, ?_⟩
          · rintro rfl; exact name _ _ _ _ k1 k3 s hm hh
          · rintro rfl; exact name _ _ _ _ h2 h4 s hm hh
      · next hg =>
        have hgen : i.generated = p.generated := Decidable.not_not.mp hg
        have hgf : p.generated = false := by
          cases hx : p.generated with
          | false => rfl
          | true =>
            exfalso; apply h5
            unfold Item.tag; rw [hgen, hx]; rfl
        have t1 : p.tag = some p.name := by unfold Item.tag; rw [hgf]; rfl
        have t2 : i.tag = some i.name := by unfold Item.tag; rw [hgen, hgf]; rfl
        refine ⟨?_, ?_, ?_⟩
        · unfold WrittenOp
          refine ⟨htakes, h6, ?_⟩
          intro hc
          apply h5
          rw [t1, t2, hc]
        · unfold variants
          intro w' hw'
          simp only [List.mem_cons, List.not_mem_nil, or_false] at hw'
          rcases hw' with rfl | rfl
          · exact back _ _ k1 k2
          · exact back _ _ h2 h3
        · intro x s hm hh
          unfold About
          refine ⟨?_, ?_⟩
          · rintro rfl; rw [← t1]; exact name _ _ _ _ k1 k3 s hm hh
          · rintro rfl; rw [← t2]; exact name _ _ _ _ h2 h4 s hm hh
  | ok r =>
    obtain ⟨st, last⟩ := r
    cases last with
    | some i => rw [hl] at h; cases h
    | none =>
      rw [hl] at h
      cases h
      obtain ⟨_, hn⟩ := takeLoopD_none _ _ _ _ _ _ _ hl
      have none : ∀ v s, (v, s) ∈ g0.states → s.condition.holds g0.atoms = true → False := by
        intro v s hm hh
        obtain ⟨s', q1, q2, _⟩ := hstep.mem hm
        have := hn v s' q1
        rw [q2, hat, hh] at this
        cases this
      cases roll with
      | some q =>
        refine ⟨by simp [WrittenOp], by simp [variants], fun v s hm hh => (none v s hm hh).elim⟩
      | none =>
        refine ⟨by simp [WrittenOp, hat], by simp [variants], fun v s hm hh => (none v s hm hh).elim⟩

/-- `n` items have been popped. -/
def Popped (n : Nat) (s s' : VState) : Prop :=
  ∃ its : List Item, its.length = n ∧ s.stack = its ++ s'.stack ∧ s'.alt = s.alt

theorem pop_told {n : Nat} {g0 g : Gen} (hstep : Step (Popped n) g0 g)
    (hkeys : (g0.states.map Prod.fst).Nodup) (stmt : OpcodeStmt) (htakes : Takes stmt (.main n))
    (d : Diag) (h : Gen.popD n g = .err d) : Told stmt g0 d := by
  refine take_told hstep hkeys stmt _ none (.main n) (fun s => s.stack[0]?) ?_ ?_ ?_ htakes (by simp) d h
  · intro v s i s' h
    split at h
    · next q => cases h; rw [q]; rfl
    · cases h
  · rintro s0 s ⟨its, h1, h2, h3⟩
    simp only [nameAt, h2, List.map_append]
    rw [List.getElem?_append_right (by simp [h1])]
    simp [h1]
  · intro w s d h
    split at h
    · cases h
    · next q =>
      cases h
      refine ⟨by unfold WrittenOp; exact htakes, by simp [variants], ?_, ?_⟩
      · rintro s0 ⟨its, h1, h2, h3⟩
        unfold About
        intro _
        simp [nameAt, h2, q, h1]
      · intro v s0 hv
        unfold About
        intro h
        exact absurd h.symm hv

theorem popAlt_told {g : Gen} (hkeys : (g.states.map Prod.fst).Nodup) (stmt : OpcodeStmt) (htakes : Takes stmt .alt)
    (d : Diag) (h : Gen.popAltD g = .err d) : Told stmt g d := by
  have hstep : Step (fun s s' => s' = s) g g := Step.refl g g.nIdent
  refine take_told hstep hkeys stmt _ none .alt (fun s => s.alt[0]?) ?_ ?_ ?_ htakes (by simp) d h
  · intro v s i s' h
    split at h
    · next q => cases h; rw [q]; rfl
    · cases h
  · rintro s0 s rfl
    simp [nameAt]
  · intro w s d h
    split at h
    · cases h
    · next q =>
      cases h
      refine ⟨by unfold WrittenOp; exact htakes, by simp [variants], ?_, ?_⟩
      · rintro s0 rfl
        unfold About
        intro _
        simp [nameAt, q]
      · intro v s0 hv
        unfold About
        intro h
        exact absurd h.symm hv

theorem pickRoll_told {g0 g : Gen} (hstep : Step (Popped 1) g0 g)
    (hkeys : (g0.states.map Prod.fst).Nodup) (stmt : OpcodeStmt) (isRoll : Bool)
    (hhead : stmt.head = .op (if isRoll then .OP_ROLL else .OP_PICK)) (depth : Nat)
    (d : Diag) (h : Gen.pickRollD isRoll depth g = .err d) : Told stmt g0 d := by
  have htakes : Takes stmt (.main (depth + 1)) := by
    refine ⟨_, hhead, ?_⟩
    dsimp only
    rw [if_pos (by cases isRoll <;> simp)]
    trivial
  refine take_told hstep hkeys stmt _ (some (depth, isRoll)) (.main (depth + 1)) (fun s => s.stack[depth]?)
    ?_ ?_ ?_ htakes (by rintro a b h; cases h; exact ⟨hhead, rfl⟩) d h
  · intro v s i s' h
    split at h
    · next q => cases h; exact q
    · cases h
  · rintro s0 s ⟨its, h1, h2, h3⟩
    simp only [nameAt, h2, List.map_append]
    rw [List.getElem?_append_right (by simp [h1])]
    simp [h1]
  · intro w s d h
    split at h
    · cases h
    · next q =>
      cases h
      refine ⟨by unfold WrittenOp; cases isRoll <;> simp [hhead], by simp [variants], ?_, ?_⟩
      · rintro s0 ⟨its, h1, h2, h3⟩
        unfold About
        intro _
        refine ⟨by simp [h2, h1]; omega, by simpa using q⟩
      · intro v s0 hv
        unfold About
        intro h
        exact absurd h.symm hv

theorem Popped.zero (g : Gen) : Step (Popped 0) g g :=
  (Step.refl g g.nIdent).mono (by rintro s s' rfl; exact ⟨[], rfl, rfl, rfl⟩)

theorem Popped.next {n : Nat} {g0 g g' : Gen} {item : Item} (hstep : Step (Popped n) g0 g)
    (h : Gen.popD n g = .ok (item, g')) : Step (Popped (n + 1)) g0 g' := by
  obtain ⟨s1, _, _⟩ := pop_spec g g' item (lift_ok (ok_of_link (pop_link n g) h))
  refine hstep.trans s1 ?_
  rintro a b c ⟨its, l1, l2, l3⟩ ⟨i, e1, e2, e3⟩
  exact ⟨its ++ [i], by simp [l1], by simp [l2, e1], e2.trans l3⟩

theorem popN_told (stmt : OpcodeStmt) (o : Opcode) (ho : stmt.head = .op o) (k n : Nat) {g0 g : Gen}
    (hstep : Step (Popped n) g0 g) (hkeys : (g0.states.map Prod.fst).Nodup)
    (htakes : ∀ m, m < n + k → Takes stmt (.main m)) (d : Diag) (h : popND o k n g = .err d) : Told stmt g0 d := by
  induction k generalizing n g with
  | zero => cases h
  | succ k ih =>
    unfold popND at h
    rcases bind_err h with h | ⟨⟨item, g1⟩, h1, h⟩
    · obtain ⟨e, h', rfl⟩ := mapErr_err h
      exact (pop_told hstep hkeys stmt (htakes n (by omega)) e h').inOpcode ho
    · have h1 := mapErr_ok h1
      rcases bind_err h with h | ⟨⟨items, g2⟩, h2, h⟩
      · exact ih (n + 1) (Popped.next hstep h1) (fun m hm => htakes m (by omega)) h
      · cases h

theorem inputNamesD_err (items : List Item) (names : List OpcodeInput) (hlen : items.length = names.length) (d : Diag)
    (h : inputNamesD items names = .err d) :
    ∃ i item x, items[i]? = some item ∧ names[i]? = some (.ident x) ∧
      (item.tag = none ∧ d = .unnamed x (.main (items.length - 1 - i)) ∨
       item.tag = some item.name ∧ x ≠ item.name ∧ d = .otherName item.name x (.main (items.length - 1 - i))) := by
  induction items generalizing names with
  | nil => cases h
  | cons item items ih =>
    cases names with
    | nil => cases h
    | cons name names =>
      unfold inputNamesD at h
      rcases bind_err h with h | ⟨_, _, h⟩
      · unfold inputNameD at h
        cases name with
        | expr t v => cases h
        | ident x =>
          dsimp only at h
          split at h
          · cases h
          · split at h
            · next hg =>
              cases h
              refine ⟨0, item, x, rfl, rfl, .inl ⟨by unfold Item.tag; rw [hg]; rfl, ?_⟩⟩
              simp
            · next hg =>
              split at h
              · next hx =>
                cases h
                refine ⟨0, item, x, rfl, rfl, .inr ⟨?_, hx, ?_⟩⟩
                · unfold Item.tag; rw [if_neg hg]
                · simp
              · cases h
      · obtain ⟨i, it, x, h1, h2, h3⟩ := ih names (by simpa using hlen) h
        refine ⟨i + 1, it, x, by simpa using h1, by simpa using h2, ?_⟩
        have : (item :: items).length - 1 - (i + 1) = items.length - 1 - i := by simp; omega
        rw [this]
        exact h3

theorem collect_err {α β ε : Type} {f : α → Res ε β} {l : List α} {d : ε} (h : collect f l = .err d) :
    ∃ a ∈ l, f a = .err d := by
  induction l with
  | nil => cases h
  | cons a l ih =>
    unfold collect at h
    rcases bind_err h with h | ⟨b, _, h⟩
    · exact ⟨a, List.mem_cons_self, h⟩
    · rcases bind_err h with h | ⟨_, _, h⟩
      · obtain ⟨x, h1, h2⟩ := ih h
        exact ⟨x, List.mem_cons_of_mem _ h1, h2⟩
      · cases h

theorem indexD_err {α : Type} {l : List α} {i : Nat} {d : Diag} (h : indexD l i = .err d) : False := by
  unfold indexD at h
  split at h <;> cases h

/-- The operations that are neither moves nor conditionals. -/
theorem other_told (o : Opcode) (ho : NamedProofs.special o = false) (hn : o ≠ .OP_NOTIF) (stmt : OpcodeStmt)
    (hhead : stmt.head = .op o) (g : Gen) (hg : GoodGen g) (hkeys : (g.states.map Prod.fst).Nodup)
    (d : Diag) (h : runOtherD o stmt g = .err d) : Told stmt g d := by
  unfold runOtherD at h
  cases hb : o.behavior with
  | none => rw [hb] at h; cases h
  | some b =>
    rw [hb] at h
    dsimp only at h
    obtain ⟨t1, t2, t3⟩ := flow_table o b hb ho hn
    have htakes : ∀ m, m < b.inputTypes.length → Takes stmt (.main m) := by
      intro m hm
      refine ⟨o, hhead, ?_⟩
      dsimp only
      split
      · trivial
      · split
        · next q => subst q; cases ho
        · refine ⟨?_, by rw [t1]; exact hm⟩
          rintro rfl
          cases ho
    rcases bind_err h with h | ⟨⟨items, g1⟩, h1, h⟩
    · exact popN_told stmt o hhead _ 0 (Popped.zero g) hkeys (fun m hm => htakes m (by omega)) d h
    · obtain ⟨s1, _, _, l1, _⟩ := popN_spec _ g g1 items hg (ok_of_link (popN_link o _ 0 g) h1)
      rcases bind_err h with h | ⟨_, _, h⟩
      · unfold checkInputNamesD at h
        cases hi : stmt.inputNames with
        | none => rw [hi] at h; cases h
        | some names =>
          rw [hi] at h
          dsimp only at h
          split at h
          · next hlen =>
            cases h
            refine ⟨?_, by simp [variants], fun v s _ _ => by simp [About]⟩
            unfold WrittenOp
            exact ⟨o, names, hhead, by rw [t1, l1], hi, rfl, Ne.symm hlen⟩
          · next hlen =>
            have hlen : items.length = names.length := Decidable.not_not.mp hlen
            obtain ⟨i, item, x, e1, e2, e3⟩ := inputNamesD_err items names hlen d h
            obtain ⟨hi1, e1'⟩ := List.getElem?_eq_some_iff.mp e1
            have hw : wrote stmt (.main (items.length - 1 - i)) = some x := by
              unfold wrote
              rw [hi]
              dsimp only
              rw [List.getElem?_reverse (by omega)]
              have : names.length - 1 - (items.length - 1 - i) = i := by omega
              rw [this, e2]
              rfl
            have ht := htakes (items.length - 1 - i) (by omega)
            have name : ∀ v s, (v, s) ∈ g.states → s.condition.holds g.atoms = true →
                nameAt (s.stack.map Item.tag) (s.alt.map Item.tag) (.main (items.length - 1 - i)) = some item.tag := by
              intro v s hm hh
              obtain ⟨s', _, _, q, _⟩ := s1.mem hm
              obtain ⟨its, q1, q2, q3, q4⟩ := q hh
              simp only [nameAt, q2, List.map_append, List.map_reverse, q4]
              rw [List.getElem?_append_left (by simp; omega), List.getElem?_reverse (by simp; omega)]
              have : (items.map Item.tag).length - 1 - (items.length - 1 - i) = i := by simp; omega
              rw [this, List.getElem?_map, e1]
              rfl
            rcases e3 with ⟨e3, rfl⟩ | ⟨e3, e4, rfl⟩
            · refine ⟨by unfold WrittenOp; exact ⟨ht, hw⟩, by simp [variants], fun v s hm hh => ?_⟩
              unfold About
              rw [name v s hm hh, e3]
            · refine ⟨by unfold WrittenOp; exact ⟨ht, hw, e4⟩, by simp [variants], fun v s hm hh => ?_⟩
              unfold About
              rw [name v s hm hh, e3]
      · rcases bind_err h with h | ⟨_, _, h⟩
        · unfold outputItemsD at h
          cases hi : stmt.outputNames with
          | none =>
            exfalso
            rw [hi] at h
            dsimp only at h
            cases hoo : b.outputOrder with
            | some order =>
              rw [hoo] at h
              dsimp only at h
              rcases bind_err h with h | ⟨_, _, h⟩
              · obtain ⟨_, _, h⟩ := collect_err h
                exact indexD_err h
              · cases h
            | none =>
              rw [hoo] at h
              dsimp only at h
              rcases bind_err h with h | ⟨_, _, h⟩
              · obtain ⟨_, _, h⟩ := collect_err h
                split at h
                · exact indexD_err h
                · cases h
              · cases h
          | some names =>
            rw [hi] at h
            dsimp only at h
            split at h
            · next hlen =>
              cases h
              refine ⟨?_, by simp [variants], fun v s _ _ => by simp [About]⟩
              unfold WrittenOp
              exact ⟨names, hhead, t2, hi, rfl, hlen⟩
            · next hlen =>
              have hlen : names.length = b.outputTypes.length := Decidable.not_not.mp hlen
              rcases bind_err h with h | ⟨_, _, h⟩
              · obtain ⟨⟨name, idx⟩, hm, h⟩ := collect_err h
                have hm := List.mk_mem_zipIdx_iff_getElem?.mp hm
                dsimp only at h
                unfold namedOutputD at h
                split at h
                · next hname =>
                  split at h
                  · exact (indexD_err h).elim
                  · next hr =>
                    split at h
                    · rcases bind_err h with h | ⟨_, _, h⟩
                      · exact (indexD_err h).elim
                      · exact (indexD_err h).elim
                    · next hoo =>
                      cases h
                      refine ⟨?_, by simp [variants], fun v s _ _ => by simp [About]⟩
                      unfold WrittenOp
                      refine ⟨names, idx, hhead, hi, by rw [← hname]; exact hm, ?_⟩
                      rcases t3 with ⟨_, order, q, _⟩ | ⟨_, _, q⟩ | ⟨q, _⟩
                      · rw [hoo] at q; cases q
                      · rw [q, List.getElem?_replicate, if_pos]
                        obtain ⟨hlt, _⟩ := List.getElem?_eq_some_iff.mp hm
                        omega
                      · exact absurd q hr
                · cases h
              · cases h
        · cases h

theorem shows_good {i : Item} (hi : Good i) : Shows i.name i.tag := by
  unfold Shows Item.tag
  cases hg : i.generated with
  | true => simp only [if_true]; rw [← hi, hg]
  | false => simp only [Bool.false_eq_true, if_false]

/-- The item taken by a move. -/
def Top (g : Gen) (place : Place) (item : Item) : Prop :=
  Good item ∧ ∀ v s, (v, s) ∈ g.states → s.condition.holds g.atoms = true →
    nameAt (s.stack.map Item.tag) (s.alt.map Item.tag) place = some item.tag

theorem verify_told (o : Opcode) (hm : moves o = true) (stmt : OpcodeStmt) (hhead : stmt.head = .op o) (g : Gen)
    (place : Place) (hpl : place = .main 0 ∨ place = .alt) (ht : Takes stmt place) (item : Item)
    (htop : Top g place item) (d : Diag) (h : verifyItemNameD o stmt item place = .err d) : Told stmt g d := by
  unfold verifyItemNameD at h
  split at h
  · cases h
  · next input hi =>
    split at h
    · cases h
    · next hx =>
      cases h
      refine Told.inOpcode ⟨?_, by simp [variants], fun v s hm hh => ?_⟩ hhead
      · unfold WrittenOp
        refine ⟨ht, ?_, hx⟩
        unfold wrote
        rw [hi]
        rcases hpl with rfl | rfl <;> rfl
      · unfold About
        exact ⟨_, htop.2 v s hm hh, shows_good htop.1⟩
  · next l hne hi =>
    cases h
    refine Told.inOpcode ⟨?_, by simp [variants], fun v s hm hh => by simp [About]⟩ hhead
    unfold WrittenOp
    refine ⟨o, l, hhead, hm, hi, rfl, ?_⟩
    intro hl
    obtain ⟨x, rfl⟩ := List.length_eq_one_iff.mp hl
    exact hne x rfl

theorem update_told (o : Opcode) (hm : moves o = true) (stmt : OpcodeStmt) (hhead : stmt.head = .op o) (g : Gen)
    (item : Item) (d : Diag) (h : updateItemNameD o stmt item = .err d) : Told stmt g d := by
  unfold updateItemNameD at h
  split at h
  · cases h
  · cases h
  · next l hne hi =>
    cases h
    refine Told.inOpcode ⟨?_, by simp [variants], fun v s hm hh => by simp [About]⟩ hhead
    unfold WrittenOp
    refine ⟨o, l, hhead, hm, hi, rfl, ?_⟩
    intro hl
    obtain ⟨x, rfl⟩ := List.length_eq_one_iff.mp hl
    exact hne x rfl

theorem top_pop {g g' : Gen} {item : Item} (hg : GoodGen g) (h : Gen.popD 0 g = .ok (item, g')) :
    Top g (.main 0) item := by
  obtain ⟨s1, _, v, s, rest, m1, m2, m3⟩ := pop_spec g g' item (lift_ok (ok_of_link (pop_link 0 g) h))
  refine ⟨(hg _ m1).1 item (by rw [m3]; simp), fun v s hm hh => ?_⟩
  obtain ⟨s', _, _, q, _⟩ := s1.mem hm
  obtain ⟨i, q1, _, q3⟩ := q hh
  simp [nameAt, q1, q3]

theorem top_popAlt {g g' : Gen} {item : Item} (hg : GoodGen g) (h : Gen.popAltD g = .ok (item, g')) :
    Top g .alt item := by
  obtain ⟨s1, _, v, s, rest, m1, m2, m3⟩ := popAlt_spec g g' item (lift_ok (ok_of_link (popAlt_link g) h))
  refine ⟨(hg _ m1).2 item (by rw [m3]; simp), fun v s hm hh => ?_⟩
  obtain ⟨s', _, _, q, _⟩ := s1.mem hm
  obtain ⟨i, q1, _, q3⟩ := q hh
  simp [nameAt, q1, q3]

theorem toalt_told (stmt : OpcodeStmt) (hhead : stmt.head = .op .OP_TOALTSTACK) (g : Gen) (hg : GoodGen g)
    (hkeys : (g.states.map Prod.fst).Nodup) (d : Diag) (h : runOpcodeD stmt g = .err d) : Told stmt g d := by
  unfold runOpcodeD at h
  rw [hhead] at h
  dsimp only at h
  have ht : Takes stmt (.main 0) := ⟨_, hhead, by simp⟩
  rcases bind_err h with h | ⟨⟨item, g1⟩, h1, h⟩
  · obtain ⟨e, h', rfl⟩ := mapErr_err h
    exact (pop_told (Popped.zero g) hkeys stmt ht e h').inOpcode hhead
  · have h1 := mapErr_ok h1
    rcases bind_err h with h | ⟨_, _, h⟩
    · exact verify_told _ rfl stmt hhead g _ (.inl rfl) ht item (top_pop hg h1) d h
    · rcases bind_err h with h | ⟨_, _, h⟩
      · exact update_told _ rfl stmt hhead g item d h
      · cases h

theorem fromalt_told (stmt : OpcodeStmt) (hhead : stmt.head = .op .OP_FROMALTSTACK) (g : Gen) (hg : GoodGen g)
    (hkeys : (g.states.map Prod.fst).Nodup) (d : Diag) (h : runOpcodeD stmt g = .err d) : Told stmt g d := by
  unfold runOpcodeD at h
  rw [hhead] at h
  dsimp only at h
  have ht : Takes stmt .alt := ⟨_, hhead, rfl⟩
  rcases bind_err h with h | ⟨⟨item, g1⟩, h1, h⟩
  · obtain ⟨e, h', rfl⟩ := mapErr_err h
    exact (popAlt_told hkeys stmt ht e h').inOpcode hhead
  · have h1 := mapErr_ok h1
    rcases bind_err h with h | ⟨_, _, h⟩
    · exact verify_told _ rfl stmt hhead g _ (.inr rfl) ht item (top_popAlt hg h1) d h
    · rcases bind_err h with h | ⟨_, _, h⟩
      · exact update_told _ rfl stmt hhead g item d h
      · cases h

theorem runPickRoll_told (o : Opcode) (isRoll : Bool) (ho : o = if isRoll then .OP_ROLL else .OP_PICK)
    (stmt : OpcodeStmt) (hhead : stmt.head = .op o) (g : Gen) (hg : GoodGen g)
    (hkeys : (g.states.map Prod.fst).Nodup) (k : Nat) (hk : SDepth g k) (d : Diag)
    (h : runPickRollD o isRoll stmt g = .err d) : Told stmt g d := by
  have hm : moves o = true := by subst ho; cases isRoll <;> rfl
  have ht : Takes stmt (.main 0) := by
    refine ⟨_, hhead, ?_⟩
    dsimp only
    rw [if_pos (by subst ho; cases isRoll <;> simp)]
    trivial
  unfold runPickRollD at h
  rcases bind_err h with h | ⟨⟨item, g1⟩, h1, h⟩
  · obtain ⟨e, h', rfl⟩ := mapErr_err h
    exact (pop_told (Popped.zero g) hkeys stmt ht e h').inOpcode hhead
  · have h1 := mapErr_ok h1
    rcases bind_err h with h | ⟨_, _, h⟩
    · exact verify_told _ hm stmt hhead g _ (.inl rfl) ht item (top_pop hg h1) d h
    · rcases bind_err h with h | ⟨depth, _, h⟩
      · exfalso
        obtain ⟨s1, _, v, s, rest, m1, m2, m3⟩ := pop_spec g g1 item (lift_ok (ok_of_link (pop_link 0 g) h1))
        obtain ⟨_, x, hk⟩ := hk
        obtain ⟨i, r, j, q1, q2, _⟩ := hk v s m1 m2
        rw [m3] at q1
        cases q1
        rw [q2] at h
        dsimp only at h
        rw [if_pos (by omega)] at h
        cases h
      · rcases bind_err h with h | ⟨⟨it, g2⟩, _, h⟩
        · obtain ⟨e, h', rfl⟩ := mapErr_err h
          exact (pickRoll_told (Popped.next (Popped.zero g) h1) hkeys stmt isRoll (by rw [hhead, ho]) depth e h').inOpcode hhead
        · rcases bind_err h with h | ⟨_, _, h⟩
          · exact update_told _ hm stmt hhead g it d h
          · cases h

theorem findLoopD_err (x : String) (atoms : List Atom) (l : List (String × VState))
    (prev : Option (Nat × String × List Item)) (d : Diag)
    (hn : (l.map Prod.fst).Nodup) (hp : ∀ k w st, prev = some (k, w, st) → w ∉ l.map Prod.fst)
    (h : Gen.findLoopD x atoms l prev = .error d) :
    (∃ v s, (v, s) ∈ l ∧ s.condition.holds atoms = true ∧
      s.stack.findIdx? (fun item => item.name == x) = none ∧ d = .notFound x v) ∨
    (∃ w k st v s k', (prev = some (k, w, st) ∨ ∃ t, (w, t) ∈ l ∧ t.condition.holds atoms = true ∧ t.stack = st ∧
        t.stack.findIdx? (fun item => item.name == x) = some k) ∧
      (v, s) ∈ l ∧ s.condition.holds atoms = true ∧ s.stack.findIdx? (fun item => item.name == x) = some k' ∧
      k ≠ k' ∧ w ≠ v ∧
      d = .depths x w k v k' (st.reverse.map Item.name) (s.stack.reverse.map Item.name) atoms) := by
  induction l generalizing prev with
  | nil => cases h
  | cons q l ih =>
    obtain ⟨v, s⟩ := q
    simp only [List.map_cons, List.nodup_cons] at hn
    unfold Gen.findLoopD at h
    split at h
    · next hh =>
      split at h
      · next hf => cases h; exact .inl ⟨v, s, List.mem_cons_self, hh, hf, rfl⟩
      · next k hf =>
        have again : Gen.findLoopD x atoms l (some (k, v, s.stack)) = .error d →
            (∃ v' s', (v', s') ∈ (v, s) :: l ∧ s'.condition.holds atoms = true ∧
              s'.stack.findIdx? (fun item => item.name == x) = none ∧ d = .notFound x v') ∨
            (∃ w k st v' s' k', (prev = some (k, w, st) ∨ ∃ t, (w, t) ∈ (v, s) :: l ∧ t.condition.holds atoms = true ∧
              t.stack = st ∧ t.stack.findIdx? (fun item => item.name == x) = some k) ∧
              (v', s') ∈ (v, s) :: l ∧ s'.condition.holds atoms = true ∧
              s'.stack.findIdx? (fun item => item.name == x) = some k' ∧ k ≠ k' ∧ w ≠ v' ∧
              d = .depths x w k v' k' (st.reverse.map Item.name) (s'.stack.reverse.map Item.name) atoms) := by
          intro hr
          rcases ih _ hn.2 (by rintro a b c h; cases h; exact hn.1) hr with ⟨v', s', h1, h2⟩ |
            ⟨w, j, st, v', s', j', h1, h2, h3⟩
          · exact .inl ⟨v', s', List.mem_cons_of_mem _ h1, h2⟩
          · rcases h1 with h1 | ⟨t, h1, h4⟩
            · cases h1
              exact .inr ⟨v, k, s.stack, v', s', j', .inr ⟨s, List.mem_cons_self, hh, rfl, hf⟩,
                List.mem_cons_of_mem _ h2, h3⟩
            · exact .inr ⟨w, j, st, v', s', j', .inr ⟨t, List.mem_cons_of_mem _ h1, h4⟩, List.mem_cons_of_mem _ h2, h3⟩
        cases prev with
        | none => exact again h
        | some q =>
          obtain ⟨k0, w, st⟩ := q
          dsimp only at h
          split at h
          · exact again h
          · next hk =>
            cases h
            refine .inr ⟨w, k0, st, v, s, k, .inl rfl, List.mem_cons_self, hh, hf, hk, ?_, rfl⟩
            intro hwv
            exact hp k0 w st rfl (by rw [hwv]; simp)
    · rcases ih prev hn.2 (fun k w st h hm => hp k w st h (by
          simp only [List.map_cons]; exact List.mem_cons_of_mem _ hm)) h with ⟨v', s', h1, h2⟩ |
            ⟨w, j, st, v', s', j', h1, h2, h3⟩
      · exact .inl ⟨v', s', List.mem_cons_of_mem _ h1, h2⟩
      · rcases h1 with h1 | ⟨t, h1, h4⟩
        · exact .inr ⟨w, j, st, v', s', j', .inl h1, List.mem_cons_of_mem _ h2, h3⟩
        · exact .inr ⟨w, j, st, v', s', j', .inr ⟨t, List.mem_cons_of_mem _ h1, h4⟩, List.mem_cons_of_mem _ h2, h3⟩

theorem findLoopD_none (x : String) (atoms : List Atom) (l : List (String × VState))
    (prev : Option (Nat × String × List Item)) (h : Gen.findLoopD x atoms l prev = .ok none) :
    prev = none ∧ ∀ v s, (v, s) ∈ l → s.condition.holds atoms = false := by
  induction l generalizing prev with
  | nil =>
    cases prev with
    | none => exact ⟨rfl, by simp⟩
    | some p => cases h
  | cons q l ih =>
    obtain ⟨v, s⟩ := q
    unfold Gen.findLoopD at h
    split at h
    · exfalso
      split at h
      · cases h
      · cases prev with
        | none => cases (ih _ h).1
        | some q =>
          obtain ⟨k0, w, st⟩ := q
          dsimp only at h
          split at h
          · cases (ih _ h).1
          · cases h
    · next hh =>
      obtain ⟨i1, i2⟩ := ih _ h
      refine ⟨i1, fun v' s' hm => ?_⟩
      rcases List.mem_cons.mp hm with hm | hm
      · cases hm; simpa using hh
      · exact i2 v' s' hm

theorem idxOf_tag (stack : List Item) (x : String) (hx : reserved x = false) (hg : ∀ i ∈ stack, Good i) :
    (stack.map Item.tag).idxOf? (some x) = stack.findIdx? (fun item => item.name == x) := by
  induction stack with
  | nil => rfl
  | cons i is ih =>
    have ih := ih (fun j hj => hg j (by simp [hj]))
    unfold List.idxOf? at ih ⊢
    simp only [List.map_cons, List.findIdx?_cons]
    rw [ih]
    have : (i.name == x) = (i.tag == some x) := by
      rw [Bool.eq_iff_iff, beq_iff_eq, beq_iff_eq, good_name (hg i (by simp)) hx]
    rw [this]

theorem shows_stack (stack : List Item) (hg : ∀ i ∈ stack, Good i) :
    List.Forall₂ Shows (stack.reverse.map Item.name) (stack.map Item.tag).reverse := by
  rw [← List.map_reverse]
  have hg : ∀ i ∈ stack.reverse, Good i := fun i hi => hg i (List.mem_reverse.mp hi)
  revert hg
  generalize stack.reverse = l
  intro hg
  induction l with
  | nil => exact .nil
  | cons i l ih => exact .cons (shows_good (hg i (by simp))) (ih fun j hj => hg j (by simp [hj]))

theorem find_told (g : Gen) (hg : GoodGen g) (hkeys : (g.states.map Prod.fst).Nodup) (stmt : OpcodeStmt) (x : String)
    (hx : reserved x = false) (hr : RefersTo stmt x) (d : Diag) (h : g.findItemD x = .err d) : Told stmt g d := by
  unfold Gen.findItemD at h
  cases hl : Gen.findLoopD x g.atoms g.states none with
  | error d' =>
    rw [hl] at h
    cases h
    rcases findLoopD_err x g.atoms g.states none d hkeys (by rintro a b c h; cases h) hl with
      ⟨v, s, h1, h2, h3, rfl⟩ | ⟨w, k, st, v, s, k', h1, h2, h3, h4, h5, h6, rfl⟩
    · refine ⟨by unfold WrittenOp; exact hr, ?_, ?_⟩
      · unfold variants
        intro w hw
        simp only [List.mem_singleton] at hw
        subst hw
        exact ⟨s, h1, h2⟩
      · intro v' s' hm hh
        unfold About
        rintro rfl
        have := key_unique hkeys h1 hm
        subst this
        rw [← List.idxOf?_eq_none_iff, idxOf_tag _ x hx (hg _ h1).1]
        exact h3
    · rcases h1 with h1 | ⟨t, k1, k2, k3, k4⟩
      · cases h1
      refine ⟨by unfold WrittenOp; exact ⟨hr, h6, h5, rfl⟩, ?_, ?_⟩
      · unfold variants
        intro w' hw'
        simp only [List.mem_cons, List.not_mem_nil, or_false] at hw'
        rcases hw' with rfl | rfl
        · exact ⟨t, k1, k2⟩
        · exact ⟨s, h2, h3⟩
      · intro v' s' hm hh
        unfold About
        refine ⟨?_, ?_⟩
        · rintro rfl
          have := key_unique hkeys k1 hm
          subst this k3
          rw [idxOf_tag _ x hx (hg _ k1).1]
          exact ⟨k4, shows_stack _ (hg _ k1).1⟩
        · rintro rfl
          have := key_unique hkeys h2 hm
          subst this
          rw [idxOf_tag _ x hx (hg _ h2).1]
          exact ⟨h4, shows_stack _ (hg _ h2).1⟩
  | ok r =>
    rw [hl] at h
    cases r with
    | some k => cases h
    | none =>
      cases h
      obtain ⟨_, hn⟩ := findLoopD_none _ _ _ _ hl
      refine ⟨by unfold WrittenOp; trivial, by simp [variants], fun v s hm hh => ?_⟩
      rw [hn v s hm] at hh
      cases hh

theorem integerNew_err {k : Nat} {e : IntegerError} (h : Integer.new (k : Int) = .error e) :
    2 ^ 31 ≤ k ∧ (k < 2 ^ 64 → e = .castOverflow k) := by
  unfold Integer.new at h
  split at h
  · next hi =>
    split at h
    · cases h
    · next hh =>
      simp only [InI32, MIN_SCRIPT_INTEGER, MAX_SCRIPT_INTEGER] at hh hi
      omega
  · next hi =>
    simp only [InI32] at hi
    refine ⟨by omega, fun hk => ?_⟩
    rw [if_pos (by omega)] at h
    cases h
    rfl

theorem depthOf_told (x : String) (offset : Int) (stmt : OpcodeStmt) (g : Gen) (hg : GoodGen g)
    (hkeys : (g.states.map Prod.fst).Nodup) (hx : reserved x = false) (hr : RefersTo stmt x)
    (hhead : stmt.head = .depthOf ∨ stmt.head = .depthOfOffset) (d : Diag)
    (h : runDepthOfD x offset stmt g = .err d) : Told stmt g d := by
  unfold runDepthOfD at h
  rcases bind_err h with h | ⟨depth, h1, h⟩
  · exact find_told g hg hkeys stmt x hx hr d h
  · split at h
    · next e hi =>
      cases h
      refine ⟨by unfold WrittenOp; exact hhead, by simp [variants], fun v s hm hh => ?_⟩
      unfold About
      have hf := findItem_spec g x depth (lift_ok (ok_of_link (find_link g x) h1)) v s hm hh
      obtain ⟨hbig, he⟩ := integerNew_err hi
      have hlt : depth < s.stack.length := (List.findIdx?_eq_some_iff_getElem.mp hf).1
      exact ⟨depth, hbig, by simpa only [List.length_map] using hlt, he⟩
    · dsimp only at h
      split at h
      · cases h
      · split at h <;> cases h

theorem transmute_told (stmt : OpcodeStmt) (hhead : stmt.head = .transmute) (g : Gen) (hg : GoodGen g)
    (hkeys : (g.states.map Prod.fst).Nodup) (hx : ∀ y ∈ writtenNames stmt, reserved y = false) (d : Diag)
    (h : runTransmuteD stmt g = .err d) : Told stmt g d := by
  unfold runTransmuteD at h
  split at h
  · next x q hi =>
    have found : ((g.findItemD x).bind fun _ => (Res.ok ([], g) : Res Diag (List Emit × Gen))) = .err d → Told stmt g d := by
      intro h
      rcases bind_err h with h | ⟨_, _, h⟩
      · refine find_told g hg hkeys stmt x (hx x ?_) ⟨.inr (.inr hhead), _, hi⟩ d h
        unfold writtenNames
        rw [hi]
        simp [OpcodeInput.toString]
      · cases h
    cases ho : stmt.outputNames with
    | none => rw [ho] at h; exact found h
    | some l =>
      rw [ho] at h
      match l, ho, h with
      | [], _, h => exact found h
      | [y], ho, h =>
        dsimp only at h
        split at h
        · next hs =>
          cases h
          refine ⟨?_, by simp [variants], fun v s _ _ => by simp [About]⟩
          unfold WrittenOp
          exact ⟨hhead, x, y, [q], hi, ho, by simpa using hs⟩
        · exact found h
      | _ :: _ :: _, _, h => exact found h
  · next l hne =>
    cases h
    refine ⟨?_, by simp [variants], fun v s _ _ => by simp [About]⟩
    unfold WrittenOp
    refine ⟨hhead, rfl, ?_⟩
    intro x q hi
    exact hne x q hi

/-- One statement. -/
theorem opcode_told (stmt : OpcodeStmt) (k? : Option Nat) (hok : stmtOk k?.isSome stmt = true)
    (hnotif : stmt.head ≠ .op .OP_NOTIF) (g : Gen) (hg : GoodGen g) (hkeys : (g.states.map Prod.fst).Nodup)
    (hk : ∀ k, k? = some k → SDepth g k) (d : Diag) (h : runOpcodeD stmt g = .err d) : Told stmt g d := by
  unfold stmtOk at hok
  simp only [Bool.and_eq_true, List.all_eq_true, Bool.not_eq_true'] at hok
  obtain ⟨ok1, ok2⟩ := hok
  cases hhead : stmt.head with
  | op o =>
    by_cases h1 : o = .OP_TOALTSTACK
    · subst h1; exact toalt_told stmt hhead g hg hkeys d h
    by_cases h2 : o = .OP_FROMALTSTACK
    · subst h2; exact fromalt_told stmt hhead g hg hkeys d h
    by_cases h3 : o = .OP_PICK
    · subst h3
      rw [hhead] at ok2
      dsimp only at ok2
      obtain ⟨k, rfl⟩ := Option.isSome_iff_exists.mp ok2
      have h : runPickRollD .OP_PICK false stmt g = .err d := by
        unfold runOpcodeD at h; rw [hhead] at h; exact h
      exact runPickRoll_told .OP_PICK false rfl stmt hhead g hg hkeys k (hk k rfl) d h
    by_cases h4 : o = .OP_ROLL
    · subst h4
      rw [hhead] at ok2
      dsimp only at ok2
      obtain ⟨k, rfl⟩ := Option.isSome_iff_exists.mp ok2
      have h : runPickRollD .OP_ROLL true stmt g = .err d := by
        unfold runOpcodeD at h; rw [hhead] at h; exact h
      exact runPickRoll_told .OP_ROLL true rfl stmt hhead g hg hkeys k (hk k rfl) d h
    have e1 : runOpcodeD stmt g =
        if inNameMap o = true then runOtherD o stmt g else .err (.unknown o.name) := by
      unfold runOpcodeD
      rw [hhead]
      split <;> simp_all
    rw [e1] at h
    split at h
    · by_cases h5 : o = .OP_IFDUP
      · subst h5; cases h
      · refine other_told o ?_ (by rintro rfl; exact hnotif hhead) stmt hhead g hg hkeys d h
        unfold NamedProofs.special
        split <;> simp_all
    · next hm =>
      cases h
      refine ⟨?_, by simp [variants], fun v s _ _ => by simp [About]⟩
      unfold WrittenOp
      refine .inr ⟨o, hhead, rfl, ?_⟩
      unfold inNameMap at hm
      simp only [Bool.or_eq_true, Bool.and_eq_true, decide_eq_true_eq, not_or] at hm
      omega
  | depthOf =>
    unfold runOpcodeD at h
    rw [hhead] at h
    dsimp only at h
    split at h
    · next x hi =>
      refine depthOf_told x 0 stmt g hg hkeys (ok1 x ?_) ⟨.inl hhead, _, hi⟩ (.inl hhead) d h
      unfold writtenNames; rw [hi]; simp [OpcodeInput.toString]
    · next hne =>
      cases h
      refine ⟨?_, by simp [variants], fun v s _ _ => by simp [About]⟩
      unfold WrittenOp
      exact .inl ⟨hhead, fun x hi => hne x hi⟩
  | depthOfOffset =>
    unfold runOpcodeD at h
    rw [hhead] at h
    dsimp only at h
    split at h
    · next x t offset hi =>
      refine depthOf_told x offset stmt g hg hkeys (ok1 x ?_) ⟨.inr (.inl hhead), _, hi⟩ (.inr hhead) d h
      unfold writtenNames; rw [hi]; simp [OpcodeInput.toString]
    · next hne =>
      cases h
      refine ⟨?_, by simp [variants], fun v s _ _ => by simp [About]⟩
      unfold WrittenOp
      exact .inr ⟨hhead, fun x t i hi => hne x t i hi⟩
  | transmute =>
    unfold runOpcodeD at h
    rw [hhead] at h
    exact transmute_told stmt hhead g hg hkeys ok1 d h
  | unknown =>
    unfold runOpcodeD at h
    rw [hhead] at h
    cases h
    refine ⟨?_, by simp [variants], fun v s _ _ => by simp [About]⟩
    unfold WrittenOp
    exact .inl hhead

/-- OP_ELSE and OP_ENDIF. -/
theorem bracket_told (stmt : OpcodeStmt) (o : Opcode) (ho : o = .OP_ELSE ∨ o = .OP_ENDIF) (hhead : stmt.head = .op o)
    (g : Gen) (d : Diag) (h : runOpcodeD stmt g = .err d)
    (known : List Atom) : WrittenOp stmt known d ∧ variants d = [] ∧ unreached d = false := by
  have h : runOtherD o stmt g = .err d := by
    unfold runOpcodeD at h
    rw [hhead] at h
    rcases ho with rfl | rfl <;> exact h
  have hb : ∃ b, o.behavior = some b ∧ b.inputTypes.length = 0 ∧ b.outputTypes.length = 0 ∧ b.outputOrder = none ∧
      (flow o).1 = 0 ∧ (flow o).2 = [] := by
    rcases ho with rfl | rfl
    · exact ⟨_, rfl, rfl, rfl, rfl, rfl, rfl⟩
    · exact ⟨_, rfl, rfl, rfl, rfl, rfl, rfl⟩
  obtain ⟨b, hb1, hb2, hb3, hb4, hb5, hb6⟩ := hb
  unfold runOtherD at h
  rw [hb1] at h
  simp only [hb2, popND, Res.bind_ok] at h
  rcases bind_err h with h | ⟨_, _, h⟩
  · unfold checkInputNamesD at h
    cases hi : stmt.inputNames with
    | none => rw [hi] at h; cases h
    | some names =>
      rw [hi] at h
      dsimp only at h
      split at h
      · next hlen =>
        cases h
        refine ⟨?_, by simp [variants], by simp [unreached]⟩
        unfold WrittenOp
        exact ⟨o, names, hhead, hb5, hi, rfl, Ne.symm hlen⟩
      · cases h
  · rcases bind_err h with h | ⟨_, _, h⟩
    · unfold outputItemsD at h
      cases hi : stmt.outputNames with
      | none =>
        exfalso
        rw [hi, hb4] at h
        simp [hb3, collect] at h
      | some names =>
        rw [hi] at h
        dsimp only at h
        split at h
        · next hlen =>
          cases h
          refine ⟨?_, by simp [variants], by simp [unreached]⟩
          unfold WrittenOp
          exact ⟨names, hhead, by rw [hb6, hb3]; rfl, hi, rfl, hlen⟩
        · next hlen =>
          exfalso
          have hlen : names.length = 0 := by rw [hb3] at hlen; exact Decidable.not_not.mp hlen
          have : names = [] := List.length_eq_zero_iff.mp hlen
          subst this
          simp [collect] at h
    · cases h

theorem about_unreached {v : String} {stack alt : List (Option String)} {d : Diag} (h : unreached d = true)
    (ha : About v stack alt d) : False := by
  induction d with
  | noVariant => exact ha
  | noVariantFor _ => exact ha
  | inOpcode o d ih => exact ih h ha
  | _ => cases h

end BCash.DiagProofs
