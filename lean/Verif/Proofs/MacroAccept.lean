import Verif.Proofs.MacroRecord
import Verif.Spec.Accept

/-! # Acceptance by the macro -/

namespace BCash
open Spec Spec.Macro Spec.Named Macro

namespace GenProofs

/-- Some variant is possible. -/
def Live (g : Gen) : Prop := ∃ v s, (v, s) ∈ g.states ∧ s.condition.holds g.atoms = true

/-- The names of every possible variant are those of a run with the given property. -/
def Seen (g : Gen) (P : LState → Prop) : Prop :=
  ∀ v s, (v, s) ∈ g.states → s.condition.holds g.atoms = true →
    ∃ L, s.stack.map Item.tag = L.stack.map LItem.name ∧ s.alt.map Item.tag = L.alt.map LItem.name ∧ P L

theorem takeLoop_ok (f : VState → Except String (Item × VState)) (τ : Option String) (atoms : List Atom)
    (l : List (String × VState)) (prev : Option Item) (hprev : ∀ p, prev = some p → p.tag = τ)
    (h : ∀ v s, (v, s) ∈ l → s.condition.holds atoms = true → ∃ i s', f s = .ok (i, s') ∧ i.tag = τ) :
    ∃ l' last, Gen.takeLoop f atoms l prev = .ok (l', last) ∧ (∀ j, last = some j → j.tag = τ) ∧
      ((prev.isSome = true ∨ ∃ v s, (v, s) ∈ l ∧ s.condition.holds atoms = true) → last.isSome = true) := by
  induction l generalizing prev with
  | nil => exact ⟨[], prev, rfl, hprev, by simp⟩
  | cons p ps ih =>
    obtain ⟨v, s⟩ := p
    simp only [Gen.takeLoop]
    split
    · next hh =>
      obtain ⟨i, s', hf, ht⟩ := h v s (by simp) hh
      obtain ⟨l', last, q1, q2, q3⟩ := ih (some i) (by rintro p hp; cases hp; exact ht)
        (fun v s hm => h v s (by simp [hm]))
      rw [hf]
      simp only [Except.bind]
      rw [if_pos, q1]
      · exact ⟨_, _, rfl, q2, fun _ => q3 (.inl rfl)⟩
      · cases prev with
        | none => rfl
        | some p => rw [consistent_iff, ht, hprev p rfl]
    · next hh =>
      obtain ⟨l', last, q1, q2, q3⟩ := ih prev hprev (fun v s hm => h v s (by simp [hm]))
      rw [q1]
      refine ⟨_, _, rfl, q2, ?_⟩
      rintro (hp | ⟨v', t, hm, ht⟩)
      · exact q3 (.inl hp)
      · rcases List.mem_cons.mp hm with hm | hm
        · cases hm; exact absurd ht hh
        · exact q3 (.inr ⟨v', t, hm, ht⟩)

theorem take_ok (f : VState → Except String (Item × VState)) (τ : Option String) (g : Gen) (hl : Live g)
    (h : ∀ v s, (v, s) ∈ g.states → s.condition.holds g.atoms = true →
      ∃ i s', f s = .ok (i, s') ∧ i.tag = τ) :
    ∃ i g', Gen.take f g = .ok (i, g') ∧ i.tag = τ := by
  obtain ⟨l', last, q1, q2, q3⟩ := takeLoop_ok f τ g.atoms g.states none (by simp) h
  obtain ⟨j, rfl⟩ := Option.isSome_iff_exists.mp (q3 (.inr hl))
  refine ⟨j, { g with states := l' }, ?_, q2 j rfl⟩
  unfold Gen.take
  rw [q1]
  rfl

theorem pop_ok (τ : Option String) (g : Gen) (hl : Live g)
    (h : ∀ v s, (v, s) ∈ g.states → s.condition.holds g.atoms = true → ∃ i st, s.stack = i :: st ∧ i.tag = τ) :
    ∃ i g', g.pop = .ok (i, g') ∧ i.tag = τ := by
  refine take_ok _ τ g hl fun v s hm hh => ?_
  obtain ⟨i, st, h1, h2⟩ := h v s hm hh
  exact ⟨i, _, by rw [h1], h2⟩

theorem popAlt_ok (τ : Option String) (g : Gen) (hl : Live g)
    (h : ∀ v s, (v, s) ∈ g.states → s.condition.holds g.atoms = true → ∃ i st, s.alt = i :: st ∧ i.tag = τ) :
    ∃ i g', g.popAlt = .ok (i, g') ∧ i.tag = τ := by
  refine take_ok _ τ g hl fun v s hm hh => ?_
  obtain ⟨i, st, h1, h2⟩ := h v s hm hh
  exact ⟨i, _, by rw [h1], h2⟩

theorem pick_ok (τ : Option String) (k : Nat) (g : Gen) (hl : Live g)
    (h : ∀ v s, (v, s) ∈ g.states → s.condition.holds g.atoms = true → ∃ i, s.stack[k]? = some i ∧ i.tag = τ) :
    ∃ i g', g.pick k = .ok (i, g') ∧ i.tag = τ := by
  refine take_ok _ τ g hl fun v s hm hh => ?_
  obtain ⟨i, h1, h2⟩ := h v s hm hh
  exact ⟨i, _, by rw [h1], h2⟩

theorem roll_ok (τ : Option String) (k : Nat) (g : Gen) (hl : Live g)
    (h : ∀ v s, (v, s) ∈ g.states → s.condition.holds g.atoms = true → ∃ i, s.stack[k]? = some i ∧ i.tag = τ) :
    ∃ i g', g.roll k = .ok (i, g') ∧ i.tag = τ := by
  refine take_ok _ τ g hl fun v s hm hh => ?_
  obtain ⟨i, h1, h2⟩ := h v s hm hh
  exact ⟨i, _, by rw [h1], h2⟩

theorem findItem_ok (g : Gen) (hl : Live g) (x : String) (d : Nat)
    (h : ∀ v s, (v, s) ∈ g.states → s.condition.holds g.atoms = true →
      s.stack.findIdx? (fun item => item.name == x) = some d) : g.findItem x = .ok d := by
  have key : ∀ (l : List (String × VState)) (prev : Option Nat),
      (∀ v s, (v, s) ∈ l → s.condition.holds g.atoms = true →
        s.stack.findIdx? (fun item => item.name == x) = some d) →
      (∀ k, prev = some k → k = d) → (prev.isSome = true ∨ ∃ v s, (v, s) ∈ l ∧ s.condition.holds g.atoms = true) →
      Gen.findLoop x g.atoms l prev = .ok (some d) := by
    intro l
    induction l with
    | nil =>
      intro prev _ hp hs
      rcases hs with hs | ⟨v, s, hm, _⟩
      · obtain ⟨k, rfl⟩ := Option.isSome_iff_exists.mp hs
        rw [hp k rfl]; rfl
      · cases hm
    | cons p ps ih =>
      obtain ⟨v, s⟩ := p
      intro prev hl hp hs
      simp only [Gen.findLoop]
      split
      · next hh =>
        rw [hl v s (by simp) hh]
        dsimp only
        rw [if_pos]
        · exact ih (some d) (fun v s hm => hl v s (by simp [hm])) (by simp) (.inl rfl)
        · cases prev with
          | none => rfl
          | some k => simp [hp k rfl]
      · next hh =>
        refine ih prev (fun v s hm => hl v s (by simp [hm])) hp ?_
        rcases hs with hs | ⟨v', t, hm, ht⟩
        · exact .inl hs
        · rcases List.mem_cons.mp hm with hm | hm
          · cases hm; exact absurd ht hh
          · exact .inr ⟨v', t, hm, ht⟩
  unfold Gen.findItem
  rw [key g.states none h (by simp) (.inr hl)]
  rfl

theorem Step.live {P : VState → VState → Prop} {g g' : Gen} (h : Step P g g') (hl : Live g) : Live g' := by
  obtain ⟨v, s, hm, hh⟩ := hl
  obtain ⟨s', q1, q2, _⟩ := h.mem hm
  exact ⟨v, s', q1, by rw [q2, h.1]; exact hh⟩

theorem popN_ok (n : Nat) (T : List (Option String)) (g : Gen) (hl : Live g)
    (h : ∀ v s, (v, s) ∈ g.states → s.condition.holds g.atoms = true →
      n ≤ s.stack.length ∧ (s.stack.take n).map Item.tag = T) :
    ∃ its g', popN n g = .ok (its, g') ∧ its.map Item.tag = T.reverse := by
  induction n generalizing g T with
  | zero =>
    obtain ⟨v, s, hm, hh⟩ := hl
    have := (h v s hm hh).2
    simp only [List.take_zero, List.map_nil] at this
    subst this
    exact ⟨[], g, rfl, rfl⟩
  | succ n ih =>
    obtain ⟨v0, s0, hm0, hh0⟩ := id hl
    obtain ⟨τ, T', hT⟩ : ∃ τ T', T = τ :: T' := by
      obtain ⟨q1, q2⟩ := h v0 s0 hm0 hh0
      cases hs : s0.stack with
      | nil => rw [hs] at q1; simp at q1
      | cons i st => rw [hs] at q2; exact ⟨_, _, q2.symm⟩
    subst hT
    have h' : ∀ v s, (v, s) ∈ g.states → s.condition.holds g.atoms = true →
        ∃ i st, s.stack = i :: st ∧ i.tag = τ ∧ n ≤ st.length ∧ (st.take n).map Item.tag = T' := by
      intro v s hm hh
      obtain ⟨q1, q2⟩ := h v s hm hh
      cases hs : s.stack with
      | nil => rw [hs] at q1; simp at q1
      | cons i st =>
        rw [hs] at q1 q2
        simp only [List.take_succ_cons, List.map_cons, List.cons.injEq] at q2
        exact ⟨i, st, rfl, q2.1, by simpa using q1, q2.2⟩
    obtain ⟨i, g1, p1, p2⟩ := pop_ok τ g hl fun v s hm hh => by
      obtain ⟨i, st, a, b, _⟩ := h' v s hm hh
      exact ⟨i, st, a, b⟩
    obtain ⟨st1, _, _⟩ := pop_spec g g1 i p1
    obtain ⟨its, g2, r1, r2⟩ := ih T' g1 (st1.live hl) fun v s hm hh => by
      obtain ⟨t, a1, a2, a3, a4⟩ := st1.mem' hm
      have hh' : t.condition.holds g.atoms = true := by rw [← a2, ← st1.1]; exact hh
      obtain ⟨j, b1, _⟩ := a3 hh'
      obtain ⟨j', st, c1, c2, c3, c4⟩ := h' v t a1 hh'
      rw [b1] at c1
      cases c1
      exact ⟨c3, c4⟩
    refine ⟨its ++ [i], g2, ?_, by simp [r2, p2]⟩
    rw [popN, p1]
    simp only [lift, Res.bind_ok]
    rw [r1]
    rfl

theorem check_single {items : List Item} {names : Option (List OpcodeInput)}
    (h : argsOk names (items.map Item.tag) = true) : checkInputNames items names = .ok () := by
  unfold argsOk at h
  unfold checkInputNames
  cases names with
  | none => rfl
  | some ns =>
    simp only [Bool.and_eq_true, beq_iff_eq, List.length_map, List.all_eq_true] at h
    dsimp only
    rw [if_neg (by simp [h.1]), if_pos]
    simp only [List.all_eq_true]
    rintro ⟨item, a⟩ hm
    obtain ⟨i, hi, hget⟩ := List.getElem_of_mem hm
    simp only [List.length_zip] at hi
    simp only [List.getElem_zip, Prod.mk.injEq] at hget
    have := h.2 (ns[i], (items.map Item.tag)[i]'(by simp; omega)) (by
      rw [List.mem_iff_getElem]
      exact ⟨i, by simp; omega, by simp⟩)
    rw [← hget.1, ← hget.2]
    dsimp only at this ⊢
    cases hns : ns[i] with
    | expr t v => rfl
    | ident x =>
      rw [hns] at this
      simp only [inputNameOk, argOk, Bool.or_eq_true, beq_iff_eq, Bool.and_eq_true, Bool.not_eq_true'] at this ⊢
      rcases this with h | h
      · exact .inl h
      · right
        rw [List.getElem_map] at h
        exact tag_eq_some.mp h

theorem verify_single {stmt : OpcodeStmt} {item : Item} (h : nameIs stmt.inputNames item.tag = true) :
    verifyItemName stmt item = .ok () := by
  unfold nameIs at h
  unfold verifyItemName
  split at h
  · next hn => rw [hn]
  · next a hn =>
    rw [hn]
    dsimp only
    rw [if_pos]
    have : item.tag = some a.toString := by simpa using h
    exact (tag_eq_some.mp this).2.symm
  · cases h

theorem update_single {stmt : OpcodeStmt} {item : Item} {x : Option String}
    (h : renameOne stmt.outputNames item.tag = some x) : ∃ item', updateItemName stmt item = .ok item' := by
  unfold renameOne at h
  unfold updateItemName
  split at h
  · next hn => rw [hn]; exact ⟨_, rfl⟩
  · next w hn => rw [hn]; exact ⟨_, rfl⟩
  · cases h

theorem collect_ok {α β ε : Type} {f : α → Res ε β} {l : List α} (h : ∀ a ∈ l, ∃ b, f a = .ok b) :
    ∃ r, collect f l = .ok r := by
  induction l with
  | nil => exact ⟨[], rfl⟩
  | cons a as ih =>
    obtain ⟨b, hb⟩ := h a (by simp)
    obtain ⟨r, hr⟩ := ih fun x hx => h x (by simp [hx])
    exact ⟨b :: r, by simp [collect, hb, hr]⟩

theorem index_lt {α : Type} {l : List α} {i : Nat} (h : i < l.length) : ∃ a, index l i = .ok a := by
  unfold index
  rw [List.getElem?_eq_getElem h]
  exact ⟨_, rfl⟩

/-- Items taken and left are among the taken ones. -/
theorem flow_bound (o : Opcode) : ∀ j, some j ∈ (flow o).2 → j < (flow o).1 := by
  have : ((flow o).2.all fun j => j.all fun j => decide (j < (flow o).1)) = true := by
    cases o <;> rfl
  intro j hj
  have := List.all_eq_true.mp this _ hj
  simpa using this

theorem flow_grow (o : Opcode) : (flow o).2.length ≤ (flow o).1 + 3 := by
  have : decide ((flow o).2.length ≤ (flow o).1 + 3) = true := by cases o <;> rfl
  simpa using this

theorem output_single (o : Opcode) (b : OpcodeBehavior) (items : List Item)
    (names : Option (List String)) (n : Nat) (hb : o.behavior = some b)
    (h1 : NamedProofs.special o = false) (h2 : o ≠ .OP_NOTIF)
    (hdepth : o = .OP_DEPTH → ∃ x, names = some [x] ∧ x ≠ "__")
    (hplace : ∀ ns, names = some ns → ((ns.zip (flow o).2).all fun (w, f) => w != "__" || f.isSome) = true)
    (hlen : items.length = b.inputTypes.length) (T : List (Option String))
    (hren : (rename names ((flow o).2.map (labelAt T))).isSome = true) :
    ∃ out m, outputItems o b items names n = .ok (out, m) := by
  obtain ⟨t1, t2, t3⟩ := flow_table o b hb h1 h2
  unfold outputItems
  cases names with
  | some ns =>
    have hl : ns.length = b.outputTypes.length := by
      simp only [rename] at hren
      split at hren
      · next hl => rw [hl, List.length_map, t2]
      · cases hren
    dsimp only
    rw [if_neg (by simp [hl])]
    obtain ⟨r, hr⟩ : ∃ r, collect (fun (p : String × Nat) => namedOutput o b items p.1 p.2) ns.zipIdx = .ok r := by
      apply collect_ok
      rintro ⟨w, idx⟩ hm
      obtain ⟨hi, hw⟩ : ∃ h : idx < ns.length, ns[idx] = w := by
        have := List.mem_zipIdx hm
        exact ⟨by omega, by simp [this.2.2]⟩
      dsimp only
      unfold namedOutput
      by_cases hw2 : w = "__"
      · rw [if_pos hw2]
        have hfi : idx < (flow o).2.length := by omega
        have hsome : ((flow o).2[idx]).isSome = true := by
          have := List.all_eq_true.mp (hplace ns rfl) (ns[idx], (flow o).2[idx]) (by
            rw [List.mem_iff_getElem]; exact ⟨idx, by simp; omega, by simp⟩)
          dsimp only at this
          rw [hw, hw2] at this
          simpa using this
        obtain ⟨j, hj⟩ := Option.isSome_iff_exists.mp hsome
        have hjb := flow_bound o j (by rw [← hj]; exact List.getElem_mem _)
        rcases t3 with ⟨hr, order, ho, hcase⟩ | ⟨hr, ho, hcase⟩ | ⟨hr, ho, hcase⟩
        · rw [hr, ho]
          simp only [Bool.false_eq_true, if_false]
          rcases hcase with hcase | ⟨rfl, _, _⟩
          · have hol : idx < order.length := by rw [hcase] at hfi; simpa using hfi
            have : order[idx] = j := by
              have : (flow o).2[idx] = some (order[idx]) := by simp [hcase]
              rw [hj] at this
              exact (Option.some.inj this).symm
            have e1 : index order idx = .ok j := by
              unfold index; rw [List.getElem?_eq_getElem hol, this]
            rw [e1, Res.bind_ok]
            exact index_lt (by omega)
          · obtain ⟨x, hx, hx2⟩ := hdepth rfl
            cases hx
            have : idx = 0 := by simpa using hi
            subst this
            exact absurd (hw.trans hw2) hx2
        · exfalso
          have : (flow o).2[idx] = none := by simp [hcase]
          rw [hj] at this; cases this
        · rw [hr]
          simp only [if_true]
          exact index_lt (by omega)
      · rw [if_neg hw2]; exact ⟨_, rfl⟩
    have hr' : collect (fun x : String × Nat => match x with
        | (name, idx) => namedOutput o b items name idx) ns.zipIdx = .ok r := hr
    rw [hr']
    exact ⟨_, _, rfl⟩
  | none =>
    dsimp only
    rcases t3 with ⟨hr, order, ho, hcase⟩ | ⟨hr, ho, hcase⟩ | ⟨hr, ho, hcase⟩
    · rw [ho]
      dsimp only
      obtain ⟨r, hr⟩ : ∃ r, collect (index items) order = .ok r := by
        apply collect_ok
        intro j hj
        rcases hcase with hcase | ⟨rfl, _, _⟩
        · have := flow_bound o j (by rw [hcase]; exact List.mem_map_of_mem hj)
          exact index_lt (by omega)
        · obtain ⟨x, hx, _⟩ := hdepth rfl
          cases hx
      rw [hr]
      exact ⟨_, _, rfl⟩
    · rw [ho]
      dsimp only
      obtain ⟨r, hr2⟩ : ∃ r, collect (fun i => if o.retainsInput = true then index items 0
          else .ok ⟨freshName (n + i), true, none⟩) (List.range b.outputTypes.length) = .ok r := by
        apply collect_ok
        intro j _
        rw [hr]
        exact ⟨_, rfl⟩
      rw [hr2]
      exact ⟨_, _, rfl⟩
    · rw [ho]
      dsimp only
      obtain ⟨r, hr2⟩ : ∃ r, collect (fun i => if o.retainsInput = true then index items 0
          else .ok ⟨freshName (n + i), true, none⟩) (List.range b.outputTypes.length) = .ok r := by
        apply collect_ok
        intro j _
        rw [hr]
        refine index_lt ?_
        have : 0 < (flow o).1 := by
          have : ∀ o : Opcode, o.retainsInput = true → (flow o).1 = 1 := by
            intro o h; cases o <;> first | rfl | cases h
          rw [this o hr]; omega
        omega
      rw [hr2]
      exact ⟨_, _, rfl⟩


theorem rename_isSome {o : Option (List String)} {a : Option String} {x : Option String}
    (h : renameOne o a = some x) (b : Option String) : (renameOne o b).isSome = true := by
  unfold renameOne at h ⊢
  split at h <;> simp_all

theorem update_single' {stmt : OpcodeStmt} {item : Item} {a x : Option String}
    (h : renameOne stmt.outputNames a = some x) : ∃ item', updateItemName stmt item = .ok item' := by
  obtain ⟨y, hy⟩ := Option.isSome_iff_exists.mp (rename_isSome h item.tag)
  exact update_single hy

/-- The opcodes the machine executes are tracked, except OP_IFDUP. -/
theorem tracked (env : Vm.Env) (o : Opcode) (s s' : List Bytes) (h : Vm.main env o.toByte s = some s')
    (h1 : o ≠ .OP_IFDUP) : inNameMap o = true ∧ (∃ b, o.behavior = some b) := by
  cases o
  all_goals first
    | (cases h; done)
    | exact absurd rfl h1
    | exact ⟨rfl, ⟨_, rfl⟩⟩

theorem ordinary_accept (env : Vm.Env) (o : Opcode) (stmt : OpcodeStmt) (g : Gen) (hl : Live g)
    (T : List (Option String))
    (hseen : Seen g fun L => (L.stack.take (flow o).1).map LItem.name = T ∧ ∃ L', ordinary env o stmt L = .ok L')
    (h1 : NamedProofs.special o = false) (m3 : o ≠ .OP_NOTIF)
    (hdepth : o = .OP_DEPTH → ∃ x, stmt.outputNames = some [x] ∧ x ≠ "__")
    (hplace : ∀ ns, stmt.outputNames = some ns →
      ((ns.zip (flow o).2).all fun (w, f) => w != "__" || f.isSome) = true) :
    inNameMap o = true ∧ ∃ r, runOther o stmt g = .ok r := by
  have hdeep : ∀ L L', ordinary env o stmt L = .ok L' → (flow o).1 ≤ L.stack.length := by
    intro L L' h
    unfold ordinary at h
    dsimp only at h
    split at h
    · cases h
    · omega
  obtain ⟨v0, s0, hm0, hh0⟩ := id hl
  obtain ⟨L, hs, -, hT, L', h⟩ := hseen v0 s0 hm0 hh0
  unfold ordinary at h
  dsimp only at h
  split at h
  · cases h
  next hlen =>
  split at h
  · cases h
  next hargs =>
  split at h
  · cases h
  next names hren =>
  split at h
  · cases h
  next s' hmain =>
  clear h
  obtain ⟨m1, ⟨b, m2⟩⟩ := tracked env o _ _ hmain (by rintro rfl; cases h1)
  obtain ⟨t1, t2, _⟩ := flow_table o b m2 h1 m3
  obtain ⟨its, g1, p1, p2⟩ := popN_ok (flow o).1 T g hl fun v s hm hh => by
    obtain ⟨L1, e1, -, e2, L2, e3⟩ := hseen v s hm hh
    have := congrArg List.length e1
    simp only [List.length_map] at this
    exact ⟨by rw [this]; exact hdeep L1 L2 e3, by rw [List.map_take, e1, ← List.map_take]; exact e2⟩
  have htag : its.map Item.tag = ((L.stack.take (flow o).1).reverse).map LItem.name := by
    rw [p2, ← hT, List.map_reverse]
  have hil : its.length = b.inputTypes.length := by
    have := congrArg List.length htag
    simp only [List.length_map, List.length_reverse, List.length_take] at this
    omega
  refine ⟨m1, ?_⟩
  unfold runOther
  rw [m2]
  dsimp only
  rw [← t1, p1]
  simp only [Res.bind_ok]
  rw [check_single (by rw [htag]; simpa using hargs)]
  simp only [Res.bind_ok]
  rw [labels_taken _ _ rfl] at hren
  obtain ⟨out, m, ho⟩ := output_single o b its stmt.outputNames g1.nIdent m2 h1 m3 hdepth hplace hil _
    (by rw [hren]; rfl)
  rw [ho]
  exact ⟨_, rfl⟩

theorem ordinary_grow (env : Vm.Env) (o : Opcode) (stmt : OpcodeStmt) (L L' : LState)
    (h : ordinary env o stmt L = .ok L') : L'.stack.length ≤ L.stack.length + 3 := by
  unfold ordinary at h
  dsimp only at h
  split at h
  · cases h
  next hlen =>
  split at h
  · cases h
  split at h
  · cases h
  next names hren =>
  split at h
  · cases h
  cases h
  have hnl : names.length = (flow o).2.length := by
    unfold rename at hren
    split at hren
    · cases hren; simp
    · split at hren
      · next hl => cases hren; simp at hl ⊢; omega
      · cases hren
  have := flow_grow o
  simp only [List.length_append, List.length_zipWith, List.length_reverse, List.length_drop]
  omega

theorem pickRoll_grow (r : Bool) (stmt : OpcodeStmt) (L L' : LState) (h : pickRoll r stmt L = .ok L') :
    L'.stack.length ≤ L.stack.length + 3 := by
  unfold pickRoll at h
  split at h
  · cases h
  next top st hL =>
  rw [hL]
  split at h
  · cases h
  split at h
  · cases h
  split at h
  · cases h
  split at h
  · cases h
  split at h
  · cases h
  cases h
  cases r <;> simp [List.length_eraseIdx]
  split <;> omega

theorem leaf_grow (env : Vm.Env) (l : Leaf) (L L' : LState) (h : Named.leaf env l L = .ok L') :
    L'.stack.length ≤ L.stack.length + 3 := by
  unfold Named.leaf at h
  split at h
  · split at h
    · cases h; simp
    · cases h
  · split at h
    · split at h
      · cases h
      next hL =>
      split at h
      · cases h
      split at h
      · cases h
      cases h
      rw [hL]; simp; omega
    · split at h
      · cases h
      split at h
      · cases h
      split at h
      · cases h
      cases h
      simp
    · exact pickRoll_grow _ _ _ _ h
    · exact pickRoll_grow _ _ _ _ h
    · exact ordinary_grow _ _ _ _ _ h
    · unfold depthOf at h
      split at h
      · cases h
      split at h
      · cases h
      cases h; simp
    · unfold depthOf at h
      split at h
      · cases h
      split at h
      · cases h
      cases h; simp
    · split at h
      · cases h; omega
      · cases h
    · cases h
  · cases h

theorem integerNew_of {x : Int} (h1 : -2 ^ 31 < x) (h2 : x < 2 ^ 31) : Integer.new x = .ok x := by
  unfold Integer.new
  rw [if_pos (by unfold InI32; omega), if_pos (by simp only [MIN_SCRIPT_INTEGER, MAX_SCRIPT_INTEGER]; omega)]

/-- The item a statement refers to. -/
theorem find_seen (g : Gen) (hg : GoodGen g) (hl : Live g) (x : String) (hx : reserved x = false)
    (D : Option Nat) (hseen : Seen g fun L => L.stack.length < 2 ^ 30 ∧
      (L.stack.findIdx? fun i => i.name == some x) = D ∧ D.isSome = true) :
    ∃ d : Nat, d < 2 ^ 30 ∧ g.findItem x = .ok d := by
  obtain ⟨v0, s0, hm0, hh0⟩ := id hl
  obtain ⟨L, hs, -, hlen, hD, hsome⟩ := hseen v0 s0 hm0 hh0
  obtain ⟨d, rfl⟩ := Option.isSome_iff_exists.mp hsome
  have hdl : d < L.stack.length := (List.findIdx?_eq_some_iff_getElem.mp hD).1
  refine ⟨d, by omega, findItem_ok g hl x d fun v s hm hh => ?_⟩
  obtain ⟨L1, e1, -, _, e2, _⟩ := hseen v s hm hh
  rw [findIdx_tag s.stack L1.stack x hx (hg _ hm).1 e1]
  exact e2

theorem depthOf_accept (x : String) (offset : Int) (stmt : OpcodeStmt) (g : Gen) (hl : Live g)
    (hg : GoodGen g) (hx : reserved x = false) (D : Option Nat)
    (hseen : Seen g fun L => L.stack.length < 2 ^ 30 ∧
      (L.stack.findIdx? fun i => i.name == some x) = D ∧ ∃ L', depthOf x offset stmt L = .ok L')
    (ho : -2 ^ 30 ≤ offset ∧ offset ≤ 2 ^ 30) : ∃ r, runDepthOf x offset stmt g = .ok r := by
  obtain ⟨d, hd, hf⟩ := find_seen g hg hl x hx D fun v s hm hh => by
    obtain ⟨L, e1, e2, e3, e4, L', e5⟩ := hseen v s hm hh
    refine ⟨L, e1, e2, e3, e4, ?_⟩
    unfold depthOf at e5
    rw [e4] at e5
    cases D with
    | none => cases e5
    | some d => rfl
  have b2 : -1073741824 ≤ offset ∧ offset ≤ 1073741824 := by simp only [Int.reducePow] at ho; exact ho
  clear ho
  have b1 : (d : Int) < 1073741824 := by simp only [Nat.reducePow] at hd; omega
  clear hd
  have c1 : Integer.new (d : Int) = .ok (d : Int) :=
    integerNew_of (by simp only [Int.reducePow]; omega) (by simp only [Int.reducePow]; omega)
  have c2 : Integer.new ((d : Int) + offset) = .ok ((d : Int) + offset) :=
    integerNew_of (by simp only [Int.reducePow]; omega) (by simp only [Int.reducePow]; omega)
  have c3 : InI32 ((d : Int) + offset) := by unfold InI32; simp only [Int.reducePow]; omega
  unfold runDepthOf
  rw [hf, show lift (Except.ok d) = Res.ok d from rfl, Res.bind_ok, c1]
  dsimp only
  rw [if_neg (not_not_intro c3), c2]
  exact ⟨_, rfl⟩

theorem Seen.mono {g : Gen} {P Q : LState → Prop} (h : Seen g P) (hPQ : ∀ L, P L → Q L) : Seen g Q := by
  intro v s hm hh
  obtain ⟨L, e1, e2, e3⟩ := h v s hm hh
  exact ⟨L, e1, e2, hPQ L e3⟩

theorem pickRoll_accept (op : Opcode) (r : Bool) (k : Nat) (stmt : OpcodeStmt) (g : Gen) (hl : Live g)
    (hk : SDepth g k) (T : List (Option String))
    (hseen : Seen g fun L => (L.stack.take 1).map LItem.name = T ∧ ∃ L', pickRoll r stmt L = .ok L') :
    ∃ res, runPickRoll op r stmt g = .ok res := by
  obtain ⟨_, y, hy⟩ := hk
  obtain ⟨v0, s0, hm0, hh0⟩ := id hl
  obtain ⟨L, hs, -, hT, L', h⟩ := hseen v0 s0 hm0 hh0
  unfold pickRoll at h
  split at h
  · cases h
  next top lrest hL =>
  rw [hL] at hs hT
  simp only [List.take_succ_cons, List.take_zero, List.map_cons, List.map_nil] at hT
  split at h
  · cases h
  next hnm =>
  split at h
  · cases h
  split at h
  · cases h
  split at h
  · cases h
  next item hitem =>
  split at h
  · cases h
  next name hn =>
  clear h
  obtain ⟨i, g1, p1, p2⟩ := pop_ok top.name g hl fun v s hm hh => by
    obtain ⟨L1, e1, -, e2, _⟩ := hseen v s hm hh
    obtain ⟨it, rest, j, r1, _⟩ := hy v s hm hh
    refine ⟨it, rest, r1, ?_⟩
    rw [r1] at e1
    cases hL1 : L1.stack with
    | nil => rw [hL1] at e1; simp at e1
    | cons t ts =>
      rw [hL1] at e1 e2
      simp only [List.map_cons, List.cons.injEq] at e1
      rw [← hT] at e2
      simp only [List.take_succ_cons, List.take_zero, List.map_cons, List.map_nil, List.cons.injEq,
        and_true] at e2
      rw [e1.1, e2]
  obtain ⟨st1, _, v1, s1, rest1, a1, a2, a3⟩ := pop_spec g g1 i p1
  have hint : i.integer = some (k : Int) := by
    obtain ⟨it, rest, j, r1, r2, _⟩ := hy v1 s1 a1 a2
    rw [a3] at r1
    cases r1
    exact r2
  have hat : ∀ v s, (v, s) ∈ g1.states → s.condition.holds g1.atoms = true →
      ∃ i, s.stack[k]? = some i ∧ i.tag = some y := by
    intro v s hm hh
    obtain ⟨t, b1, b2, b3, _⟩ := st1.mem' hm
    have hh' : t.condition.holds g.atoms = true := by rw [← b2, ← st1.1]; exact hh
    obtain ⟨it, rest, j, r1, r2, r3, r4⟩ := hy v t b1 hh'
    obtain ⟨i', c1, _⟩ := b3 hh'
    rw [c1] at r1
    cases r1
    exact ⟨j, r3, r4⟩
  unfold runPickRoll
  rw [p1]
  simp only [lift, Res.bind_ok]
  rw [verify_single (by rw [p2]; simpa using hnm), Res.bind_ok, hint]
  dsimp only
  rw [if_pos (by omega), Res.bind_ok, Int.toNat_natCast]
  cases r with
  | true =>
    simp only [if_true]
    obtain ⟨j, g2, q1, q2⟩ := roll_ok (some y) k g1 (st1.live hl) hat
    rw [q1]
    simp only [Res.bind_ok]
    obtain ⟨it', hu⟩ := update_single' (stmt := stmt) (item := j) hn
    rw [hu]
    exact ⟨_, rfl⟩
  | false =>
    simp only [Bool.false_eq_true, if_false]
    obtain ⟨j, g2, q1, q2⟩ := pick_ok (some y) k g1 (st1.live hl) hat
    rw [q1]
    simp only [Res.bind_ok]
    obtain ⟨it', hu⟩ := update_single' (stmt := stmt) (item := j) hn
    rw [hu]
    exact ⟨_, rfl⟩

theorem leaf_accept (env : Vm.Env) (k? : Option Nat) (l : Leaf) (u : Use) (g : Gen)
    (hg : GoodGen g) (hk : ∀ k, k? = some k → SDepth g k) (hl : Live g)
    (hseen : Seen g fun L => L.stack.length < 2 ^ 30 ∧ uses l L = u ∧ ∃ L', Named.leaf env l L = .ok L')
    (hn1 : opens l = false) (hok : leafOk k?.isSome l = true) (hacc : acceptable l = true) :
    ∃ r, runLeaf l g = .ok r := by
  have h0 : ∃ L L', Named.leaf env l L = .ok L' := by
    obtain ⟨v0, s0, hm0, hh0⟩ := id hl
    obtain ⟨L, _, _, _, _, L', h⟩ := hseen v0 s0 hm0 hh0
    exact ⟨L, L', h⟩
  obtain ⟨L0, L0', h0⟩ := h0
  cases l with
  | push op name => exact ⟨_, rfl⟩
  | forLoop => cases h0
  | rustIf => cases h0
  | opcode stmt =>
    simp only [leafOk] at hok
    have hw : (writtenNames stmt).all (fun x => !reserved x) = true := by
      simp only [stmtOk, Bool.and_eq_true] at hok
      exact hok.1
    obtain ⟨hd, i, o⟩ := stmt
    cases hd with
    | unknown => cases h0
    | depthOf =>
      simp only [Named.leaf] at h0
      simp only [runLeaf, runOpcode]
      split at h0 <;> first | (cases h0; done) | skip
      all_goals first | (rename_i q; cases q; done) | skip
      · next x q =>
        cases q
        refine depthOf_accept x 0 _ g hl hg ?_ u.depth (hseen.mono ?_) (by omega)
        · have := List.all_eq_true.mp hw x (by simp [writtenNames, OpcodeInput.toString])
          simpa using this
        · rintro L ⟨a, b, L', c⟩
          exact ⟨a, by rw [← b]; rfl, L', c⟩
    | depthOfOffset =>
      simp only [Named.leaf] at h0
      simp only [runLeaf, runOpcode]
      split at h0 <;> first | (cases h0; done) | skip
      all_goals first | (rename_i q; cases q; done) | skip
      · next x t off q =>
        cases q
        simp only [acceptable, Bool.and_eq_true, decide_eq_true_eq] at hacc
        refine depthOf_accept x off _ g hl hg ?_ u.depth (hseen.mono ?_) hacc
        · have := List.all_eq_true.mp hw x (by simp [writtenNames, OpcodeInput.toString])
          simpa using this
        · rintro L ⟨a, b, L', c⟩
          exact ⟨a, by rw [← b]; rfl, L', c⟩
    | transmute =>
      simp only [Named.leaf] at h0
      simp only [runLeaf, runOpcode, runTransmute]
      split at h0 <;> first | (cases h0; done) | skip
      all_goals first | (rename_i q; cases q; done) | skip
      · next x a q =>
        cases q
        have hx : reserved x = false := by
          have := List.all_eq_true.mp hw x (by simp [writtenNames, OpcodeInput.toString])
          simpa using this
        obtain ⟨d, _, hf⟩ := find_seen g hg hl x hx u.depth (hseen.mono (by
          rintro L ⟨a, b, L', c⟩
          have hb : (L.stack.findIdx? fun i => i.name == some x) = u.depth := by rw [← b]; rfl
          refine ⟨a, hb, ?_⟩
          rw [← hb]
          simp only [Named.leaf] at c
          split at c
          · next hany => simpa using hany
          · cases c))
        dsimp only
        simp only [acceptable] at hacc
        rw [if_neg, hf]
        · exact ⟨_, rfl⟩
        · split at hacc
          · simp
          · simpa using hacc
          · cases hacc
    | op q =>
      by_cases c1 : q = .OP_TOALTSTACK
      · subst c1
        simp only [Named.leaf] at h0
        have hone : ∀ L, (∃ L', Named.leaf env (.opcode ⟨.op .OP_TOALTSTACK, i, o⟩) L = .ok L') →
            ∃ top st, L.stack = top :: st ∧ nameIs i top.name = true ∧
              ∃ name, renameOne o top.name = some name := by
          rintro L ⟨L', h⟩
          simp only [Named.leaf] at h
          split at h
          · cases h
          next top rest hL =>
          split at h
          · cases h
          next hnm =>
          split at h
          · cases h
          next name hn => exact ⟨top, rest, hL, by simpa using hnm, name, hn⟩
        obtain ⟨v0, s0, hm0, hh0⟩ := id hl
        obtain ⟨L, hs, -, -, hu, hL'⟩ := hseen v0 s0 hm0 hh0
        obtain ⟨top, st, hL, hnm, name, hn⟩ := hone L hL'
        obtain ⟨it, g1, p1, p2⟩ := pop_ok top.name g hl fun v s hm hh => by
          obtain ⟨L1, e1, -, -, e2, e3⟩ := hseen v s hm hh
          obtain ⟨top1, st1, f1, _⟩ := hone L1 e3
          rw [f1] at e1
          cases hst : s.stack with
          | nil => rw [hst] at e1; simp at e1
          | cons it rest =>
            rw [hst] at e1
            simp only [List.map_cons, List.cons.injEq] at e1
            refine ⟨it, rest, rfl, ?_⟩
            have e4 := e2.trans hu.symm
            simp only [uses, f1, hL, List.take_succ_cons, List.take_zero, List.map_cons, List.map_nil,
              Use.mk.injEq, List.cons.injEq, and_true] at e4
            rw [e1.1, e4]
        simp only [runLeaf, runOpcode]
        rw [p1]
        simp only [lift, Res.bind_ok]
        rw [verify_single (by rw [p2]; exact hnm), Res.bind_ok]
        obtain ⟨it', hu⟩ := update_single' (stmt := ⟨.op .OP_TOALTSTACK, i, o⟩) (item := it) hn
        rw [hu]
        exact ⟨_, rfl⟩
      by_cases c2 : q = .OP_FROMALTSTACK
      · subst c2
        have hone : ∀ L, (∃ L', Named.leaf env (.opcode ⟨.op .OP_FROMALTSTACK, i, o⟩) L = .ok L') →
            ∃ top st, L.alt = top :: st ∧ nameIs i top.name = true ∧
              ∃ name, renameOne o top.name = some name := by
          rintro L ⟨L', h⟩
          simp only [Named.leaf] at h
          split at h
          · cases h
          next top rest hL =>
          split at h
          · cases h
          next hnm =>
          split at h
          · cases h
          next name hn => exact ⟨top, rest, hL, by simpa using hnm, name, hn⟩
        obtain ⟨v0, s0, hm0, hh0⟩ := id hl
        obtain ⟨L, -, hs, -, hu, hL'⟩ := hseen v0 s0 hm0 hh0
        obtain ⟨top, st, hL, hnm, name, hn⟩ := hone L hL'
        obtain ⟨it, g1, p1, p2⟩ := popAlt_ok top.name g hl fun v s hm hh => by
          obtain ⟨L1, -, e1, -, e2, e3⟩ := hseen v s hm hh
          obtain ⟨top1, st1, f1, _⟩ := hone L1 e3
          rw [f1] at e1
          cases hst : s.alt with
          | nil => rw [hst] at e1; simp at e1
          | cons it rest =>
            rw [hst] at e1
            simp only [List.map_cons, List.cons.injEq] at e1
            refine ⟨it, rest, rfl, ?_⟩
            have e4 := e2.trans hu.symm
            simp only [uses, f1, hL, List.take_succ_cons, List.take_zero, List.map_cons, List.map_nil,
              Use.mk.injEq, List.cons.injEq, and_true] at e4
            rw [e1.1, e4]
        simp only [runLeaf, runOpcode]
        rw [p1]
        simp only [lift, Res.bind_ok]
        rw [verify_single (by rw [p2]; exact hnm), Res.bind_ok]
        obtain ⟨it', hu⟩ := update_single' (stmt := ⟨.op .OP_FROMALTSTACK, i, o⟩) (item := it) hn
        rw [hu]
        exact ⟨_, rfl⟩
      by_cases c3 : q = .OP_PICK
      · subst c3
        simp only [stmtOk, Bool.and_eq_true] at hok
        obtain ⟨k, rfl⟩ := Option.isSome_iff_exists.mp hok.2
        refine pickRoll_accept .OP_PICK false k _ g hl (hk k rfl) u.names (hseen.mono ?_)
        rintro L ⟨_, b, L', c⟩
        exact ⟨by rw [← b]; rfl, L', c⟩
      by_cases c4 : q = .OP_ROLL
      · subst c4
        simp only [stmtOk, Bool.and_eq_true] at hok
        obtain ⟨k, rfl⟩ := Option.isSome_iff_exists.mp hok.2
        refine pickRoll_accept .OP_ROLL true k _ g hl (hk k rfl) u.names (hseen.mono ?_)
        rintro L ⟨_, b, L', c⟩
        exact ⟨by rw [← b]; rfl, L', c⟩
      by_cases c5 : q = .OP_IFDUP
      · subst c5; cases hacc
      have hsp : NamedProofs.special q = false := by
        cases q <;> first | rfl | exact absurd rfl c1 | exact absurd rfl c2 | exact absurd rfl c3 |
          exact absurd rfl c4 | exact absurd rfl c5
      have hlf : ∀ L, Named.leaf env (.opcode ⟨.op q, i, o⟩) L = ordinary env q ⟨.op q, i, o⟩ L := by
        intro L
        unfold Named.leaf
        dsimp only
        split <;> simp_all
      have hus : ∀ L, uses (.opcode ⟨.op q, i, o⟩) L = ⟨(L.stack.take (flow q).1).map LItem.name, none⟩ := by
        intro L
        cases q <;> first | rfl | exact absurd rfl c1 | exact absurd rfl c2 | exact absurd rfl c3 |
          exact absurd rfl c4
      obtain ⟨m1, r, m2⟩ := ordinary_accept env q ⟨.op q, i, o⟩ g hl u.names (hseen.mono (by
          rintro L ⟨_, b, L', c⟩
          rw [hus] at b
          rw [hlf] at c
          exact ⟨by rw [← b], L', c⟩)) hsp (by rintro rfl; cases hn1) (by
          rintro rfl
          simp only [acceptable] at hacc
          split at hacc
          · exact ⟨_, rfl, by simpa using hacc⟩
          · cases hacc) (by
          intro ns hns
          dsimp only at hns
          subst hns
          by_cases c6 : q = .OP_DEPTH
          · subst c6
            simp only [acceptable] at hacc
            split at hacc
            · next x q2 => cases q2; simp [flow]; simpa using hacc
            · cases hacc
          · have : acceptable (.opcode ⟨.op q, i, some ns⟩) =
                (ns.zip (flow q).2).all fun (w, f) => w != "__" || f.isSome := by
              cases q <;> first | rfl | exact absurd rfl c1 | exact absurd rfl c2 | exact absurd rfl c3 |
                exact absurd rfl c4 | exact absurd rfl c5 | exact absurd rfl c6
            rw [← this]; exact hacc)
      refine ⟨r, ?_⟩
      rw [← m2]
      have : runOpcode ⟨.op q, i, o⟩ g =
          if inNameMap q then runOther q ⟨.op q, i, o⟩ g else .err "Unknown opcode/function" := by
        unfold runOpcode
        dsimp only
        split <;> simp_all
      simp only [runLeaf]
      rw [this, if_pos m1]

end GenProofs
end BCash
