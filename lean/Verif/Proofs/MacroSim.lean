import Verif.Proofs.MacroGen

/-! # Tracked names against execution with names -/

namespace BCash
open Spec Spec.Macro Spec.Named Macro

namespace GenProofs

theorem collect_get {α β ε : Type} {f : α → Res ε β} {l : List α} {r : List β}
    (h : collect f l = .ok r) : ∃ hl : r.length = l.length,
      ∀ (i : Nat) (hi : i < l.length), f l[i] = .ok (r[i]'(hl ▸ hi)) := by
  induction l generalizing r with
  | nil =>
    simp only [collect, Res.ok.injEq] at h
    subst h
    exact ⟨rfl, by intro i hi; simp at hi⟩
  | cons a as ih =>
    simp only [collect, Res.bind_eq_ok] at h
    obtain ⟨b, hb, bs, hbs, h⟩ := h
    simp only [Res.ok.injEq] at h
    subst h
    obtain ⟨hl, hget⟩ := ih hbs
    refine ⟨by simp [hl], ?_⟩
    intro i hi
    cases i with
    | zero => simpa using hb
    | succ i => simpa using hget i (by simpa using hi)

theorem index_ok {α : Type} {l : List α} {i : Nat} {a : α} (h : index l i = .ok a) : l[i]? = some a := by
  unfold index at h
  split at h
  · next x hx => cases h; exact hx
  · cases h

/-- The label of a taken item. -/
def labelAt (T : List (Option String)) (i : Option Nat) : Option String := i.bind fun i => (T[i]?).join

theorem labelAt_index {items : List Item} {i : Nat} {a : Item} (h : index items i = .ok a) :
    labelAt (items.map Item.tag) (some i) = a.tag := by
  have := index_ok h
  simp [labelAt, this]

theorem index_good {items : List Item} (hg : ∀ i ∈ items, Good i) {i : Nat} {a : Item}
    (h : index items i = .ok a) : Good a := hg a (List.mem_of_getElem? (index_ok h))

/-- The recorded behaviour against the flow. -/
theorem flow_table (o : Opcode) (b : OpcodeBehavior) (hb : o.behavior = some b)
    (h1 : NamedProofs.special o = false) (h2 : o ≠ .OP_NOTIF) :
    (flow o).1 = b.inputTypes.length ∧ (flow o).2.length = b.outputTypes.length ∧
    ((o.retainsInput = false ∧ ∃ order, b.outputOrder = some order ∧
        ((flow o).2 = order.map some ∨ o = .OP_DEPTH ∧ order = [0] ∧ b.inputTypes = [])) ∨
      (o.retainsInput = false ∧ b.outputOrder = none ∧
        (flow o).2 = List.replicate b.outputTypes.length none) ∨
      (o.retainsInput = true ∧ b.outputOrder = none ∧ ((flow o).2 = [some 0] ∨ o = .OP_SIZE))) := by
  cases o
  all_goals first
    | (cases h1; done)
    | exact absurd rfl h2
    | (cases hb; done)
    | (cases hb; exact ⟨rfl, rfl, .inl ⟨rfl, _, rfl, .inl rfl⟩⟩)
    | (cases hb; exact ⟨rfl, rfl, .inl ⟨rfl, _, rfl, .inr ⟨rfl, rfl, rfl⟩⟩⟩)
    | (cases hb; exact ⟨rfl, rfl, .inr (.inl ⟨rfl, rfl, rfl⟩)⟩)
    | (cases hb; exact ⟨rfl, rfl, .inr (.inr ⟨rfl, rfl, .inl rfl⟩)⟩)
    | (cases hb; exact ⟨rfl, rfl, .inr (.inr ⟨rfl, rfl, .inr rfl⟩)⟩)

/-- What is asked of the output names of an ordinary operation. -/
def NamesOk (o : Opcode) (names : Option (List String)) : Prop :=
  (∀ ns, names = some ns → ∀ x ∈ ns, reserved x = false) ∧
  (o = .OP_SIZE → ∃ x y, names = some [x, y] ∧ y ≠ "__")

theorem namedOutput_good {o : Opcode} {b : OpcodeBehavior} {items : List Item} {name : String} {idx : Nat}
    {i : Item} (hg : ∀ i ∈ items, Good i) (hr : reserved name = false)
    (h : namedOutput o b items name idx = .ok i) : Good i := by
  unfold namedOutput at h
  split at h
  · split at h
    · exact index_good hg h
    · split at h
      · simp only [Res.bind_eq_ok] at h
        obtain ⟨k, _, h⟩ := h
        exact index_good hg h
      · cases h
  · cases h; exact good_user hr none

/-- The tag of a named output. -/
theorem namedOutput_tag {o : Opcode} {b : OpcodeBehavior} {items : List Item} {name : String} {idx : Nat}
    {i : Item} (h : namedOutput o b items name idx = .ok i) :
    i.tag = if name = "__" then
        (if o.retainsInput then labelAt (items.map Item.tag) (some 0)
         else labelAt (items.map Item.tag) ((b.outputOrder.getD [])[idx]?))
      else some name := by
  unfold namedOutput at h
  split at h
  · next hn =>
    rw [if_pos hn]
    split at h
    · next hr => rw [if_pos hr]; exact (labelAt_index h).symm
    · next hr =>
      rw [if_neg hr]
      split at h
      · next order ho =>
        simp only [Res.bind_eq_ok] at h
        obtain ⟨k, hk, h⟩ := h
        rw [ho, Option.getD_some, index_ok hk]
        exact (labelAt_index h).symm
      · cases h
  · next hn => cases h; rw [if_neg hn]; rfl

theorem outputItems_spec (o : Opcode) (b : OpcodeBehavior) (items : List Item)
    (names : Option (List String)) (n : Nat) (out : List Item) (m : Nat) (hb : o.behavior = some b)
    (h1 : NamedProofs.special o = false) (h2 : o ≠ .OP_NOTIF) (hn : NamesOk o names)
    (hg : ∀ i ∈ items, Good i) (hlen : items.length = b.inputTypes.length)
    (h : outputItems o b items names n = .ok (out, m)) :
    rename names ((flow o).2.map (labelAt (items.map Item.tag))) = some (out.map Item.tag) ∧
    ∀ i ∈ out, Good i := by
  obtain ⟨t1, t2, t3⟩ := flow_table o b hb h1 h2
  unfold outputItems at h
  cases names with
  | some ns =>
    dsimp only at h
    split at h
    · cases h
    · next hlen2 =>
      have hlen2 : ns.length = b.outputTypes.length := by simpa using hlen2
      simp only [Res.bind_eq_ok, Res.ok.injEq, Prod.mk.injEq] at h
      obtain ⟨out', hc, rfl, rfl⟩ := h
      obtain ⟨hl, hget⟩ := collect_get hc
      rw [List.length_zipIdx] at hl
      have hget' : ∀ (i : Nat) (hi : i < ns.length), namedOutput o b items ns[i] i = .ok (out'[i]'(by omega)) := by
        intro i hi
        have := hget i (by simpa using hi)
        rw [List.getElem_zipIdx] at this
        simpa using this
      refine ⟨?_, ?_⟩
      · unfold rename
        dsimp only
        rw [if_pos (by rw [List.length_map, t2, hlen2])]
        congr 1
        apply List.ext_getElem
        · simp [t2, hlen2, hl]
        · intro i hi1 hi2
          simp only [List.length_zipWith, List.length_map] at hi1
          have hi : i < ns.length := by omega
          rw [List.getElem_zipWith, List.getElem_map, List.getElem_map]
          have ht := namedOutput_tag (hget' i hi)
          rw [ht]
          by_cases hn' : ns[i] = "__"
          · rw [if_pos hn', if_pos hn']
            have hfi : i < (flow o).2.length := by omega
            rcases t3 with ⟨hr, order, ho, hcase⟩ | ⟨hr, ho, hcase⟩ | ⟨hr, ho, hcase⟩
            · rw [hr, ho]
              simp only [Bool.false_eq_true, if_false, Option.getD_some]
              rcases hcase with hcase | ⟨rfl, rfl, hin⟩
              · congr 1
                have hoi : i < order.length := by rw [hcase] at hfi; simpa using hfi
                rw [List.getElem?_eq_getElem hoi]
                simp [hcase]
              · exfalso
                have hi0 := hget' i hi
                unfold namedOutput at hi0
                rw [if_pos hn', ho] at hi0
                have : items = [] := by
                  apply List.length_eq_zero_iff.mp; rw [hlen, hin]; rfl
                subst this
                simp only [hr, Bool.false_eq_true, if_false, Res.bind_eq_ok] at hi0
                obtain ⟨k, _, hk⟩ := hi0
                simp [index] at hk
            · exfalso
              have hi0 := hget' i hi
              unfold namedOutput at hi0
              rw [if_pos hn', hr, ho] at hi0
              simp at hi0
            · rw [hr]
              simp only [if_true]
              rcases hcase with hcase | rfl
              · have : i = 0 := by rw [hcase] at hfi; simpa using hfi
                subst this
                congr 1
                simp [hcase]
              · obtain ⟨x, y, hxy, hy⟩ := hn.2 rfl
                cases hxy
                have : i = 0 := by
                  match i, hi, hn' with
                  | 0, _, _ => rfl
                  | 1, _, hn' => exact absurd hn' hy
                subst this
                rfl
          · rw [if_neg hn', if_neg hn']
      · intro x hx
        obtain ⟨i, hi, rfl⟩ := List.getElem_of_mem hx
        exact namedOutput_good hg (hn.1 ns rfl _ (List.getElem_mem _)) (hget' i (by omega))
  | none =>
    dsimp only at h
    unfold rename
    dsimp only
    cases ho : b.outputOrder with
    | some order =>
      rw [ho] at h
      simp only [Res.bind_eq_ok, Res.ok.injEq, Prod.mk.injEq] at h
      obtain ⟨out', hc, rfl, rfl⟩ := h
      obtain ⟨hl, hget⟩ := collect_get hc
      refine ⟨?_, ?_⟩
      · congr 1
        rcases t3 with ⟨hr, order', ho', hcase⟩ | ⟨hr, ho', hcase⟩ | ⟨hr, ho', hcase⟩
        · rw [ho] at ho'; cases ho'
          rcases hcase with hcase | ⟨rfl, rfl, hin⟩
          · rw [hcase]
            apply List.ext_getElem
            · simp [hl]
            · intro i hi1 hi2
              simp only [List.getElem_map]
              exact labelAt_index (hget i (by simpa using hi1))
          · exfalso
            have : items = [] := by
              apply List.length_eq_zero_iff.mp; rw [hlen, hin]; rfl
            subst this
            simpa [index] using hget 0 (by simp)
        · rw [ho] at ho'; cases ho'
        · rw [ho] at ho'; cases ho'
      · intro x hx
        obtain ⟨i, hi, rfl⟩ := List.getElem_of_mem hx
        exact index_good hg (hget i (by omega))
    | none =>
      rw [ho] at h
      simp only [Res.bind_eq_ok, Res.ok.injEq, Prod.mk.injEq] at h
      obtain ⟨out', hc, rfl, rfl⟩ := h
      obtain ⟨hl, hget⟩ := collect_get hc
      rw [List.length_range] at hl
      have hget' : ∀ (i : Nat) (hi : i < b.outputTypes.length),
          (if o.retainsInput = true then index items 0 else .ok ⟨freshName (n + i), true, none⟩) =
            Res.ok (out'[i]'(by omega)) := by
        intro i hi
        have := hget i (by simpa using hi)
        simpa using this
      rcases t3 with ⟨hr, order', ho', hcase⟩ | ⟨hr, ho', hcase⟩ | ⟨hr, ho', hcase⟩
      · rw [ho] at ho'; cases ho'
      · rw [hr] at hget'
        simp only [Bool.false_eq_true, if_false, Res.ok.injEq] at hget'
        refine ⟨?_, ?_⟩
        · congr 1
          apply List.ext_getElem
          · simp [t2, hl]
          · intro i hi1 hi2
            simp only [List.getElem_map]
            rw [← hget' i (by simpa [t2] using hi1)]
            simp [hcase, labelAt, Item.tag]
        · intro x hx
          obtain ⟨i, hi, rfl⟩ := List.getElem_of_mem hx
          rw [← hget' i (by omega)]
          exact good_fresh _ _
      · rw [hr] at hget'
        simp only [if_true] at hget'
        refine ⟨?_, ?_⟩
        · rcases hcase with hcase | rfl
          · congr 1
            apply List.ext_getElem
            · simp [t2, hl]
            · intro i hi1 hi2
              have : i = 0 := by simpa [hcase] using hi1
              subst this
              simp only [List.getElem_map, hcase, List.getElem_cons_zero]
              exact labelAt_index (hget' 0 (by simpa [t2] using hi1))
          · obtain ⟨x, y, hxy, _⟩ := hn.2 rfl
            cases hxy
        · intro x hx
          obtain ⟨i, hi, rfl⟩ := List.getElem_of_mem hx
          exact index_good hg (hget' i (by omega))

end GenProofs
end BCash
