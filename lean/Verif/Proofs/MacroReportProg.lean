import Verif.Proofs.MacroReport

/-! # The reports of the script macro are true: scripts -/

namespace BCash.DiagProofs
open BCash BCash.Macro BCash.Spec BCash.Spec.Macro BCash.Spec.Named BCash.Spec.Diag BCash.GenProofs

theorem written_size (p : Prog) : (written p).length = p.size := by
  induction p with
  | nil => rfl
  | leaf l rest ih => simp [written, Prog.size, ih]
  | scriptIf i t e el en rest iht ihe ihr => simp [written, Prog.size, iht, ihe, ihr]; omega

theorem placed_written (p : Prog) (known : List Atom) : (placed p known).map Prod.fst = written p := by
  induction p generalizing known with
  | nil => rfl
  | leaf l rest ih => simp [written, placed, ih]
  | scriptIf i t e el en rest iht ihe ihr =>
    simp [written, placed, iht, ihe, ihr, Function.comp_def]

theorem placed_size (p : Prog) (known : List Atom) : (placed p known).length = p.size := by
  rw [← written_size, ← placed_written p known, List.length_map]

theorem visits_if {env : Vm.Env} {c : Predicate} {i : OpcodeStmt} {t : Prog} {e : Option OpcodeStmt} {el : Prog}
    {en : OpcodeStmt} {rest : Prog} {n : Nat} {known : List Atom} {L : LState} {k : Nat} {s : LState}
    (h : (k, s) ∈ visits env c (.scriptIf i t e el en rest) n known L) :
    (k = n ∧ s = L) ∨ ∃ top st, L.stack = top :: st ∧
      ((Vm.truthy top.value = true ∧ c.holds (known ++ [⟨conditionName i, true⟩]) = true ∧
          ((k, s) ∈ visits env c t (n + 1) (known ++ [⟨conditionName i, true⟩]) ⟨st, L.alt⟩ ∨
            (∃ s', (c.holds (known ++ [⟨conditionName i, false⟩]) &&
                namesAfter c el (known ++ [⟨conditionName i, false⟩]) none (LState.names ⟨st, L.alt⟩) !=
                  some s'.names) = false ∧
              Named.run env c t (known ++ [⟨conditionName i, true⟩]) ⟨st, L.alt⟩ = .ok s' ∧
                (k, s) ∈ visits env c rest (n + 1 + t.size + e.toList.length + el.size + 1) known s'))) ∨
       (Vm.truthy top.value = false ∧ c.holds (known ++ [⟨conditionName i, false⟩]) = true ∧
          ((k, s) ∈ visits env c el (n + 1 + t.size + e.toList.length) (known ++ [⟨conditionName i, false⟩]) ⟨st, L.alt⟩ ∨
            ∃ s', Named.run env c el (known ++ [⟨conditionName i, false⟩]) ⟨st, L.alt⟩ = .ok s' ∧
              (k, s) ∈ visits env c rest (n + 1 + t.size + e.toList.length + el.size + 1) known s'))) := by
  unfold visits at h
  rcases List.mem_cons.mp h with h | h
  · cases h; exact .inl ⟨rfl, rfl⟩
  · right
    cases hs : L.stack with
    | nil => rw [hs] at h; cases h
    | cons top st =>
      rw [hs] at h
      simp only [written_size] at h
      refine ⟨top, st, rfl, ?_⟩
      cases hb : Vm.truthy top.value with
      | true =>
        left
        rw [hb] at h
        simp only [if_true] at h
        split at h
        · next hc =>
          refine ⟨rfl, hc, ?_⟩
          rcases List.mem_append.mp h with h | h
          · exact .inl h
          · right
            split at h
            · next s' hr =>
              split at h
              · cases h
              · next hc2 => exact ⟨s', by simpa using hc2, hr, h⟩
            · cases h
        · cases h
      | false =>
        right
        rw [hb] at h
        simp only [Bool.false_eq_true, if_false] at h
        split at h
        · next hc =>
          refine ⟨rfl, hc, ?_⟩
          rcases List.mem_append.mp h with h | h
          · exact .inl h
          · right
            split at h
            · next s' hr => exact ⟨s', hr, h⟩
            · cases h
        · cases h

theorem visits_range {env : Vm.Env} {c : Predicate} {p : Prog} {n : Nat} {known : List Atom} {L : LState} {k : Nat}
    {s : LState} (h : (k, s) ∈ visits env c p n known L) : n ≤ k ∧ k < n + p.size := by
  induction p generalizing n known L with
  | nil => cases h
  | leaf l rest ih =>
    unfold visits at h
    simp only [Prog.size]
    rcases List.mem_cons.mp h with h | h
    · cases h; omega
    · split at h
      · have := ih h; omega
      · cases h
  | scriptIf i t e el en rest iht ihe ihr =>
    simp only [Prog.size]
    rcases visits_if h with ⟨rfl, _⟩ | ⟨top, st, _, ⟨_, _, h | ⟨_, s', _, h⟩⟩ | ⟨_, _, h | ⟨s', _, h⟩⟩⟩
    · omega
    · have := iht h; omega
    · have := ihr h; omega
    · have := ihe h; omega
    · have := ihr h; omega

/-- The report is true of statement `k` of the script, the first statement having number `n`. -/
def ToldAt (env : Vm.Env) (p : Prog) (n : Nat) (k? : Option Nat) (g : Gen) (k : Nat) (dg : Diag) : Prop :=
  ∃ i l a, k = n + i ∧ (placed p g.atoms)[i]? = some (l, a) ∧ Written l a dg ∧
    (∀ w ∈ variants dg, ∃ c, (w, c) ∈ signature g ∧ c.holds a = true) ∧
    (unreached dg = true → ∀ w c, (w, c) ∈ signature g → c.holds a = false) ∧
    ∀ v cond L, Tracks v cond g L → cond.holds g.atoms = true → (∀ k, k? = some k → DDepth L k) →
      ∀ s, (k, s) ∈ visits env cond p n g.atoms L →
        About v (s.stack.map LItem.name) (s.alt.map LItem.name) dg

theorem Told.signature {stmt : OpcodeStmt} {g : Gen} {dg : Diag} (h : Told stmt g dg) :
    (∀ w ∈ variants dg, ∃ c, (w, c) ∈ signature g ∧ c.holds g.atoms = true) ∧
    (unreached dg = true → ∀ w c, (w, c) ∈ signature g → c.holds g.atoms = false) := by
  refine ⟨?_, ?_⟩
  · intro w hw
    obtain ⟨s, h1, h2⟩ := h.named w hw
    exact ⟨s.condition, List.mem_map_of_mem (f := fun p => (p.1, p.2.condition)) h1, h2⟩
  · intro hu w c hm
    obtain ⟨⟨w', s⟩, h1, h2⟩ := List.mem_map.mp hm
    cases h2
    cases hc : s.condition.holds g.atoms with
    | false => rfl
    | true => exact (about_unreached hu (h.about w' s h1 hc)).elim

theorem Told.tracks {stmt : OpcodeStmt} {g : Gen} {dg : Diag} (h : Told stmt g dg) {v : String} {cond : Predicate}
    {L : LState} (ht : Tracks v cond g L) (hc : cond.holds g.atoms = true) :
    About v (L.stack.map LItem.name) (L.alt.map LItem.name) dg := by
  obtain ⟨s, h1, h2, h3, h4⟩ := ht
  rw [← h3, ← h4]
  exact h.about v s h1 (by rw [h2]; exact hc)

/-- Whole scripts. -/
theorem prog_told (env : Vm.Env) (p : Prog) (n : Nat) (k? : Option Nat) (g : Gen) (k : Nat) (dg : Diag)
    (hwn : WellNested p) (hok : progOk k?.isSome p = true)
    (hnotif : ∀ stmt, Leaf.opcode stmt ∈ written p → stmt.head ≠ .op .OP_NOTIF) (hg : GoodGen g)
    (hkeys : (g.states.map Prod.fst).Nodup)
    (hk : ∀ k, k? = some k → SDepth g k) (h : runProgD p n g = .err (k, dg)) : ToldAt env p n k? g k dg := by
  induction p generalizing n k? g with
  | nil => cases h
  | leaf l rest ih =>
    obtain ⟨w1, w2, w3, w4⟩ := hwn
    simp only [progOk, Bool.and_eq_true] at hok
    unfold runProgD at h
    rcases bind_err h with h | ⟨⟨e1, g1⟩, h1, h⟩
    · obtain ⟨d, h, hd⟩ := mapErr_err h
      cases hd
      -- the statement itself
      have fin : Written l g.atoms dg → variants dg = [] → unreached dg = false →
          (∀ v st al, About v st al dg) → ToldAt env (.leaf l rest) k k? g k dg := by
        intro a1 a2 a3 a4
        refine ⟨0, l, g.atoms, rfl, rfl, a1, by rw [a2]; simp, by rw [a3]; simp, ?_⟩
        intro v cond L _ _ _ s _
        exact a4 _ _ _
      cases l with
      | push op name => cases h
      | forLoop =>
        cases h
        exact fin (by unfold Written; rfl) rfl rfl (fun _ _ _ => by simp [About])
      | rustIf =>
        cases h
        exact fin (by unfold Written; rfl) rfl rfl (fun _ _ _ => by simp [About])
      | opcode stmt =>
        have told := opcode_told stmt k? hok.1 (hnotif stmt (by simp [written])) g hg hkeys hk dg h
        obtain ⟨n1, n2⟩ := told.signature
        refine ⟨0, _, g.atoms, rfl, rfl, told.written, n1, n2, ?_⟩
        intro v cond L ht hc _ s hs
        unfold visits at hs
        rcases List.mem_cons.mp hs with hs | hs
        · cases hs
          exact told.tracks ht hc
        · split at hs
          · have := (visits_range hs).1; omega
          · cases hs
    · have h1 := ok_of_link (leaf_link l g) (mapErr_ok h1)
      rcases bind_err h with h | ⟨⟨e2, g2⟩, _, h⟩
      · obtain ⟨k'?, a1, a2, a3, a4, a5, a6, a7⟩ := leaf_sim env k? l g g1 e1 hg hk w1 w2 w3 hok.1 h1
        obtain ⟨k2?, hk2, hk2'⟩ : ∃ k2? : Option Nat, k2?.isSome = isDepthOf l ∧
            (∀ k, k2? = some k → k'? = some k) := by
          cases hd : isDepthOf l with
          | true => exact ⟨k'?, a6 hd, fun k h => h⟩
          | false => exact ⟨none, rfl, by simp⟩
        obtain ⟨i, l', a, rfl, b2, b3, b4, b5, b6⟩ := ih (n + 1) k2? g1 w4 (by rw [hk2]; exact hok.2)
          (fun stmt hm => hnotif stmt (by simp [written, hm])) a3
          (by rw [keys_of_signature a1]; exact hkeys) (fun k hk => a5 k (hk2' k hk)) h
        rw [a1] at b4 b5
        rw [a2] at b2 b6
        refine ⟨i + 1, l', a, by omega, by simpa [placed] using b2, b3, b4, b5, ?_⟩
        intro v cond L ht hh hdd s hs
        unfold visits at hs
        rcases List.mem_cons.mp hs with hs | hs
        · exfalso
          have := congrArg Prod.fst hs
          simp only at this
          omega
        · have hl := a7 v cond L ht hh hdd
          split at hs
          · next L1 hr =>
            rw [hr] at hl
            obtain ⟨t1, t2, t3⟩ := hl
            exact b6 v cond L1 t1 hh (fun k hk => t3 k (hk2' k hk)) s hs
          · cases hs
      · cases h
  | scriptIf ifOp thenStmts elseOp elseStmts endifOp rest iht ihe ihr =>
    obtain ⟨w1, w2, w3, w4, w5, w6, w7⟩ := hwn
    simp only [progOk, Bool.and_eq_true] at hok
    obtain ⟨⟨⟨ok1, ok2⟩, ok3⟩, ok4⟩ := hok
    have hif : ifOp.head = .op .OP_IF := by
      have hno := hnotif ifOp (by simp [written])
      unfold opens at w1
      split at w1
      · next q => cases q; rfl
      · next q => cases q; exact absurd rfl hno
      · cases w1
    have hen : endifOp.head = .op .OP_ENDIF := by
      unfold closes at w4
      split at w4
      · next q => cases q; rfl
      · cases w4
    unfold runProgD at h
    rcases bind_err h with h | ⟨⟨e1, g1⟩, h1, h⟩
    · -- OP_IF
      obtain ⟨d, h, hd⟩ := mapErr_err h
      cases hd
      have told := opcode_told ifOp none ok1 (by rw [hif]; simp) g hg hkeys (by simp) dg h
      obtain ⟨n1, n2⟩ := told.signature
      refine ⟨0, _, g.atoms, rfl, rfl, told.written, n1, n2, ?_⟩
      intro v cond L ht hc _ s hs
      rcases visits_if hs with ⟨_, rfl⟩ | ⟨top, st, _, ⟨_, _, h | ⟨_, s', _, h⟩⟩ | ⟨_, _, h | ⟨s', _, h⟩⟩⟩
      · exact told.tracks ht hc
      all_goals (have := (visits_range h).1; omega)
    have h1 := ok_of_link (opcode_link ifOp g) (mapErr_ok h1)
    rcases bind_err h with h | ⟨x, hx, h⟩
    · -- its condition has no name
      obtain ⟨d, h, hd⟩ := mapErr_err h
      cases hd
      unfold predicateNameD at h
      split at h
      · cases h
      · next hne =>
        cases h
        refine ⟨0, _, g.atoms, rfl, rfl, ?_, by simp [variants], by simp [unreached], ?_⟩
        · unfold Written WrittenOp
          exact ⟨hif, fun x l hi => hne x l hi⟩
        · intro v cond L _ _ _ s _
          simp [About]
    have hx : predicateName ifOp = .ok x := by
      have hx := mapErr_ok hx
      unfold predicateNameD at hx
      unfold predicateName
      split at hx
      · next hq => cases hx; rw [hq]
      · cases hx
    obtain ⟨i1, i2, i3, item, i4, i5⟩ := if_spec ifOp w1 g g1 e1 x hg h1 hx
    have hat : g1.atoms = g.atoms := i5.1
    have hname : conditionName ifOp = x := by unfold conditionName; rw [i2]
    have k1 : (g1.states.map Prod.fst).Nodup := by rw [keys_of_signature i5.signature]; exact hkeys
    -- the state after OP_IF
    have after : ∀ v cond L top st, Tracks v cond g L → cond.holds g.atoms = true → L.stack = top :: st →
        Tracks v cond g1 ⟨st, L.alt⟩ := by
      intro v cond L top st ht hh hL
      obtain ⟨s, hm, hc, hs, ha⟩ := ht
      obtain ⟨s1, hm1, hc1, hP, _⟩ := i5.mem hm
      obtain ⟨it, z1, z2, z3⟩ := hP (by rw [hc]; exact hh)
      rw [z1, hL] at hs
      simp only [List.map_cons, List.cons.injEq] at hs
      exact ⟨s1, hm1, hc1.trans hc, hs.2, by rw [z2]; exact ha⟩
    dsimp only at h
    rw [hat] at h
    rcases bind_err h with h | ⟨⟨e2, gt⟩, h2, h⟩
    · -- the first branch
      obtain ⟨i, l', a, rfl, b2, b3, b4, b5, b6⟩ := iht (n + 1) none { g1 with atoms := g.atoms ++ [⟨x, true⟩] } w5 ok2
        (fun stmt hm => hnotif stmt (by simp [written, hm])) i3 k1 (by simp) h
      have sg : signature { g1 with atoms := g.atoms ++ [⟨x, true⟩] } = signature g := i5.signature
      rw [sg] at b4 b5
      obtain ⟨hi, _⟩ := List.getElem?_eq_some_iff.mp b2
      rw [placed_size] at hi
      refine ⟨i + 1, l', a, by omega, ?_, b3, b4, b5, ?_⟩
      · simp only [placed, List.cons_append, List.getElem?_cons_succ, hname]
        rw [List.append_assoc, List.getElem?_append_left (by rw [placed_size]; exact hi)]
        exact b2
      · intro v cond L ht hh _ s hs
        rcases visits_if hs with ⟨q, _⟩ | ⟨top, st, hL, ⟨_, hc1, h | ⟨_, s', _, h⟩⟩ | ⟨_, _, h | ⟨s', _, h⟩⟩⟩
        · omega
        · rw [hname] at h hc1
          exact b6 v cond _ (after v cond L top st ht hh hL) hc1 (by simp) s h
        all_goals (have := (visits_range h).1; omega)
    have h2 := ok_of_link (prog_link thenStmts (n + 1) _) h2
    obtain ⟨t1, t2, t3, tst, ct, simt⟩ := prog_sim env thenStmts none
      { g1 with atoms := g.atoms ++ [⟨x, true⟩] } gt e2 w5 ok2 i3 k1 (by simp) h2
    rcases bind_err h with h | ⟨⟨e3, gt'⟩, h3, h⟩
    · -- OP_ELSE
      obtain ⟨d, h, hd⟩ := mapErr_err h
      cases hd
      cases elseOp with
      | none => cases h
      | some o =>
        have hh : o.head = .op .OP_ELSE := by
          have := w2 o rfl
          unfold isElse at this
          split at this
          · next q => cases q; rfl
          · cases this
        obtain ⟨c1, c2, c3⟩ := bracket_told o _ (.inl rfl) hh gt dg h g.atoms
        refine ⟨1 + thenStmts.size, .opcode o, g.atoms, by omega, ?_, c1, by rw [c2]; simp, by rw [c3]; simp, ?_⟩
        · simp only [placed, List.cons_append]
          rw [Nat.add_comm 1, List.getElem?_cons_succ, List.append_assoc,
            List.getElem?_append_right (by rw [placed_size]; omega), placed_size, Nat.sub_self]
          rfl
        · intro v cond L ht hh _ s hs
          exfalso
          rcases visits_if hs with ⟨q, _⟩ | ⟨top, st, hL, ⟨_, hc1, h | ⟨_, s', _, h⟩⟩ | ⟨_, _, h | ⟨s', _, h⟩⟩⟩
          · omega
          all_goals (have := visits_range h; have hl : (some o).toList.length = 1 := rfl; omega)
    have h3 : runOptional elseOp gt = .ok (e3, gt') := by
      have h3 := mapErr_ok h3
      cases elseOp with
      | none => cases h3; rfl
      | some o => exact ok_of_link (opcode_link o gt) h3
    obtain ⟨l1, l2, l3⟩ := else_code elseOp gt gt' e3 w2 h3
    rcases bind_err h with h | ⟨⟨e4, ge⟩, h4, h⟩
    · -- the second branch
      obtain ⟨i, l', a, rfl, b2, b3, b4, b5, b6⟩ := ihe (n + 1 + thenStmts.size + elseOp.toList.length) none
        { g1 with atoms := g.atoms ++ [⟨x, false⟩], nIdent := gt'.nIdent } w6 ok3
        (fun stmt hm => hnotif stmt (by simp [written, hm])) i3 k1 (by simp) h
      have sg : signature { g1 with atoms := g.atoms ++ [⟨x, false⟩], nIdent := gt'.nIdent } = signature g :=
        i5.signature
      rw [sg] at b4 b5
      obtain ⟨hi, _⟩ := List.getElem?_eq_some_iff.mp b2
      rw [placed_size] at hi
      refine ⟨1 + thenStmts.size + elseOp.toList.length + i, l', a, by omega, ?_, b3, b4, b5, ?_⟩
      · simp only [placed, List.cons_append, hname]
        have e : 1 + thenStmts.size + elseOp.toList.length + i = (thenStmts.size + (elseOp.toList.length + i)) + 1 := by
          omega
        rw [e, List.getElem?_cons_succ, List.append_assoc, List.getElem?_append_right (by rw [placed_size]; omega),
          placed_size, Nat.add_sub_cancel_left, List.append_assoc, List.getElem?_append_right (by simp),
          List.length_map, Nat.add_sub_cancel_left, List.getElem?_append_left (by rw [placed_size]; exact hi)]
        exact b2
      · intro v cond L ht hh _ s hs
        rcases visits_if hs with ⟨q, _⟩ | ⟨top, st, hL, ⟨_, hc1, h | ⟨_, s', _, h⟩⟩ | ⟨_, hc1, h | ⟨s', _, h⟩⟩⟩
        · omega
        · have := (visits_range h).2; omega
        · have := (visits_range h).1; omega
        · rw [hname] at h hc1
          exact b6 v cond _ (after v cond L top st ht hh hL) hc1 (by simp) s h
        · have := (visits_range h).1; omega
    have h4 := ok_of_link (prog_link elseStmts _ _) h4
    obtain ⟨u1, u2, u3, tse, ce, sime⟩ := prog_sim env elseStmts none
      { g1 with atoms := g.atoms ++ [⟨x, false⟩], nIdent := gt'.nIdent } ge e4 w6 ok3 i3 k1 (by simp) h4
    rcases bind_err h with h | ⟨⟨e5, ge'⟩, h5, h⟩
    · -- OP_ENDIF
      obtain ⟨d, h, hd⟩ := mapErr_err h
      cases hd
      obtain ⟨c1, c2, c3⟩ := bracket_told endifOp _ (.inr rfl) hen ge dg h g.atoms
      refine ⟨1 + thenStmts.size + elseOp.toList.length + elseStmts.size, .opcode endifOp, g.atoms, by omega, ?_, c1,
        by rw [c2]; simp, by rw [c3]; simp, ?_⟩
      · simp only [placed]
        rw [List.getElem?_append_right (by simp [placed_size]; omega)]
        simp only [List.length_cons, List.length_append, placed_size, List.length_map]
        have e : 1 + thenStmts.size + elseOp.toList.length + elseStmts.size -
            (thenStmts.size + (elseOp.toList.length + elseStmts.size) + 1) = 0 := by omega
        rw [e]
        rfl
      · intro v cond L ht hh _ s hs
        exfalso
        rcases visits_if hs with ⟨q, _⟩ | ⟨top, st, hL, ⟨_, hc1, h | ⟨_, s', _, h⟩⟩ | ⟨_, _, h | ⟨s', _, h⟩⟩⟩
        · omega
        all_goals (have := visits_range h; omega)
    have h5 := ok_of_link (opcode_link endifOp ge) (mapErr_ok h5)
    obtain ⟨n1, n2, n3⟩ := bracket_spec .OP_ENDIF (.inr rfl) endifOp hen ge ge' e5 h5
    rcases bind_err h with h | ⟨states, h6, h⟩
    · -- the merge reports nothing
      exfalso
      unfold mergeD at h
      obtain ⟨⟨v, s⟩, _, h⟩ := collect_err h
      dsimp only at h
      split at h
      · rcases bind_err h with h | ⟨_, _, h⟩
        · unfold lookupD at h
          split at h <;> cases h
        · cases h
      · cases h
    have h6 : merge gt'.states (g.atoms ++ [⟨x, true⟩]) (g.atoms ++ [⟨x, false⟩]) ge'.states = .ok states := by
      refine ok_of_link (h := fun e => short e.2) ?_ h6
      refine collect_link _ _ _ (fun x => ?_) _
      dsimp only
      split
      · rw [mapErr_bind]
        refine bind_congr ?_ fun _ => rfl
        unfold lookupD lookup
        cases List.find? (fun p => p.1 == x.1) gt'.states <;> rfl
      · rfl
    rcases bind_err h with h | ⟨_, _, h⟩
    swap
    · cases h
    -- the rest
    have hsig : signature gt' = signature ge' := by
      have p1 : signature gt' = signature gt := by simp only [signature, l1]
      have p2 : signature ge' = signature ge := by simp only [signature, n2]
      rw [p1, p2, t1, u1]
      rfl
    have hsige : signature ge' = signature g1 := by
      have p2 : signature ge' = signature ge := by simp only [signature, n2]
      rw [p2, u1]
      rfl
    have ke : (ge'.states.map Prod.fst).Nodup := by rw [keys_of_signature hsige]; exact k1
    obtain ⟨m1, m2, m3, m4⟩ := merge_spec gt' ge' _ _ states hsig ke h6
    have gm : GoodGen { ge' with states := states, atoms := g.atoms } := by
      intro p hp
      rcases m2 p hp with hp | hp
      · rw [l1] at hp; exact t3 p hp
      · rw [n2] at hp; exact u3 p hp
    have sigm : signature { ge' with states := states, atoms := g.atoms } = signature g := by
      rw [← i5.signature, ← hsige]
      exact m1
    obtain ⟨i, l', a, rfl, b2, b3, b4, b5, b6⟩ := ihr
      (n + 1 + thenStmts.size + elseOp.toList.length + elseStmts.size + 1) none
      { ge' with states := states, atoms := g.atoms } w7 ok4
      (fun stmt hm => hnotif stmt (by simp [written, hm])) gm
      (by rw [keys_of_signature sigm]; exact hkeys) (by simp) h
    rw [sigm] at b4 b5
    refine ⟨1 + thenStmts.size + elseOp.toList.length + elseStmts.size + 1 + i, l', a, by omega, ?_, b3, b4, b5, ?_⟩
    · simp only [placed]
      rw [List.getElem?_append_right (by simp [placed_size]; omega)]
      simp only [List.length_cons, List.length_append, placed_size, List.length_map]
      have e : 1 + thenStmts.size + elseOp.toList.length + elseStmts.size + 1 + i -
          (thenStmts.size + (elseOp.toList.length + elseStmts.size) + 1) = i + 1 := by omega
      rw [e]
      exact b2
    · intro v cond L ht hh _ s hs
      rcases visits_if hs with ⟨q, _⟩ | ⟨top, st, hL, ⟨_, hc1, h | ⟨s', hc2, hr, h⟩⟩ | ⟨_, hc1, h | ⟨s', hr, h⟩⟩⟩
      · omega
      · have := (visits_range h).2; omega
      · rw [hname] at hc1 hc2 hr
        have sm := simt v cond ⟨st, L.alt⟩ [] [] (after v cond L top st ht hh hL) hc1 (by simp) rfl
        dsimp only at sm
        rw [hr] at sm
        obtain ⟨⟨s2, hm2, hcc, hs2, ha2⟩, _⟩ := sm
        have hT2 : Tracks v cond { ge' with states := states, atoms := g.atoms } s' := by
          cases hc3 : cond.holds (g.atoms ++ [⟨x, false⟩]) with
          | false =>
            exact ⟨s2, m3 v s2 (by rw [l1]; exact hm2) (by rw [hcc]; exact hc1)
              (by rw [hcc]; exact hc3), hcc, hs2, ha2⟩
          | true =>
            rw [hc3] at hc2
            simp only [Bool.true_and, bne_eq_false_iff_eq] at hc2
            have lse := leaves_sound elseStmts none
              { g1 with atoms := g.atoms ++ [⟨x, false⟩], nIdent := gt'.nIdent } ge e4 w6 ok3 i3 k1 (by simp) h4
            obtain ⟨s3, hm3, hc3', hs3, ha3⟩ := lse v cond _ _
              (tracksN_names.mp (after v cond L top st ht hh hL)) hc3 hc2
            exact ⟨s3, m4 v s3 (by rw [n2]; exact hm3) (by rw [hc3']; exact hc3), hc3', hs3, ha3⟩
        exact b6 v cond s' hT2 hh (by simp) s h
      · have := (visits_range h).2; omega
      · rw [hname] at hc1 hr
        have sm := sime v cond ⟨st, L.alt⟩ [] [] (after v cond L top st ht hh hL) hc1 (by simp) rfl
        dsimp only at sm
        rw [hr] at sm
        obtain ⟨⟨s2, hm2, hcc, hs2, ha2⟩, _⟩ := sm
        exact b6 v cond s' ⟨s2, m4 v s2 (by rw [n2]; exact hm2) (by rw [hcc]; exact hc1), hcc, hs2, ha2⟩ hh
          (by simp) s h

end BCash.DiagProofs
