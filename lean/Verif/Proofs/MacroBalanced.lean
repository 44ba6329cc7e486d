import Verif.Proofs.MacroRecord
import Verif.Proofs.MacroSep

/-! # Balanced conditionals: no run is undecided -/

namespace BCash
open Spec Spec.Macro Spec.Named Macro ExecProofs

namespace GenProofs

theorem tracks_names_unique {v : String} {cond : Predicate} {g : Gen} {L : LState} {N : Names}
    (hk : (g.states.map Prod.fst).Nodup) (h1 : Tracks v cond g L) (h2 : TracksN v cond g N) : L.names = N := by
  obtain ⟨s, a1, _, a2, a3⟩ := h1
  obtain ⟨s', b1, _, b2, b3⟩ := h2
  have := key_unique hk a1 b1
  subst this
  obtain ⟨NS, NA⟩ := N
  simp only [LState.names, Names.mk.injEq]
  exact ⟨a2.symm.trans b2, a3.symm.trans b3⟩

theorem depthLeft_ddepth {env : Vm.Env} {l : Leaf} {L L1 : LState} {k : Nat} (h : Named.leaf env l L = .ok L1)
    (hd : depthLeft l L.names = some k) : DDepth L1 k := by
  unfold depthLeft at hd
  split at hd
  · next x out =>
    simp only [Named.leaf, depthOf] at h
    simp only [LState.names, List.findIdx?_map] at hd
    have : (L.stack.findIdx? fun i => i.name == some x) = some k := hd
    rw [this] at h
    dsimp only at h
    split at h
    · cases h
    · cases h
      exact ⟨_, _, rfl, by simp⟩
  · cases hd

theorem prog_balanced (env : Vm.Env) (p : Prog) (k? : Option Nat) (g g' : Gen) (e : List Emit)
    (hwn : WellNested p) (hok : progOk k?.isSome p = true) (hg : GoodGen g)
    (hkeys : (g.states.map Prod.fst).Nodup)
    (hk : ∀ k, k? = some k → SDepth g k) (h : runProg p g = .ok (e, g')) :
    ∀ v cond L N', Tracks v cond g L → cond.holds g.atoms = true → (∀ k, k? = some k → DDepth L k) →
      namesAfter cond p g.atoms k? L.names = some N' → Obeys env cond p g.atoms L →
      Named.run env cond p g.atoms L ≠ .undecided := by
  induction p generalizing k? g g' e with
  | nil => intro v cond L N' _ _ _ _ _; simp [Named.run]
  | leaf l rest ih =>
    obtain ⟨w1, w2, w3, w4⟩ := hwn
    simp only [progOk, Bool.and_eq_true] at hok
    simp only [runProg] at h
    obtain ⟨⟨e1, g1⟩, h1, h⟩ := Res.bind_eq_ok.mp h
    obtain ⟨⟨e2, g2⟩, h2, h⟩ := Res.bind_eq_ok.mp h
    cases h
    obtain ⟨k'?, a1, a2, a3, a4, a5, a6, a7⟩ := leaf_sim env k? l g g1 e1 hg hk w1 w2 w3 hok.1 h1
    intro v cond L N' ht hh hdd hN hob
    have hl := a7 v cond L ht hh hdd
    simp only [Named.run]
    simp only [namesAfter] at hN
    obtain ⟨N1, hN1, hN⟩ := Option.bind_eq_some_iff.mp hN
    obtain ⟨q1, q2, q3⟩ := leaf_names k? l g g1 e1 hg hk w1 w2 w3 hok.1 h1 v cond _ N1
      (tracksN_names.mp ht) hh hN1
    have k1 : (g1.states.map Prod.fst).Nodup := by rw [keys_of_signature a1]; exact hkeys
    cases hr : Named.leaf env l L with
    | ok L1 =>
      rw [hr] at hl
      obtain ⟨t1, t2, t3⟩ := hl
      simp only [Outcome.andThen]
      have hname := tracks_names_unique k1 t1 q1
      have := ih (depthLeft l L.names) g1 g2 e2 w4 (by rw [q2]; exact hok.2) a3 k1 q3 h2 v cond L1 N' t1
        (by rw [a2]; exact hh) (fun k hk => depthLeft_ddepth hr hk) (by rw [a2, hname]; exact hN)
        (by rw [a2]; exact hob L1 hr)
      rw [a2] at this
      exact this
    | fail => simp [Outcome.andThen]
    | mismatch => simp [Outcome.andThen]
    | undecided => rw [hr] at hl; exact hl.elim
  | scriptIf ifOp thenStmts elseOp elseStmts endifOp rest iht ihe ihr =>
    obtain ⟨w1, w2, w3, w4, w5, w6, w7⟩ := hwn
    simp only [progOk, Bool.and_eq_true] at hok
    obtain ⟨⟨⟨ok1, ok2⟩, ok3⟩, ok4⟩ := hok
    simp only [runProg] at h
    obtain ⟨⟨e1, g1⟩, h1, h⟩ := Res.bind_eq_ok.mp h
    obtain ⟨x, hx, h⟩ := Res.bind_eq_ok.mp h
    obtain ⟨⟨e2, gt⟩, h2, h⟩ := Res.bind_eq_ok.mp h
    obtain ⟨⟨e3, gt'⟩, h3, h⟩ := Res.bind_eq_ok.mp h
    obtain ⟨⟨e4, ge⟩, h4, h⟩ := Res.bind_eq_ok.mp h
    obtain ⟨⟨e5, ge'⟩, h5, h⟩ := Res.bind_eq_ok.mp h
    obtain ⟨states, h6, h⟩ := Res.bind_eq_ok.mp h
    obtain ⟨⟨e6, g6⟩, h7, h⟩ := Res.bind_eq_ok.mp h
    cases h
    dsimp only at h2 h3 h4 h5 h6 h7
    obtain ⟨i1, i2, i3, item, i4, i5⟩ := if_spec ifOp w1 g g1 e1 x hg h1 hx
    have k1 : (g1.states.map Prod.fst).Nodup := by rw [keys_of_signature i5.signature]; exact hkeys
    obtain ⟨t1, t2, t3, tst, ct, simt⟩ := prog_sim env thenStmts none
      { g1 with atoms := g1.atoms ++ [⟨x, true⟩] } gt e2 w5 ok2 i3 k1 (by simp) h2
    have rt := iht none { g1 with atoms := g1.atoms ++ [⟨x, true⟩] } gt e2 w5 ok2
      i3 k1 (by simp) h2
    obtain ⟨l1, l2, l3⟩ := else_code elseOp gt gt' e3 w2 h3
    obtain ⟨u1, u2, u3, tse, ce, sime⟩ := prog_sim env elseStmts none
      { g1 with atoms := g1.atoms ++ [⟨x, false⟩], nIdent := gt'.nIdent } ge e4 w6 ok3 i3 k1 (by simp) h4
    have re := ihe none { g1 with atoms := g1.atoms ++ [⟨x, false⟩], nIdent := gt'.nIdent }
      ge e4 w6 ok3 i3 k1 (by simp) h4
    have hen : endifOp.head = .op .OP_ENDIF := by
      unfold closes at w4
      split at w4
      · next q => cases q; rfl
      · cases w4
    obtain ⟨n1, n2, n3⟩ := bracket_spec .OP_ENDIF (.inr rfl) endifOp hen ge ge' e5 h5
    have hsig : signature gt' = signature ge' := by
      have p1 : signature gt' = signature gt := by simp only [signature, l1]
      have p2 : signature ge' = signature ge := by simp only [signature, n2]
      rw [p1, p2, t1, u1]
      rfl
    have hsige : signature ge' = signature g1 := by
      have p2 : signature ge' = signature ge := by simp only [signature, n2]
      rw [p2, u1]
      rfl
    have ke : (ge'.states.map Prod.fst).Nodup := by rw [keys_of_signature hsige]; exact k1
    obtain ⟨m1, m2, m3, m4⟩ := merge_spec gt' ge' _ _ states hsig ke h6
    have gm : GoodGen { ge' with states := states, atoms := g1.atoms } := by
      intro p hp
      rcases m2 p hp with hp | hp
      · rw [l1] at hp; exact t3 p hp
      · rw [n2] at hp; exact u3 p hp
    have sigm : signature { ge' with states := states, atoms := g1.atoms } = signature g := by
      rw [← i5.signature, ← hsige]
      exact m1
    have rr := ihr none { ge' with states := states, atoms := g1.atoms } g6 e6 w7 ok4 gm
      (by rw [keys_of_signature sigm]; exact hkeys) (by simp) h7
    have lst := leaves_sound thenStmts none { g1 with atoms := g1.atoms ++ [⟨x, true⟩] } gt e2 w5 ok2
      i3 k1 (by simp) h2
    have lse := leaves_sound elseStmts none
      { g1 with atoms := g1.atoms ++ [⟨x, false⟩], nIdent := gt'.nIdent } ge e4 w6 ok3 i3 k1 (by simp) h4
    intro v cond L N' ht hh _ hN hob
    obtain ⟨s, hm, hc, hs, ha⟩ := ht
    obtain ⟨s1, hm1, hc1, hP, _⟩ := i5.mem hm
    obtain ⟨it, z1, z2, z3⟩ := hP (by rw [hc]; exact hh)
    rw [z1] at hs
    have hat : g1.atoms = g.atoms := i5.1
    cases hL : L.stack with
    | nil => rw [hL] at hs; simp at hs
    | cons top st =>
      have hnm : L.names = ⟨top.name :: st.map LItem.name, L.alt.map LItem.name⟩ := by
        simp [LState.names, hL]
      rw [hnm] at hN
      simp only [namesAfter, i2] at hN
      rw [hL] at hs
      simp only [List.map_cons, List.cons.injEq] at hs
      have hob := hob x top st i2 hL (by rw [← hs.1, z3]; exact i4)
      have hT : Tracks v cond g1 ⟨st, L.alt⟩ := ⟨s1, hm1, hc1.trans hc, hs.2, by rw [z2]; exact ha⟩
      have hnm1 : (⟨st.map LItem.name, L.alt.map LItem.name⟩ : Names) = LState.names ⟨st, L.alt⟩ := rfl
      obtain ⟨N2, hN2, hN⟩ := Option.bind_eq_some_iff.mp hN
      rw [hnm1] at hN2
      simp only [Named.run, i2, hL]
      rw [← hs.1, z3, i4]
      simp only [Bool.not_true, Bool.false_eq_true, if_false]
      have gk : (gt.states.map Prod.fst).Nodup := by rw [keys_of_signature t1]; exact k1
      have gek : (ge.states.map Prod.fst).Nodup := by rw [keys_of_signature u1]; exact k1
      cases hb : Vm.truthy top.value with
      | true =>
        rw [hb] at hob
        obtain ⟨o1, o2, o3⟩ := hob
        simp only [o1, Bool.not_true, Bool.false_eq_true, if_false, if_true]
        have hN1 : namesAfter cond thenStmts (g.atoms ++ [⟨x, true⟩]) none (LState.names ⟨st, L.alt⟩) = some N2 := by
          cases c2 : cond.holds (g.atoms ++ [⟨x, false⟩]) <;> rw [o1, c2] at hN2 <;> dsimp only at hN2
          · exact hN2
          · split at hN2
            · next heq => rw [heq]; exact hN2
            · cases hN2
        have hu := rt v cond ⟨st, L.alt⟩ N2 hT (by dsimp only; rw [hat]; exact o1) (by simp)
          (by dsimp only; rw [hat]; exact hN1) (by dsimp only; rw [hat]; exact o2)
        dsimp only at hu
        rw [hat] at hu
        have sm := simt v cond ⟨st, L.alt⟩ [] [] hT (by dsimp only; rw [hat]; exact o1) (by simp) rfl
        dsimp only at sm
        rw [hat] at sm
        have hex := run_exec env cond _ _ _ hu
        cases hr : Named.run env cond thenStmts (g.atoms ++ [⟨x, true⟩]) ⟨st, L.alt⟩ with
        | ok L1 =>
          rw [hr] at sm hex
          have hname : L1.names = N2 := tracks_names_unique gk sm.1
            (lst v cond _ _ (tracksN_names.mp hT) (by dsimp only; rw [hat]; exact o1)
              (by dsimp only; rw [hat]; exact hN1))
          obtain ⟨⟨s2, hm2, hc2, hs2, ha2⟩, _⟩ := sm
          simp only [Outcome.andThen]
          cases hbal : (cond.holds (g.atoms ++ [⟨x, false⟩]) &&
              namesAfter cond elseStmts (g.atoms ++ [⟨x, false⟩]) none (LState.names ⟨st, L.alt⟩) !=
                some L1.names) with
          | true =>
            exfalso
            simp only [Bool.and_eq_true, bne_iff_ne, ne_eq] at hbal
            rw [o1, hbal.1] at hN2
            dsimp only at hN2
            split at hN2
            · exact hbal.2 (by rw [hname]; exact hN2)
            · cases hN2
          | false =>
            simp only [Bool.false_eq_true, if_false]
            have hT2 : Tracks v cond { ge' with states := states, atoms := g1.atoms } L1 := by
              cases hc3 : cond.holds (g.atoms ++ [⟨x, false⟩]) with
              | false =>
                exact ⟨s2, m3 v s2 (by rw [l1]; exact hm2) (by rw [hc2, hat]; exact o1)
                  (by rw [hc2, hat]; exact hc3), hc2, hs2, ha2⟩
              | true =>
                rw [hc3] at hbal
                simp only [Bool.true_and, bne_eq_false_iff_eq] at hbal
                obtain ⟨s3, hm3, hc3', hs3, ha3⟩ := lse v cond _ _ (tracksN_names.mp hT)
                  (by dsimp only; rw [hat]; exact hc3) (by dsimp only; rw [hat]; exact hbal)
                exact ⟨s3, m4 v s3 (by rw [n2]; exact hm3) (by rw [hc3', hat]; exact hc3), hc3', hs3, ha3⟩
            have := rr v cond L1 N' hT2 (by dsimp only; rw [hat]; exact hh) (by simp)
              (by dsimp only; rw [hat, hname]; exact hN) (by dsimp only; rw [hat]; exact o3 L1 hex.symm)
            dsimp only at this
            rw [hat] at this
            exact this
        | fail => simp [Outcome.andThen]
        | mismatch => simp [Outcome.andThen]
        | undecided => exact absurd hr hu
      | false =>
        rw [hb] at hob
        obtain ⟨o1, o2, o3⟩ := hob
        simp only [o1, Bool.not_true, Bool.false_eq_true, if_false]
        have hN1 : namesAfter cond elseStmts (g.atoms ++ [⟨x, false⟩]) none (LState.names ⟨st, L.alt⟩) = some N2 := by
          cases c2 : cond.holds (g.atoms ++ [⟨x, true⟩]) <;> rw [o1, c2] at hN2 <;> dsimp only at hN2
          · exact hN2
          · split at hN2
            · exact hN2
            · cases hN2
        have hu := re v cond ⟨st, L.alt⟩ N2 hT (by dsimp only; rw [hat]; exact o1) (by simp)
          (by dsimp only; rw [hat]; exact hN1) (by dsimp only; rw [hat]; exact o2)
        dsimp only at hu
        rw [hat] at hu
        have sm := sime v cond ⟨st, L.alt⟩ [] [] hT (by dsimp only; rw [hat]; exact o1) (by simp) rfl
        dsimp only at sm
        rw [hat] at sm
        have hex := run_exec env cond _ _ _ hu
        cases hr : Named.run env cond elseStmts (g.atoms ++ [⟨x, false⟩]) ⟨st, L.alt⟩ with
        | ok L1 =>
          rw [hr] at sm hex
          have hname : L1.names = N2 := tracks_names_unique gek sm.1
            (lse v cond _ _ (tracksN_names.mp hT) (by dsimp only; rw [hat]; exact o1)
              (by dsimp only; rw [hat]; exact hN1))
          obtain ⟨⟨s2, hm2, hc2, hs2, ha2⟩, _⟩ := sm
          simp only [Outcome.andThen]
          have hT2 : Tracks v cond { ge' with states := states, atoms := g1.atoms } L1 :=
            ⟨s2, m4 v s2 (by rw [n2]; exact hm2) (by rw [hc2, hat]; exact o1), hc2, hs2, ha2⟩
          have := rr v cond L1 N' hT2 (by dsimp only; rw [hat]; exact hh) (by simp)
            (by dsimp only; rw [hat, hname]; exact hN) (by dsimp only; rw [hat]; exact o3 L1 hex.symm)
          dsimp only at this
          rw [hat] at this
          exact this
        | fail => simp [Outcome.andThen]
        | mismatch => simp [Outcome.andThen]
        | undecided => exact absurd hr hu

/-! ### On the specification alone -/

theorem rename_length {w : Option (List String)} {ns ns' : List (Option String)} (h : rename w ns = some ns') :
    ns'.length = ns.length := by
  unfold rename at h
  split at h
  · cases h; rfl
  · split at h
    · next hl => cases h; simp [hl]
    · cases h

theorem main_length (env : Vm.Env) (o : Opcode) (s s' : List Bytes) (h : Vm.main env o.toByte s = some s') :
    (flow o).2.length ≤ s'.length := by
  by_cases ho : NamedProofs.special o = true
  · have : (flow o).2 = [] := by cases o <;> first | (cases ho; done) | rfl
    rw [this]
    simp
  · obtain ⟨ins, outs, rest, _, rfl, _, hf⟩ := NamedProofs.main_flow env o (by simpa using ho) s s' h
    have := hf.length_eq
    simp only [List.length_reverse] at this
    rw [this]
    simp

theorem ordinary_after {env : Vm.Env} {o : Opcode} {stmt : OpcodeStmt} {L L1 : LState} {N1 : Names}
    (h : ordinary env o stmt L = .ok L1) (hN : ordinaryNames o stmt L.names = some N1) : L1.names = N1 := by
  unfold ordinary at h
  unfold ordinaryNames at hN
  dsimp only at h hN
  have hlab : ((flow o).2.map fun i => i.bind fun i => ((L.names.stack.take (flow o).1).reverse[i]?).join) =
      (flow o).2.map fun i => i.bind fun i => ((L.stack.take (flow o).1).reverse[i]?).bind LItem.name := by
    refine List.map_congr_left fun i _ => ?_
    cases i with
    | none => rfl
    | some i =>
      simp only [Option.bind_some, LState.names]
      rw [← List.map_take, ← List.map_reverse, List.getElem?_map]
      cases (L.stack.take (flow o).1).reverse[i]? <;> rfl
  rw [hlab] at hN
  split at h
  · cases h
  · split at h
    · cases h
    · split at hN
      · cases hN
      · split at h
        · cases h
        · next names hr =>
          rw [hr, Option.map_some] at hN
          cases hN
          split at h
          · cases h
          · next st hm =>
            cases h
            have h1 := main_length env o _ _ hm
            have h2 := rename_length hr
            rw [List.length_map] at h2
            simp only [LState.names, List.map_append, List.map_drop, Names.mk.injEq, List.append_cancel_right_eq,
              and_true]
            have h3 : names.reverse.length ≤ st.length := by rw [List.length_reverse, h2]; exact h1
            generalize names.reverse = ns at h3
            clear hm h1
            induction ns generalizing st with
            | nil => simp
            | cons n ns ih =>
              cases st with
              | nil => simp at h3
              | cons x st => simp [ih st (by simpa using h3)]

theorem pickRoll_after {isRoll : Bool} {stmt : OpcodeStmt} {k? : Option Nat} {L L1 : LState} {N1 : Names}
    (hd : ∀ k, k? = some k → DDepth L k)
    (h : pickRoll isRoll stmt L = .ok L1) (hN : pickRollNames isRoll k? stmt L.names = some N1) : L1.names = N1 := by
  cases k? with
  | none => cases hN
  | some k =>
    obtain ⟨top, st, hs, hv⟩ := hd k rfl
    unfold pickRoll at h
    unfold pickRollNames at hN
    simp only [LState.names, hs, List.map_cons] at hN
    rw [hs] at h
    dsimp only at h
    split at h
    · cases h
    · split at h
      · cases h
      · next n hn =>
        have hk : n = (k : Int) := by
          have := (NumProofs.num?_some hn).1
          rw [hv] at this
          exact (NumProofs.numBytes_inj this).symm
        subst hk
        split at h
        · cases h
        · split at h
          · cases h
          · next item hi =>
            rw [Int.toNat_natCast] at hi h
            rw [List.getElem?_map, hi] at hN
            simp only [Option.map_some, Option.bind_some] at hN
            split at h
            · cases h
            · next name hr =>
              rw [hr, Option.map_some] at hN
              cases hN
              cases h
              simp only [LState.names, List.map_cons, Names.mk.injEq, List.cons.injEq, true_and, and_true]
              split
              · rw [List.eraseIdx_map]
              · rfl

theorem depthOf_after {x : String} {off : Int} {stmt : OpcodeStmt} {L L1 : LState} {N1 : Names}
    (h : depthOf x off stmt L = .ok L1)
    (hN : (renameOne stmt.outputNames none).map (fun n => (⟨n :: L.names.stack, L.names.alt⟩ : Names)) = some N1) :
    L1.names = N1 := by
  unfold depthOf at h
  split at h
  · cases h
  · split at h
    · cases h
    · next n hr =>
      rw [hr] at hN
      cases hN
      cases h
      rfl

/-- The names after a statement. -/
theorem leaf_after {env : Vm.Env} {k? : Option Nat} {l : Leaf} {L L1 : LState} {N1 : Names}
    (hd : ∀ k, k? = some k → DDepth L k) (h : Named.leaf env l L = .ok L1)
    (hN : leafNames k? l L.names = some N1) : L1.names = N1 := by
  cases l with
  | forLoop => cases hN
  | rustIf => cases hN
  | push op name =>
    simp only [Named.leaf] at h
    cases hN
    split at h
    · cases h; rfl
    · cases h
  | opcode stmt =>
    obtain ⟨hd', i, out⟩ := stmt
    have alts : ∀ (top : LItem) (f : Option String → Names) (g : Option String → LState), 
        (match renameOne out top.name with
          | none => Outcome.mismatch
          | some name => .ok (g name)) = .ok L1 → (renameOne out top.name).map f = some N1 →
        (∀ n, (g n).names = f n) → L1.names = N1 := by
      intro top f g h hN hfg
      split at h
      · cases h
      · next n hr =>
        rw [hr] at hN
        cases hN
        cases h
        exact hfg n
    unfold Named.leaf at h
    unfold leafNames at hN
    dsimp only at h hN
    split at h
    · simp only [LState.names] at hN
      split at h
      · cases h
      · next top st hs =>
        rw [hs] at hN
        split at h
        · cases h
        · exact alts top _ _ h hN fun n => by simp [LState.names]
    · simp only [LState.names] at hN
      split at h
      · cases h
      · next top st hs =>
        rw [hs] at hN
        split at h
        · cases h
        · exact alts top _ _ h hN fun n => by simp [LState.names]
    · exact pickRoll_after hd h hN
    · exact pickRoll_after hd h hN
    · next o _ h1 h2 h3 h4 =>
      refine ordinary_after h ?_
      rw [← hN]
      split <;> simp_all
    · exact depthOf_after h hN
    · exact depthOf_after h hN
    · split at h
      · cases h; cases hN; rfl
      · cases h
    · cases h

theorem leaf_ne_undecided (env : Vm.Env) (l : Leaf) (L : LState) : Named.leaf env l L ≠ .undecided := by
  unfold Named.leaf ordinary pickRoll depthOf
  cases l with
  | push op name => dsimp only; split <;> simp
  | forLoop => simp
  | rustIf => simp
  | opcode stmt =>
    dsimp only
    repeat' split
    all_goals simp

/-- In a balanced script no run that obeys the condition is undecided, wherever its code separators are. -/
theorem balanced_obeys (envAt : Nat → Vm.Env) (cond : Predicate) (p : Prog) (passed : Nat) (known : List Atom)
    (k? : Option Nat) (env : Vm.Env) (L : LState) (N' : Names) (hd : ∀ k, k? = some k → DDepth L k)
    (hN : namesAfter cond p known k? L.names = some N')
    (hob : ObeysFrom envAt cond p passed known env L) :
    (runFrom envAt cond p passed known env L).1 ≠ .undecided ∧
    ∀ L', (runFrom envAt cond p passed known env L).1 = .ok L' → L'.names = N' := by
  induction p generalizing passed known k? env L N' with
  | nil => cases hN; simp [runFrom]
  | leaf l rest ih =>
    simp only [namesAfter] at hN
    obtain ⟨N1, hN1, hN⟩ := Option.bind_eq_some_iff.mp hN
    simp only [ObeysFrom] at hob
    have key : ∀ env' passed', (∀ s', Named.leaf env l L = .ok s' → ObeysFrom envAt cond rest passed' known env' s') →
        (andThenIn (Named.leaf env l L, env') (runFrom envAt cond rest passed' known)).1 ≠ .undecided ∧
        ∀ L', (andThenIn (Named.leaf env l L, env') (runFrom envAt cond rest passed' known)).1 = .ok L' → L'.names = N' := by
      intro env' passed' hob'
      cases hr : Named.leaf env l L with
      | ok L1 =>
        simp only [andThenIn]
        exact ih passed' known (depthLeft l L.names) env' L1 N' (fun k hk => depthLeft_ddepth hr hk)
          (by rw [leaf_after hd hr hN1]; exact hN) (hob' L1 hr)
      | fail => simp [andThenIn]
      | mismatch => simp [andThenIn]
      | undecided => exact absurd hr (leaf_ne_undecided env l L)
    simp only [runFrom]
    split
    · next hs => exact key _ _ (fun s' h => by have := hob s' h; rwa [if_pos hs] at this)
    · next hs => exact key _ _ (fun s' h => by have := hob s' h; rwa [if_neg hs] at this)
  | scriptIf i t e el en rest iht ihe ihr =>
    simp only [namesAfter, LState.names] at hN
    simp only [runFrom]
    simp only [ObeysFrom] at hob
    cases hi : i.inputNames with
    | none => rw [hi] at hN; cases hN
    | some is =>
    rw [hi] at hN
    match is, hN with
    | [.ident x], hN =>
      cases hL : L.stack with
      | nil => simp
      | cons top st =>
        rw [hL] at hN
        simp only [List.map_cons] at hN
        dsimp only
        cases ha : argOk (.ident x) top.name with
        | false => simp
        | true =>
          obtain ⟨hcond, hob⟩ := hob x top st hi hL ha
          simp only [Bool.not_true, Bool.false_eq_true, if_false]
          obtain ⟨N2, hN2, hN⟩ := Option.bind_eq_some_iff.mp hN
          cases hb : Vm.truthy top.value with
          | true =>
            rw [hb] at hcond hob
            simp only [if_true] at hob
            simp only [hcond, Bool.not_true, Bool.false_eq_true, if_false, if_true]
            have h1 : namesAfter cond t (known ++ [Atom.mk x true]) none (LState.names ⟨st, L.alt⟩) = some N2 ∧
                (cond.holds (known ++ [Atom.mk x false]) = true →
                  namesAfter cond el (known ++ [Atom.mk x false]) none (LState.names ⟨st, L.alt⟩) = some N2) := by
              simp only [LState.names]
              rw [hcond] at hN2
              cases hf : cond.holds (known ++ [Atom.mk x false]) with
              | false => rw [hf] at hN2; exact ⟨hN2, by simp⟩
              | true =>
                rw [hf] at hN2
                dsimp only at hN2
                by_cases heq : namesAfter cond t (known ++ [Atom.mk x true]) none ⟨st.map LItem.name, L.alt.map LItem.name⟩ =
                    namesAfter cond el (known ++ [Atom.mk x false]) none ⟨st.map LItem.name, L.alt.map LItem.name⟩
                · simp only [heq, if_true] at hN2
                  exact ⟨heq.trans hN2, fun _ => hN2⟩
                · simp [heq] at hN2
            obtain ⟨q1, q2⟩ := iht passed (known ++ [⟨x, true⟩]) none env ⟨st, L.alt⟩ N2 (by simp) h1.1 hob.1
            have hex := runFrom_execFrom envAt cond t passed (known ++ [⟨x, true⟩]) env ⟨st, L.alt⟩ q1
            cases hr : runFrom envAt cond t passed (known ++ [⟨x, true⟩]) env ⟨st, L.alt⟩ with
            | mk out env1 =>
            rw [hr] at q1 q2 hex
            cases out with
            | ok L1 =>
              have hname := q2 L1 rfl
              simp only [andThenIn]
              rw [if_neg (by
                rw [hname]
                intro hc
                rw [Bool.and_eq_true] at hc
                rw [h1.2 hc.1] at hc
                simp at hc)]
              exact ihr _ known none env1 L1 N' (by simp) (by rw [hname]; exact hN) (hob.2 L1 env1 hex.symm)
            | fail => simp [andThenIn]
            | mismatch => simp [andThenIn]
            | undecided => exact absurd rfl q1
          | false =>
            rw [hb] at hcond hob
            simp only [Bool.false_eq_true, if_false] at hob
            simp only [hcond, Bool.not_true, Bool.false_eq_true, if_false]
            have h1 : namesAfter cond el (known ++ [Atom.mk x false]) none (LState.names ⟨st, L.alt⟩) = some N2 := by
              simp only [LState.names]
              rw [hcond] at hN2
              cases hf : cond.holds (known ++ [Atom.mk x true]) with
              | false => rw [hf] at hN2; exact hN2
              | true =>
                rw [hf] at hN2
                dsimp only at hN2
                by_cases heq : namesAfter cond t (known ++ [Atom.mk x true]) none ⟨st.map LItem.name, L.alt.map LItem.name⟩ =
                    namesAfter cond el (known ++ [Atom.mk x false]) none ⟨st.map LItem.name, L.alt.map LItem.name⟩
                · simp only [heq, if_true] at hN2
                  exact hN2
                · simp [heq] at hN2
            obtain ⟨q1, q2⟩ := ihe (passed + separators t) (known ++ [⟨x, false⟩]) none env ⟨st, L.alt⟩ N2 (by simp) h1
              hob.1
            have hex := runFrom_execFrom envAt cond el (passed + separators t) (known ++ [⟨x, false⟩]) env ⟨st, L.alt⟩ q1
            cases hr : runFrom envAt cond el (passed + separators t) (known ++ [⟨x, false⟩]) env ⟨st, L.alt⟩ with
            | mk out env1 =>
            rw [hr] at q1 q2 hex
            cases out with
            | ok L1 =>
              simp only [andThenIn]
              exact ihr _ known none env1 L1 N' (by simp) (by rw [q2 L1 rfl]; exact hN) (hob.2 L1 env1 hex.symm)
            | fail => simp [andThenIn]
            | mismatch => simp [andThenIn]
            | undecided => exact absurd rfl q1

theorem obeysFrom_nil (envAt : Nat → Vm.Env) (p : Prog) (passed : Nat) (known : List Atom) (env : Vm.Env) (s : LState) :
    ObeysFrom envAt [] p passed known env s := by
  induction p generalizing passed known env s with
  | nil => trivial
  | leaf l rest ih =>
    intro s' _
    split
    · exact ih _ _ _ _
    · exact ih _ _ _ _
  | scriptIf i t e el en rest iht ihe ihr =>
    intro x top st _ _ _
    refine ⟨rfl, ?_⟩
    split
    · exact ⟨iht _ _ _ _, fun s' _ _ => ihr _ _ _ _⟩
    · exact ⟨ihe _ _ _ _, fun s' _ _ => ihr _ _ _ _⟩

end GenProofs
end BCash
