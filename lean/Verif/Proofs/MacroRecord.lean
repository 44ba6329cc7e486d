import Verif.Proofs.MacroInit
import Verif.Spec.Recorded

/-! # Recorded names -/

namespace BCash
open Spec Spec.Macro Spec.Named Macro

namespace GenProofs

/-- The record of an operation is right in every variant that is possible. -/
def RecStatic (n m : Nat) (e : List Emit) (g : Gen) : Prop :=
  ∀ x ∈ e, x.pushed.length = n ∧ x.altPushed.length = m ∧
    ∀ v s, (v, s) ∈ g.states → s.condition.holds g.atoms = true →
      x.pushed = ((s.stack.take n).map Item.tag).reverse ∧
      x.altPushed = ((s.alt.take m).map Item.tag).reverse

/-- After a push, the item is on top. -/
theorem push_static (op : Op Bytes) (tag : Option String) (g : Gen) (item : Item) (ht : item.tag = tag) :
    RecStatic 1 0 [⟨op, [tag], []⟩] (g.push item) := by
  intro x hx
  simp only [List.mem_singleton] at hx
  subst hx
  refine ⟨rfl, rfl, ?_⟩
  intro v s hm hh
  obtain ⟨s0, q1, q2, q3⟩ := Step.mem' (push_step g item) hm
  have hs := q3.1 (by rw [← q2]; exact hh)
  subst hs
  simp [ht]

theorem pushAlt_static (op : Op Bytes) (g : Gen) (item : Item) :
    RecStatic 0 1 [⟨op, [], [item.tag]⟩] (g.pushAlt item) := by
  intro x hx
  simp only [List.mem_singleton] at hx
  subst hx
  refine ⟨rfl, rfl, ?_⟩
  intro v s hm hh
  obtain ⟨s0, q1, q2, q3⟩ := Step.mem' (pushAlt_step g item) hm
  have hs := q3.1 (by rw [← q2]; exact hh)
  subst hs
  simp

theorem other_static (o : Opcode) (stmt : OpcodeStmt) (g g' : Gen)
    (e : List Emit) (hg : GoodGen g) (h1 : NamedProofs.special o = false) (h2 : o ≠ .OP_NOTIF)
    (hn : NamesOk o stmt.outputNames) (h : runOther o stmt g = .ok (e, g')) :
    e.length = 1 ∧ RecStatic (flow o).2.length 0 e g' := by
  unfold runOther at h
  cases hb : o.behavior with
  | none => rw [hb] at h; cases h
  | some b =>
    rw [hb] at h
    simp only [Res.bind_eq_ok, Prod.exists, Res.ok.injEq, Prod.mk.injEq] at h
    obtain ⟨items, g1, hp, u, hcheck, out, m, hout, rfl, rfl⟩ := h
    obtain ⟨s1, n1, gi, li, gg1⟩ := popN_spec _ g g1 items hg hp
    obtain ⟨hren, hgo⟩ := outputItems_spec o b items stmt.outputNames g1.nIdent out m hb h1 h2 hn gi li hout
    have q3 : (flow o).2.length = out.length := by
      cases hns : stmt.outputNames with
      | none =>
        rw [hns] at hren
        simp only [rename, Option.some.injEq] at hren
        have := congrArg List.length hren
        simpa using this
      | some ns =>
        rw [hns] at hren
        simp only [rename] at hren
        split at hren
        · next hl =>
          simp only [Option.some.injEq] at hren
          have := congrArg List.length hren
          simp only [List.length_zipWith, List.length_map] at this hl
          omega
        · cases hren
    refine ⟨rfl, ?_⟩
    intro x hx
    simp only [List.mem_singleton] at hx
    subst hx
    refine ⟨by simp [q3], rfl, ?_⟩
    intro v s hm hh
    obtain ⟨s0, r1, r2, r3⟩ := Step.mem' (pushAll_step out { g1 with nIdent := g1.nIdent + m }).1 hm
    have hs := r3.1 (by rw [← r2]; rw [(pushAll_step out { g1 with nIdent := g1.nIdent + m }).1.1] at hh; exact hh)
    subst hs
    refine ⟨?_, by simp⟩
    dsimp only
    rw [List.take_left' (by simp [q3])]
    simp

theorem bracket_static (stmt : OpcodeStmt) (o : Opcode) (hh : stmt.head = .op o)
    (ho : o = .OP_IF ∨ o = .OP_ELSE ∨ o = .OP_ENDIF) (g g' : Gen) (e : List Emit)
    (h : runOpcode stmt g = .ok (e, g')) : e.length = 1 ∧ bracketOk e := by
  have hr : runOther o stmt g = .ok (e, g') := by
    rw [← h]; unfold runOpcode; rw [hh]
    rcases ho with rfl | rfl | rfl <;> rfl
  unfold runOther at hr
  obtain ⟨b, b1, b2, b3⟩ : ∃ b, o.behavior = some b ∧ b.outputTypes = [] ∧
      (b.outputOrder = none ∨ b.outputOrder = some []) := by
    rcases ho with rfl | rfl | rfl <;> exact ⟨_, rfl, rfl, .inl rfl⟩
  rw [b1] at hr
  dsimp only at hr
  obtain ⟨⟨items, g1⟩, hp, hr⟩ := Res.bind_eq_ok.mp hr
  obtain ⟨u, hc, hr⟩ := Res.bind_eq_ok.mp hr
  obtain ⟨⟨out, m⟩, ho, hr⟩ := Res.bind_eq_ok.mp hr
  have := outputItems_nil b2 b3 ho
  subst this
  simp only [Res.ok.injEq, Prod.mk.injEq] at hr
  obtain ⟨rfl, rfl⟩ := hr
  refine ⟨rfl, ?_⟩
  intro x hx
  simp only [List.mem_singleton] at hx
  subst hx
  exact ⟨rfl, rfl⟩

theorem depthOf_static {x : String} {offset : Int} {stmt : OpcodeStmt} {g g' : Gen} {e : List Emit}
    (hout : stmt.outputNames = none ∨ ∃ y, stmt.outputNames = some [y])
    (h : runDepthOf x offset stmt g = .ok (e, g')) : e.length = 1 ∧ RecStatic 1 0 e g' := by
  unfold runDepthOf at h
  obtain ⟨depth, hf, h⟩ := Res.bind_eq_ok.mp h
  split at h
  · cases h
  · rcases hout with ho | ⟨y, ho⟩ <;> rw [ho] at h <;> dsimp only at h <;> split at h
    · cases h
    · split at h
      · cases h
      · cases h
        exact ⟨rfl, push_static _ _ _ _ rfl⟩
    · cases h
    · split at h
      · cases h
      · cases h
        exact ⟨rfl, push_static _ _ _ _ rfl⟩

theorem pickRoll_static {op : Opcode} {isRoll : Bool} {stmt : OpcodeStmt} {g g' : Gen} {e : List Emit}
    (h : runPickRoll op isRoll stmt g = .ok (e, g')) : e.length = 1 ∧ RecStatic 1 0 e g' := by
  unfold runPickRoll at h
  obtain ⟨⟨top, g1⟩, _, h⟩ := Res.bind_eq_ok.mp h
  obtain ⟨_, _, h⟩ := Res.bind_eq_ok.mp h
  obtain ⟨_, _, h⟩ := Res.bind_eq_ok.mp h
  obtain ⟨⟨_, g2⟩, _, h⟩ := Res.bind_eq_ok.mp h
  obtain ⟨item, _, h⟩ := Res.bind_eq_ok.mp h
  cases h
  exact ⟨rfl, push_static _ _ _ _ rfl⟩

theorem leaf_static (l : Leaf) (k : Bool) (g g' : Gen) (e : List Emit)
    (hg : GoodGen g) (hn1 : opens l = false) (hok : leafOk k l = true)
    (h : runLeaf l g = .ok (e, g')) : e.length = leafSize l ∧ RecStatic (leaves l).1 (leaves l).2 e g' := by
  cases l with
  | push op name =>
    simp only [runLeaf, Res.ok.injEq] at h
    unfold runPush at h
    simp only [Prod.mk.injEq] at h
    obtain ⟨rfl, rfl⟩ := h
    exact ⟨rfl, push_static _ _ _ _ (by cases name <;> rfl)⟩
  | forLoop => cases h
  | rustIf => cases h
  | opcode stmt =>
    simp only [runLeaf] at h
    simp only [leafOk] at hok
    have hw : (writtenNames stmt).all (fun x => !reserved x) = true := by
      simp only [stmtOk, Bool.and_eq_true] at hok
      exact hok.1
    obtain ⟨hd, i, o⟩ := stmt
    cases hd with
    | depthOf =>
      simp only [runOpcode] at h
      split at h
      · next x =>
        refine depthOf_static ?_ h
        simp only [stmtOk, Bool.and_eq_true] at hok
        exact single_out hok.2
      · cases h
    | depthOfOffset =>
      simp only [runOpcode] at h
      split at h
      · next x t off =>
        refine depthOf_static ?_ h
        simp only [stmtOk, Bool.and_eq_true] at hok
        exact single_out hok.2
      · cases h
    | transmute =>
      simp only [runOpcode] at h
      unfold runTransmute at h
      split at h
      · replace h := of_ite_err h
        obtain ⟨_, _, h⟩ := Res.bind_eq_ok.mp h
        cases h
        exact ⟨rfl, by intro x hx; cases hx⟩
      · cases h
    | unknown => cases h
    | op c =>
      by_cases c1 : c = .OP_TOALTSTACK
      · subst c1
        simp only [runOpcode] at h
        obtain ⟨⟨_, g1⟩, _, h⟩ := Res.bind_eq_ok.mp h
        obtain ⟨_, _, h⟩ := Res.bind_eq_ok.mp h
        obtain ⟨item, _, h⟩ := Res.bind_eq_ok.mp h
        cases h
        exact ⟨rfl, pushAlt_static _ _ _⟩
      by_cases c2 : c = .OP_FROMALTSTACK
      · subst c2
        simp only [runOpcode] at h
        obtain ⟨⟨_, g1⟩, _, h⟩ := Res.bind_eq_ok.mp h
        obtain ⟨_, _, h⟩ := Res.bind_eq_ok.mp h
        obtain ⟨item, _, h⟩ := Res.bind_eq_ok.mp h
        cases h
        exact ⟨rfl, push_static _ _ _ _ rfl⟩
      by_cases c3 : c = .OP_PICK
      · subst c3; exact pickRoll_static h
      by_cases c4 : c = .OP_ROLL
      · subst c4; exact pickRoll_static h
      have h' : (if inNameMap c then runOther c ⟨.op c, i, o⟩ g else .err "Unknown opcode/function") =
          .ok (e, g') := by
        rw [← h]
        unfold runOpcode
        dsimp only
        split <;> simp_all
      split at h'
      · next hmap =>
        have hsp : NamedProofs.special c = false := by
          cases hs : NamedProofs.special c with
          | false => rfl
          | true =>
            have : c = .OP_IFDUP := by
              cases c <;> first | rfl | (cases hs; done) | exact absurd rfl c1 | exact absurd rfl c2 |
                exact absurd rfl c3 | exact absurd rfl c4
            subst this
            cases h'
        have hl : leaves (.opcode ⟨.op c, i, o⟩) = ((flow c).2.length, 0) := by
          cases c <;> first | rfl | exact absurd rfl c1 | exact absurd rfl c2 |
            exact absurd rfl c3 | exact absurd rfl c4
        rw [hl]
        refine other_static c _ g g' e hg hsp ?_ ?_ h'
        · rintro rfl; cases hn1
        · refine ⟨?_, ?_⟩
          · intro ns hns x hx
            have := List.all_eq_true.mp hw x (by
              simp only [writtenNames]
              dsimp only at hns
              rw [hns]
              simp [hx])
            simpa using this
          · rintro rfl
            simp only [stmtOk, Bool.and_eq_true] at hok
            match o, hok.2 with
            | some [a, b], hh => exact ⟨a, b, rfl, by simpa using hh⟩
      · cases h'

/-- The record is right for the tracked items. -/
theorem recordOk_of_static {l : Leaf} {e : List Emit} {g : Gen} {v : String} {cond : Predicate} {L : LState}
    (h : RecStatic (leaves l).1 (leaves l).2 e g) (ht : Tracks v cond g L)
    (hh : cond.holds g.atoms = true) : recordOk l e L := by
  obtain ⟨s, hm, hc, hs, ha⟩ := ht
  intro x hx
  obtain ⟨q1, q2, q3⟩ := h x hx
  obtain ⟨r1, r2⟩ := q3 v s hm (by rw [hc]; exact hh)
  refine ⟨?_, ?_, q1, q2⟩
  · rw [r1, topNames, List.map_take, List.map_take, hs]
  · rw [r2, topNames, List.map_take, List.map_take, ha]

theorem run_exec (env : Vm.Env) (cond : Predicate) (p : Prog) (known : List Atom) (s : LState)
    (h : Named.run env cond p known s ≠ .undecided) : Named.run env cond p known s = exec env p s := by
  induction p generalizing known s with
  | nil => rfl
  | leaf l rest ih =>
    simp only [Named.run, exec] at h ⊢
    cases hl : Named.leaf env l s with
    | ok s' => rw [hl] at h; exact ih known s' h
    | _ => rfl
  | scriptIf i t e el en rest iht ihe ihr =>
    simp only [Named.run, exec] at h ⊢
    split at h
    · next x top st hi hs =>
      split at h
      · next ha => rw [if_pos ha, if_pos ha]
      · next ha =>
        rw [if_neg ha, if_neg ha]
        split at h
        · exact absurd rfl h
        · next hc =>
          rw [if_neg hc]
          split at h
          · next ht =>
            rw [if_pos ht, if_pos ht]
            cases hr : Named.run env cond t (known ++ [⟨x, true⟩]) ⟨st, s.alt⟩ with
            | ok s' =>
              rw [hr] at h
              simp only [Outcome.andThen] at h
              split at h
              · exact absurd rfl h
              · next hc2 =>
                rw [← iht (known ++ [⟨x, true⟩]) ⟨st, s.alt⟩ (by rw [hr]; simp), hr]
                simp only [Outcome.andThen]
                rw [if_neg hc2]
                exact ihr known s' h
            | undecided => rw [hr] at h; exact absurd rfl h
            | fail => rw [← iht (known ++ [⟨x, true⟩]) ⟨st, s.alt⟩ (by rw [hr]; simp), hr]; rfl
            | mismatch => rw [← iht (known ++ [⟨x, true⟩]) ⟨st, s.alt⟩ (by rw [hr]; simp), hr]; rfl
          · next ht =>
            rw [if_neg ht, if_neg ht]
            cases hr : Named.run env cond el (known ++ [⟨x, false⟩]) ⟨st, s.alt⟩ with
            | ok s' =>
              rw [hr] at h
              rw [← ihe (known ++ [⟨x, false⟩]) ⟨st, s.alt⟩ (by rw [hr]; simp), hr]
              exact ihr known s' h
            | undecided => rw [hr] at h; exact absurd rfl h
            | fail => rw [← ihe (known ++ [⟨x, false⟩]) ⟨st, s.alt⟩ (by rw [hr]; simp), hr]; rfl
            | mismatch => rw [← ihe (known ++ [⟨x, false⟩]) ⟨st, s.alt⟩ (by rw [hr]; simp), hr]; rfl
    · rfl
    · rfl

/-- Whole scripts. -/
theorem prog_records (env : Vm.Env) (p : Prog) (k? : Option Nat) (g g' : Gen) (e : List Emit)
    (hwn : WellNested p) (hok : progOk k?.isSome p = true) (hg : GoodGen g)
    (hkeys : (g.states.map Prod.fst).Nodup)
    (hk : ∀ k, k? = some k → SDepth g k) (h : runProg p g = .ok (e, g')) :
    e.length = progSize p ∧
    ∀ v cond L, Tracks v cond g L → cond.holds g.atoms = true → (∀ k, k? = some k → DDepth L k) →
      Named.run env cond p g.atoms L ≠ .undecided → RecordsOk env p e L := by
  induction p generalizing k? g g' e with
  | nil => cases h; exact ⟨rfl, fun v cond L _ _ _ _ => rfl⟩
  | leaf l rest ih =>
    obtain ⟨w1, w2, w3, w4⟩ := hwn
    simp only [progOk, Bool.and_eq_true] at hok
    simp only [runProg] at h
    obtain ⟨⟨e1, g1⟩, h1, h⟩ := Res.bind_eq_ok.mp h
    obtain ⟨⟨e2, g2⟩, h2, h⟩ := Res.bind_eq_ok.mp h
    cases h
    obtain ⟨k'?, a1, a2, a3, a4, a5, a6, a7⟩ := leaf_sim env k? l g g1 e1 hg hk w1 w2 w3 hok.1 h1
    obtain ⟨z1, z2⟩ := leaf_static l _ g g1 e1 hg w1 hok.1 h1
    obtain ⟨k2?, hk2, hk2'⟩ : ∃ k2? : Option Nat, k2?.isSome = isDepthOf l ∧
        (∀ k, k2? = some k → k'? = some k) := by
      cases hd : isDepthOf l with
      | true => exact ⟨k'?, a6 hd, fun k h => h⟩
      | false => exact ⟨none, rfl, by simp⟩
    obtain ⟨b1, b2⟩ := ih k2? g1 g2 e2 w4 (by rw [hk2]; exact hok.2) a3
      (by rw [keys_of_signature a1]; exact hkeys) (fun k hk => a5 k (hk2' k hk)) h2
    refine ⟨by simp [progSize, z1, b1], ?_⟩
    intro v cond L ht hh hdd hun
    have hl := a7 v cond L ht hh hdd
    simp only [Named.run] at hun
    simp only [RecordsOk]
    cases hr : Named.leaf env l L with
    | ok L1 =>
      rw [hr] at hl hun
      obtain ⟨t1, t2, t3⟩ := hl
      dsimp only
      rw [List.take_left' z1, List.drop_left' z1]
      refine ⟨z1, recordOk_of_static z2 t1 (by rw [a2]; exact hh), ?_⟩
      exact b2 v cond L1 t1 (by rw [a2]; exact hh) (fun k hk => t3 k (hk2' k hk)) (by rw [a2]; exact hun)
    | _ => trivial
  | scriptIf ifOp thenStmts elseOp elseStmts endifOp rest iht ihe ihr =>
    obtain ⟨w1, w2, w3, w4, w5, w6, w7⟩ := hwn
    simp only [progOk, Bool.and_eq_true] at hok
    obtain ⟨⟨⟨ok1, ok2⟩, ok3⟩, ok4⟩ := hok
    simp only [runProg] at h
    obtain ⟨⟨e1, g1⟩, h1, h⟩ := Res.bind_eq_ok.mp h
    obtain ⟨x, hx, h⟩ := Res.bind_eq_ok.mp h
    obtain ⟨⟨e2, gt⟩, h2, h⟩ := Res.bind_eq_ok.mp h
    obtain ⟨⟨e3, gt'⟩, h3, h⟩ := Res.bind_eq_ok.mp h
    obtain ⟨⟨e4, ge⟩, h4, h⟩ := Res.bind_eq_ok.mp h
    obtain ⟨⟨e5, ge'⟩, h5, h⟩ := Res.bind_eq_ok.mp h
    obtain ⟨states, h6, h⟩ := Res.bind_eq_ok.mp h
    obtain ⟨⟨e6, g6⟩, h7, h⟩ := Res.bind_eq_ok.mp h
    cases h
    dsimp only at h2 h3 h4 h5 h6 h7
    obtain ⟨i1, i2, i3, item, i4, i5⟩ := if_spec ifOp w1 g g1 e1 x hg h1 hx
    have k1 : (g1.states.map Prod.fst).Nodup := by rw [keys_of_signature i5.signature]; exact hkeys
    obtain ⟨t1, t2, t3, tst, ct, simt⟩ := prog_sim env thenStmts none
      { g1 with atoms := g1.atoms ++ [⟨x, true⟩] } gt e2 w5 ok2 i3 k1 (by simp) h2
    obtain ⟨lt, rt⟩ := iht none { g1 with atoms := g1.atoms ++ [⟨x, true⟩] } gt e2 w5 ok2
      i3 k1 (by simp) h2
    obtain ⟨l1, l2, l3⟩ := else_code elseOp gt gt' e3 w2 h3
    obtain ⟨u1, u2, u3, tse, ce, sime⟩ := prog_sim env elseStmts none
      { g1 with atoms := g1.atoms ++ [⟨x, false⟩], nIdent := gt'.nIdent } ge e4 w6 ok3 i3 k1 (by simp) h4
    obtain ⟨le, re⟩ := ihe none { g1 with atoms := g1.atoms ++ [⟨x, false⟩], nIdent := gt'.nIdent }
      ge e4 w6 ok3 i3 k1 (by simp) h4
    have hen : endifOp.head = .op .OP_ENDIF := by
      unfold closes at w4
      split at w4
      · next q => cases q; rfl
      · cases w4
    obtain ⟨n1, n2, n3⟩ := bracket_spec .OP_ENDIF (.inr rfl) endifOp hen ge ge' e5 h5
    have hsig : signature gt' = signature ge' := by
      have p1 : signature gt' = signature gt := by simp only [signature, l1]
      have p2 : signature ge' = signature ge := by simp only [signature, n2]
      rw [p1, p2, t1, u1]
      rfl
    have hsige : signature ge' = signature g1 := by
      have p2 : signature ge' = signature ge := by simp only [signature, n2]
      rw [p2, u1]
      rfl
    have ke : (ge'.states.map Prod.fst).Nodup := by rw [keys_of_signature hsige]; exact k1
    obtain ⟨m1, m2, m3, m4⟩ := merge_spec gt' ge' _ _ states hsig ke h6
    have gm : GoodGen { ge' with states := states, atoms := g1.atoms } := by
      intro p hp
      rcases m2 p hp with hp | hp
      · rw [l1] at hp; exact t3 p hp
      · rw [n2] at hp; exact u3 p hp
    have sigm : signature { ge' with states := states, atoms := g1.atoms } = signature g := by
      rw [← i5.signature, ← hsige]
      exact m1
    obtain ⟨lr, rr⟩ := ihr none { ge' with states := states, atoms := g1.atoms } g6 e6 w7 ok4 gm
      (by rw [keys_of_signature sigm]; exact hkeys) (by simp) h7
    -- the brackets
    have hif : ifOp.head = .op .OP_IF := by
      unfold opens at w1
      split at w1
      · next q => cases q; rfl
      · next q =>
        cases q
        exfalso
        have : e1.map Emit.op = [.code .OP_NOTIF] := by
          simp only [runOpcode] at h1
          have hr : runOther .OP_NOTIF _ g = .ok (e1, g1) := h1
          unfold runOther at hr
          simp only at hr
          split at hr
          · cases hr
          · obtain ⟨_, _, hr⟩ := Res.bind_eq_ok.mp hr
            obtain ⟨_, _, hr⟩ := Res.bind_eq_ok.mp hr
            obtain ⟨_, _, hr⟩ := Res.bind_eq_ok.mp hr
            cases hr
            rfl
        rw [this] at i1
        cases i1
      · cases w1
    obtain ⟨c1, c2⟩ := bracket_static ifOp _ hif (.inl rfl) g g1 e1 h1
    obtain ⟨c3, c4⟩ := bracket_static endifOp _ hen (.inr (.inr rfl)) ge ge' e5 h5
    have c56 : e3.length = (if elseOp.isSome then 1 else 0) ∧ bracketOk e3 := by
      cases elseOp with
      | none => cases h3; exact ⟨rfl, by intro x hx; cases hx⟩
      | some o =>
        have hh : o.head = .op .OP_ELSE := by
          have := w2 o rfl
          unfold isElse at this
          split at this
          · next q => cases q; rfl
          · cases this
        exact bracket_static o _ hh (.inr (.inl rfl)) gt gt' e3 h3
    obtain ⟨c5, c6⟩ := c56
    refine ⟨by simp only [progSize, List.length_append, c1, lt, c5, le, c3, lr], ?_⟩
    intro v cond L ht hh _ hun
    simp only [RecordsOk, List.append_assoc]
    rw [List.take_left' c1, List.drop_left' c1, List.drop_left' lt, List.take_left' c5, List.drop_left' c5,
      List.drop_left' le, List.take_left' c3, List.drop_left' c3, List.take_left' lt, List.take_left' le]
    refine ⟨c2, c6, c4, ?_⟩
    obtain ⟨s, hm, hc, hs, ha⟩ := ht
    obtain ⟨s1, hm1, hc1, hP, _⟩ := i5.mem hm
    obtain ⟨it, z1, z2, z3⟩ := hP (by rw [hc]; exact hh)
    rw [z1] at hs
    simp only [Named.run, i2] at hun
    cases hL : L.stack with
    | nil => trivial
    | cons top st =>
      rw [hL] at hs hun
      simp only [List.map_cons, List.cons.injEq] at hs
      dsimp only at hun ⊢
      rw [← hs.1, z3, i4] at hun
      simp only [Bool.not_true, Bool.false_eq_true, if_false] at hun
      have hT : Tracks v cond g1 ⟨st, L.alt⟩ := ⟨s1, hm1, hc1.trans hc, hs.2, by rw [z2]; exact ha⟩
      have hat : g1.atoms = g.atoms := i5.1
      cases hb : Vm.truthy top.value with
      | true =>
        rw [hb] at hun
        simp only [if_true] at hun ⊢
        cases hc1 : cond.holds (g.atoms ++ [⟨x, true⟩]) with
        | false => rw [hc1] at hun; exact absurd rfl hun
        | true =>
          rw [hc1] at hun
          simp only [Bool.not_true, Bool.false_eq_true, if_false] at hun
          have sm := simt v cond ⟨st, L.alt⟩ [] [] hT (by rw [hat]; exact hc1) (by simp) rfl
          dsimp only at sm
          rw [hat] at sm
          have hun2 : Named.run env cond thenStmts (g.atoms ++ [⟨x, true⟩]) ⟨st, L.alt⟩ ≠ .undecided := by
            intro hu; rw [hu] at hun; exact hun rfl
          refine ⟨rt v cond ⟨st, L.alt⟩ hT (by rw [hat]; exact hc1) (by simp) (by
            dsimp only; rw [hat]; exact hun2), ?_⟩
          intro L1 hex
          rw [run_exec env cond _ _ _ hun2, hex] at sm hun
          obtain ⟨⟨s2, hm2, hc2, hs2, ha2⟩, _⟩ := sm
          simp only [Outcome.andThen] at hun
          cases hbal : (cond.holds (g.atoms ++ [⟨x, false⟩]) &&
              namesAfter cond elseStmts (g.atoms ++ [⟨x, false⟩]) none (LState.names ⟨st, L.alt⟩) !=
                some L1.names) with
          | true => rw [hbal] at hun; exact absurd rfl hun
          | false =>
            rw [hbal] at hun
            simp only [Bool.false_eq_true, if_false] at hun
            have hT2 : Tracks v cond { ge' with states := states, atoms := g1.atoms } L1 := by
              cases hc3 : cond.holds (g.atoms ++ [⟨x, false⟩]) with
              | false =>
                exact ⟨s2, m3 v s2 (by rw [l1]; exact hm2) (by rw [hc2, hat]; exact hc1)
                  (by rw [hc2, hat]; exact hc3), hc2, hs2, ha2⟩
              | true =>
                rw [hc3] at hbal
                simp only [Bool.true_and, bne_eq_false_iff_eq] at hbal
                have lse := leaves_sound elseStmts none
                  { g1 with atoms := g1.atoms ++ [⟨x, false⟩], nIdent := gt'.nIdent } ge e4 w6 ok3 i3 k1 (by simp) h4
                obtain ⟨s3, hm3, hc3', hs3, ha3⟩ := lse v cond _ _ (tracksN_names.mp hT)
                  (by dsimp only; rw [hat]; exact hc3) (by dsimp only; rw [hat]; exact hbal)
                exact ⟨s3, m4 v s3 (by rw [n2]; exact hm3) (by rw [hc3', hat]; exact hc3), hc3', hs3, ha3⟩
            exact rr v cond L1 hT2 (by dsimp only; rw [hat]; exact hh) (by simp)
              (by dsimp only; rw [hat]; exact hun)
      | false =>
        rw [hb] at hun
        simp only [Bool.false_eq_true, if_false] at hun ⊢
        cases hc1 : cond.holds (g.atoms ++ [⟨x, false⟩]) with
        | false => rw [hc1] at hun; exact absurd rfl hun
        | true =>
          rw [hc1] at hun
          simp only [Bool.not_true, Bool.false_eq_true, if_false] at hun
          have sm := sime v cond ⟨st, L.alt⟩ [] [] hT (by dsimp only; rw [hat]; exact hc1) (by simp) rfl
          dsimp only at sm
          rw [hat] at sm
          have hun2 : Named.run env cond elseStmts (g.atoms ++ [⟨x, false⟩]) ⟨st, L.alt⟩ ≠ .undecided := by
            intro hu; rw [hu] at hun; exact hun rfl
          refine ⟨re v cond ⟨st, L.alt⟩ hT (by dsimp only; rw [hat]; exact hc1) (by simp) (by
            dsimp only; rw [hat]; exact hun2), ?_⟩
          intro L1 hex
          rw [run_exec env cond _ _ _ hun2, hex] at sm hun
          obtain ⟨⟨s2, hm2, hc2, hs2, ha2⟩, _⟩ := sm
          simp only [Outcome.andThen] at hun
          exact rr v cond L1 ⟨s2, m4 v s2 (by rw [n2]; exact hm2) (by rw [hc2, hat]; exact hc1),
            hc2, hs2, ha2⟩ (by dsimp only; rw [hat]; exact hh) (by simp)
            (by dsimp only; rw [hat]; exact hun)

end GenProofs
end BCash
