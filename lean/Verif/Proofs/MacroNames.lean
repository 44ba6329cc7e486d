import Verif.Proofs.MacroLeaf2

/-! # The names a statement leaves: tracked names against `Spec.Named.leafNames` -/

namespace BCash
open Spec Spec.Macro Spec.Named Macro

namespace GenProofs

/-- The tracked state of a variant carries these names. -/
def TracksN (v : String) (cond : Predicate) (g : Gen) (N : Names) : Prop :=
  ∃ s, (v, s) ∈ g.states ∧ s.condition = cond ∧ s.stack.map Item.tag = N.stack ∧ s.alt.map Item.tag = N.alt

theorem tracksN_names {v : String} {cond : Predicate} {g : Gen} {L : LState} :
    Tracks v cond g L ↔ TracksN v cond g L.names := Iff.rfl

theorem ordinary_names (o : Opcode) (stmt : OpcodeStmt) (g g' : Gen)
    (e : List Emit) (hg : GoodGen g) (h1 : NamedProofs.special o = false) (h2 : o ≠ .OP_NOTIF)
    (hn : NamesOk o stmt.outputNames) (h : runOther o stmt g = .ok (e, g'))
    (v : String) (cond : Predicate) (N N' : Names) (ht : TracksN v cond g N) (hh : cond.holds g.atoms = true)
    (hN : ordinaryNames o stmt N = some N') : TracksN v cond g' N' := by
  unfold runOther at h
  cases hb : o.behavior with
  | none => rw [hb] at h; cases h
  | some b =>
    rw [hb] at h
    simp only [Res.bind_eq_ok, Prod.exists, Res.ok.injEq, Prod.mk.injEq] at h
    obtain ⟨items, g1, hp, u, hcheck, out, m, hout, rfl, rfl⟩ := h
    obtain ⟨s1, n1, gi, li, gg1⟩ := popN_spec _ g g1 items hg hp
    obtain ⟨hren, hgo⟩ := outputItems_spec o b items stmt.outputNames g1.nIdent out m hb h1 h2 hn gi li hout
    obtain ⟨s3, _⟩ := pushAll_step out { g1 with nIdent := g1.nIdent + m }
    have s2 : Step (fun s s' => s' = { s with stack := out.reverse ++ s.stack }) g1 _ :=
      (Step.refl g1 (g1.nIdent + m)).trans s3 (by rintro a b c rfl rfl; rfl)
    have hstep := s1.trans s2 (R := fun s s' => ∃ (its : List Item) (rest : List Item),
        its.length = b.inputTypes.length ∧ s.stack = its.reverse ++ rest ∧
        s'.stack = out.reverse ++ rest ∧ s'.alt = s.alt ∧ its.map Item.tag = items.map Item.tag) (by
      rintro a b c ⟨its, q1, q2, q3, q4⟩ rfl
      exact ⟨its, b.stack, q1, q2, rfl, q3, q4⟩)
    obtain ⟨s, hm, hc, hs, ha⟩ := ht
    obtain ⟨s', hm', hc', hP, _⟩ := hstep.mem hm
    obtain ⟨its, rest, l1, e1, e2, e3, e4⟩ := hP (by rw [hc]; exact hh)
    obtain ⟨t1, t2, _⟩ := flow_table o b hb h1 h2
    have htake : N.stack.take (flow o).1 = (its.reverse).map Item.tag := by
      rw [← hs, e1, List.map_append, List.take_left' (by simp [t1, l1])]
    have hdrop : N.stack.drop (flow o).1 = rest.map Item.tag := by
      rw [← hs, e1, List.map_append, List.drop_left' (by simp [t1, l1])]
    have htaken : (N.stack.take (flow o).1).reverse = items.map Item.tag := by
      rw [htake, List.map_reverse, List.reverse_reverse, e4]
    unfold ordinaryNames at hN
    dsimp only at hN
    split at hN
    · cases hN
    · rw [htaken] at hN
      have hlab : (flow o).2.map (fun i => i.bind fun i => ((items.map Item.tag)[i]?).join) =
          (flow o).2.map (labelAt (items.map Item.tag)) := rfl
      rw [hlab, hren, Option.map_some] at hN
      cases hN
      refine ⟨s', hm', hc'.trans hc, ?_, ?_⟩
      · rw [e2, List.map_append, hdrop, List.map_reverse]
      · rw [e3]; exact ha

/-- Stacks with the given names. -/
def dummy (d : Bytes) (N : Names) : LState := ⟨N.stack.map fun n => ⟨d, n⟩, N.alt.map fun n => ⟨d, n⟩⟩

theorem dummy_names (d : Bytes) (N : Names) : (dummy d N).names = N := by
  simp [dummy, LState.names, Function.comp_def]

/-- Statements other than ordinary operations never fail on stacks with the right names. -/
theorem special_names (env : Vm.Env) (k? : Option Nat) (hk : ∀ k, k? = some k → k < 2 ^ 31) (l : Leaf)
    (hl : ∀ o i out, l = .opcode ⟨.op o, i, out⟩ →
      o = .OP_TOALTSTACK ∨ o = .OP_FROMALTSTACK ∨ o = .OP_PICK ∨ o = .OP_ROLL)
    (N N' : Names) (h : leafNames k? l N = some N') :
    match Named.leaf env l (dummy (Vm.numBytes ((k?.getD 0 : Nat) : Int)) N) with
    | .ok L' => L'.names = N'
    | .mismatch => True
    | _ => False := by
  generalize hd : Vm.numBytes ((k?.getD 0 : Nat) : Int) = d
  have hpick : ∀ (isRoll : Bool) (stmt : OpcodeStmt), pickRollNames isRoll k? stmt N = some N' →
      match pickRoll isRoll stmt (dummy d N) with
      | .ok L' => L'.names = N'
      | .mismatch => True
      | _ => False := by
    intro isRoll stmt h
    clear hl
    obtain ⟨NS, NA⟩ := N
    unfold pickRollNames at h
    cases hkk : k? with
    | none => subst hkk; cases h
    | some k =>
    cases NS with
    | nil => subst hkk; cases h
    | cons top st =>
      subst hkk
      dsimp only at h
      obtain ⟨name, h1, h⟩ := Option.bind_eq_some_iff.mp h
      obtain ⟨name', h2, h⟩ := Option.map_eq_some_iff.mp h
      unfold pickRoll dummy
      simp only [List.map_cons]
      have hnum : Vm.num? 4 d = some (k : Int) := by
        rw [← hd]
        have := hk k rfl
        exact NumProofs.num?_small _ ⟨by simp only [Option.getD_some]; omega, by simp only [Option.getD_some]; omega⟩
      rw [hnum]
      cases nameIs stmt.inputNames top with
      | false => simp
      | true =>
        simp only [Bool.not_true, Bool.false_eq_true, if_false]
        rw [if_neg (by omega)]
        simp only [Int.toNat_natCast, List.getElem?_map, h1, Option.map_some, h2]
        rw [← h]
        simp only [LState.names, List.map_cons, List.map_map, Names.mk.injEq, List.cons.injEq, true_and]
        refine ⟨?_, by simp [Function.comp_def]⟩
        split
        · simp [← List.eraseIdx_map, Function.comp_def]
        · simp [Function.comp_def]
  have hdep : ∀ (x : String) (off : Int) (i : Option (List OpcodeInput)) (stmt : OpcodeStmt) (n : Option String), renameOne stmt.outputNames none = some n →
      match depthOf x off stmt (dummy d N) with
      | .ok L' => L'.names = ⟨n :: N.stack, N.alt⟩
      | .mismatch => True
      | _ => False := by
    intro x off i stmt n h1
    unfold depthOf
    cases (dummy d N).stack.findIdx? _ with
    | none => trivial
    | some k => simp [h1, LState.names, dummy, Function.comp_def]
  cases l with
  | push op name =>
    cases h
    simp only [Named.leaf]
    cases Vm.item op with
    | none => trivial
    | some x => simp [LState.names, dummy, Function.comp_def]
  | forLoop => cases h
  | rustIf => cases h
  | opcode stmt =>
    obtain ⟨hd', i, out⟩ := stmt
    cases hd' with
    | op o =>
      rcases hl o i out rfl with rfl | rfl | rfl | rfl
      · simp only [leafNames] at h
        simp only [Named.leaf, dummy]
        cases hs : N.stack with
        | nil => rw [hs] at h; cases h
        | cons top st =>
          rw [hs] at h
          obtain ⟨n, h1, rfl⟩ := Option.map_eq_some_iff.mp h
          simp only [List.map_cons, h1]
          cases nameIs i top with
          | false => simp
          | true => simp [LState.names, Function.comp_def]
      · simp only [leafNames] at h
        simp only [Named.leaf, dummy]
        cases hs : N.alt with
        | nil => rw [hs] at h; cases h
        | cons top st =>
          rw [hs] at h
          obtain ⟨n, h1, rfl⟩ := Option.map_eq_some_iff.mp h
          simp only [List.map_cons, h1]
          cases nameIs i top with
          | false => simp
          | true => simp [LState.names, Function.comp_def]
      · exact hpick false _ h
      · exact hpick true _ h
    | unknown => cases h
    | depthOf =>
      simp only [leafNames] at h
      obtain ⟨n, h1, rfl⟩ := Option.map_eq_some_iff.mp h
      unfold Named.leaf
      dsimp only
      match i with
      | some [.ident x] => exact hdep x 0 none _ n h1
      | none => trivial
      | some [] => trivial
      | some [.expr _ _] => trivial
      | some (.ident _ :: _ :: _) => trivial
      | some (.expr _ _ :: _ :: _) => trivial
    | depthOfOffset =>
      simp only [leafNames] at h
      obtain ⟨n, h1, rfl⟩ := Option.map_eq_some_iff.mp h
      unfold Named.leaf
      dsimp only
      match i with
      | some [.ident x, .expr _ off] => exact hdep x off none _ n h1
      | none => trivial
      | some [] => trivial
      | some [.ident _] => trivial
      | some [.expr _ _] => trivial
      | some (.expr _ _ :: _) => trivial
      | some [.ident _, .ident _] => trivial
      | some (.ident _ :: .ident _ :: _ :: _) => trivial
      | some (.ident _ :: .expr _ _ :: _ :: _) => trivial
    | transmute =>
      simp only [leafNames, Option.some.injEq] at h
      subst h
      unfold Named.leaf
      dsimp only
      match i with
      | some [.ident x, _] =>
        dsimp only
        cases (dummy d N).stack.any fun i => i.name == some x with
        | false => trivial
        | true => exact dummy_names d N
      | none => trivial
      | some [] => trivial
      | some [.ident _] => trivial
      | some [.expr _ _] => trivial
      | some (.expr _ _ :: _ :: _) => trivial
      | some (.ident _ :: .ident _ :: _ :: _) => trivial
      | some (.ident _ :: .expr _ _ :: _ :: _) => trivial

/-- Some environment. -/
def anyVm : Vm.Env := ⟨id, id, id, id, id, fun _ _ => none, fun _ _ _ => none, fun _ => false, fun _ => false⟩

/-- The tracked names after a statement. -/
theorem leaf_names (k? : Option Nat) (l : Leaf) (g g' : Gen) (e : List Emit)
    (hg : GoodGen g) (hk : ∀ k, k? = some k → SDepth g k)
    (hn1 : opens l = false) (hn2 : isElse l = false) (hn3 : closes l = false)
    (hok : leafOk k?.isSome l = true) (h : runLeaf l g = .ok (e, g'))
    (v : String) (cond : Predicate) (N N' : Names) (ht : TracksN v cond g N) (hh : cond.holds g.atoms = true)
    (hN : leafNames k? l N = some N') :
    TracksN v cond g' N' ∧ (depthLeft l N).isSome = isDepthOf l ∧ ∀ k, depthLeft l N = some k → SDepth g' k := by
  obtain ⟨k'?, a1, a2, a3, a4, a5, a6, a7⟩ := leaf_sim anyVm k? l g g' e hg hk hn1 hn2 hn3 hok h
  have htr : TracksN v cond g' N' := by
    by_cases hord : ∀ o i out, l = .opcode ⟨.op o, i, out⟩ →
      o = .OP_TOALTSTACK ∨ o = .OP_FROMALTSTACK ∨ o = .OP_PICK ∨ o = .OP_ROLL
    · have hs := special_names anyVm k? (fun k hq => (hk k hq).1) l hord N N' hN
      have ha := a7 v cond (dummy (Vm.numBytes ((k?.getD 0 : Nat) : Int)) N)
        (by rw [tracksN_names, dummy_names]; exact ht) hh (by
          rintro k rfl
          obtain ⟨_, x, hx⟩ := hk k rfl
          obtain ⟨s, hm, hc, hs1, hs2⟩ := ht
          obtain ⟨i, rest, j, q1, _⟩ := hx v s hm (by rw [hc]; exact hh)
          rw [q1] at hs1
          unfold dummy DDepth
          rw [← hs1]
          exact ⟨_, _, rfl, rfl⟩)
      revert hs ha
      cases Named.leaf anyVm l _ with
      | ok L' => intro hs ha; rw [← hs]; exact ha.1
      | mismatch => intro _ ha; exact ha.elim
      | fail => intro hs; exact hs.elim
      | undecided => intro hs; exact hs.elim
    · simp only [not_forall] at hord
      obtain ⟨c, i, o, rfl, hord⟩ := hord
      simp only [not_or] at hord
      obtain ⟨c1, c2, c3, c4⟩ := hord
      simp only [runLeaf] at h
      simp only [leafOk] at hok
      have hw : (writtenNames ⟨.op c, i, o⟩).all (fun x => !reserved x) = true := by
        simp only [stmtOk, Bool.and_eq_true] at hok
        exact hok.1
      have h' : (if inNameMap c then runOther c ⟨.op c, i, o⟩ g else .err "Unknown opcode/function") =
          .ok (e, g') := by
        rw [← h]
        unfold runOpcode
        dsimp only
        split <;> simp_all
      split at h'
      · next hmap =>
        have hsp : NamedProofs.special c = false := by
          cases hs : NamedProofs.special c with
          | false => rfl
          | true =>
            have : c = .OP_IFDUP := by
              cases c <;> first | rfl | (cases hs; done) | exact absurd rfl c1 | exact absurd rfl c2 |
                exact absurd rfl c3 | exact absurd rfl c4
            subst this
            cases h'
        refine ordinary_names c ⟨.op c, i, o⟩ g g' e hg hsp (by rintro rfl; cases hn1) ⟨?_, ?_⟩ h' v cond N N' ht hh ?_
        · intro ns hns x hx
          have := List.all_eq_true.mp hw x (by
            simp only [writtenNames]
            dsimp only at hns
            rw [hns]
            simp [hx])
          simpa using this
        · rintro rfl
          simp only [stmtOk, Bool.and_eq_true] at hok
          match o, hok.2 with
          | some [a, b], hh => exact ⟨a, b, rfl, by simpa using hh⟩
        · rw [← hN]
          unfold leafNames
          dsimp only
          split <;> simp_all
      · cases h'
  refine ⟨htr, ?_⟩
  by_cases hd : isDepthOf l = true
  · obtain ⟨i, o, rfl⟩ : ∃ i o, l = .opcode ⟨.depthOf, i, o⟩ := by
      unfold isDepthOf at hd
      split at hd
      · exact ⟨_, _, rfl⟩
      · cases hd
    simp only [runLeaf, runOpcode] at h
    split at h
    · next x =>
      obtain ⟨depth, fresh, hf, hd2, hr1, hr2, hops, rfl⟩ := runDepthOf_ok h
      have hfind := findItem_spec g x depth hf
      have hx : reserved x = false := by
        simp only [leafOk, stmtOk, Bool.and_eq_true] at hok
        have := List.all_eq_true.mp hok.1 x (by simp [writtenNames, OpcodeInput.toString])
        simpa using this
      have hfound : ∀ (stack : List Item), (∀ i ∈ stack, Good i) →
          stack.findIdx? (fun item => item.name == x) = some depth →
          ∃ j, stack[depth]? = some j ∧ j.tag = some x := by
        intro stack hgs hq
        obtain ⟨hl, q1, _⟩ := List.findIdx?_eq_some_iff_getElem.mp hq
        refine ⟨_, List.getElem?_eq_getElem hl, ?_⟩
        exact (good_name (hgs _ (List.getElem_mem hl)) hx).mp (by simpa using q1)
      obtain ⟨s, hm, hc, hs, ha⟩ := ht
      have hleft : depthLeft (.opcode ⟨.depthOf, some [.ident x], o⟩) N = some depth := by
        have q1 := hfind v s hm (by rw [hc]; exact hh)
        rw [findIdx_tag s.stack (dummy [] N).stack x hx (hg _ hm).1 (by
          rw [hs]; exact (congrArg Names.stack (dummy_names [] N)).symm)] at q1
        simp only [depthLeft]
        rw [← q1]
        simp only [dummy, List.findIdx?_map]
        rfl
      refine ⟨by rw [hleft]; rfl, ?_⟩
      intro k hkk
      rw [hleft] at hkk
      cases hkk
      refine ⟨by omega, x, ?_⟩
      intro v' s' hm' hc'
      obtain ⟨s2, hm2, hc2, hP, _⟩ := ((Step.refl g (g.nIdent + fresh)).trans (push_step _ _)
        (R := fun s s' => s' = { s with stack := _ :: s.stack }) (by rintro a b c rfl rfl; rfl)).mem' hm'
      have hh2 : s2.condition.holds g.atoms = true := by rw [← hc2]; exact hc'
      have := hP hh2
      subst this
      obtain ⟨j, j1, j2⟩ := hfound _ (hg _ hm2).1 (hfind v' s2 hm2 hh2)
      exact ⟨_, s2.stack, j, rfl, rfl, j1, j2⟩
    · cases h
  · have : depthLeft l N = none := by
      unfold depthLeft
      split
      · exact absurd rfl hd
      · rfl
    rw [this]
    simp only [Bool.not_eq_true] at hd
    exact ⟨hd.symm, by simp⟩

end GenProofs
end BCash
