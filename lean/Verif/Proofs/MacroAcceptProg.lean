import Verif.Proofs.MacroAccept
import Verif.Props.Macro

/-! # Acceptance by the macro: scripts with conditionals and variants -/

namespace BCash
open Spec Spec.Macro Spec.Named Macro

namespace GenProofs

/-! ### Conditions -/

theorem holds_mono {c : Predicate} {A : List Atom} {a : Atom} (h : c.holds (A ++ [a]) = true) :
    c.holds A = true := by
  cases c with
  | nil => rfl
  | cons c0 cs =>
    rw [holds_iff _ _ (by simp)] at h ⊢
    obtain ⟨d, hd, h⟩ := h
    exact ⟨d, hd, fun b hb i hi => h b hb i (by simp [hi])⟩

theorem holds_some {c : Predicate} {A : List Atom} (x : String) (hc : ∀ d ∈ c, Consistent d)
    (h : c.holds A = true) :
    c.holds (A ++ [⟨x, false⟩]) = true ∨ c.holds (A ++ [⟨x, true⟩]) = true := by
  cases c with
  | nil => exact .inl rfl
  | cons c0 cs =>
    rw [holds_iff _ _ (by simp)] at h
    rw [holds_iff _ _ (by simp), holds_iff _ _ (by simp)]
    obtain ⟨d, hd, h⟩ := h
    have hcd := hc d hd
    by_cases hx : ∃ a ∈ d, a.varName = x ∧ a.isPositive = true
    · obtain ⟨a, ha, hax, hap⟩ := hx
      refine .inr ⟨d, hd, ?_⟩
      intro b hb i hi hv
      rcases List.mem_append.mp hi with hi | hi
      · exact h b hb i hi hv
      · simp only [List.mem_singleton] at hi
        subst hi
        dsimp only at hv ⊢
        rw [← hap]
        exact hcd a ha b hb (hax.trans hv)
    · refine .inl ⟨d, hd, ?_⟩
      intro b hb i hi hv
      rcases List.mem_append.mp hi with hi | hi
      · exact h b hb i hi hv
      · simp only [List.mem_singleton] at hi
        subst hi
        dsimp only at hv ⊢
        cases hb2 : b.isPositive with
        | false => rfl
        | true => exact absurd ⟨b, hb, hv.symm, hb2⟩ hx

/-! ### Sequences of branches -/

/-- A complete sequence of branches. -/
def Full : Prog → List Bool → Prop
  | .nil, bs => bs = []
  | .leaf _ rest, bs => Full rest bs
  | .scriptIf _ t _ el _ rest, bs =>
    ∃ b as cs, bs = b :: (as ++ cs) ∧ (if b then Full t as else Full el as) ∧ Full rest cs

theorem Full.unique {p : Prog} {a b x y : List Bool} (ha : Full p a) (hb : Full p b) (h : a ++ x = b ++ y) :
    a = b ∧ x = y := by
  induction p generalizing a b x y with
  | nil =>
    simp only [Full] at ha hb
    subst ha hb
    exact ⟨rfl, h⟩
  | leaf l rest ih => exact ih ha hb h
  | scriptIf i t e el en rest iht ihe ihr =>
    obtain ⟨b1, a1, c1, rfl, f1, r1⟩ := ha
    obtain ⟨b2, a2, c2, rfl, f2, r2⟩ := hb
    simp only [List.cons_append, List.append_assoc, List.cons.injEq] at h
    obtain ⟨rfl, h⟩ := h
    cases b1 with
    | true =>
      rw [if_pos rfl] at f1 f2
      obtain ⟨rfl, h2⟩ := iht f1 f2 h
      obtain ⟨rfl, h3⟩ := ihr r1 r2 h2
      exact ⟨rfl, h3⟩
    | false =>
      rw [if_neg (by simp)] at f1 f2
      obtain ⟨rfl, h2⟩ := ihe f1 f2 h
      obtain ⟨rfl, h3⟩ := ihr r1 r2 h2
      exact ⟨rfl, h3⟩

theorem mem_paths_if {c : Predicate} {i en : OpcodeStmt} {t el rest : Prog} {e : Option OpcodeStmt}
    {A : List Atom} {bs : List Bool} :
    bs ∈ paths c (.scriptIf i t e el en rest) A ↔
      ∃ b as cs, bs = b :: (as ++ cs) ∧ c.holds (A ++ [⟨conditionName i, b⟩]) = true ∧
        (if b then as ∈ paths c t (A ++ [⟨conditionName i, true⟩])
          else as ∈ paths c el (A ++ [⟨conditionName i, false⟩])) ∧ cs ∈ paths c rest A := by
  simp only [paths, List.mem_flatMap, List.mem_append, List.mem_map]
  constructor
  · rintro ⟨xs, hx | hx, cs, hcs, rfl⟩
    · split at hx
      · next hh =>
        obtain ⟨as, ha, rfl⟩ := List.mem_map.mp hx
        exact ⟨true, as, cs, rfl, hh, by simpa using ha, hcs⟩
      · cases hx
    · split at hx
      · next hh =>
        obtain ⟨as, ha, rfl⟩ := List.mem_map.mp hx
        exact ⟨false, as, cs, rfl, hh, by simpa using ha, hcs⟩
      · cases hx
  · rintro ⟨b, as, cs, rfl, hh, ha, hcs⟩
    refine ⟨b :: as, ?_, cs, hcs, by simp⟩
    cases b with
    | true => left; rw [if_pos hh]; exact List.mem_map.mpr ⟨as, by simpa using ha, rfl⟩
    | false => right; rw [if_pos hh]; exact List.mem_map.mpr ⟨as, by simpa using ha, rfl⟩

theorem paths_full {c : Predicate} {p : Prog} {A : List Atom} {bs : List Bool} (h : bs ∈ paths c p A) :
    Full p bs := by
  induction p generalizing A bs with
  | nil => simpa [paths, Full] using h
  | leaf l rest ih => exact ih h
  | scriptIf i t e el en rest iht ihe ihr =>
    obtain ⟨b, as, cs, rfl, _, ha, hc⟩ := mem_paths_if.mp h
    refine ⟨b, as, cs, rfl, ?_, ihr hc⟩
    cases b with
    | true => simp only [if_true] at ha ⊢; exact iht ha
    | false => simp only [Bool.false_eq_true, if_false] at ha ⊢; exact ihe ha

/-! ### Runs -/

/-- The first number of a branch and of the rest. -/
abbrev nBody (n : Nat) (t : Prog) (e : Option OpcodeStmt) (b : Bool) : Nat :=
  if b then n + 1 else n + 1 + (written t).length + e.toList.length

abbrev nRest (n : Nat) (t el : Prog) (e : Option OpcodeStmt) : Nat :=
  n + 1 + (written t).length + e.toList.length + (written el).length + 1

theorem exec_leaf {env : Vm.Env} {l : Leaf} {rest : Prog} {L L' : LState} {n : Nat}
    (h : exec env (.leaf l rest) L = .ok L') :
    ∃ L1, Named.leaf env l L = .ok L1 ∧ exec env rest L1 = .ok L' ∧
      trace env (.leaf l rest) n L = ⟨n, uses l L, none⟩ :: trace env rest (n + 1) L1 := by
  simp only [exec] at h
  cases hl : Named.leaf env l L with
  | ok L1 =>
    rw [hl] at h
    exact ⟨L1, rfl, h, by simp only [trace, hl]; rfl⟩
  | _ => rw [hl] at h; cases h

theorem exec_if {env : Vm.Env} {i en : OpcodeStmt} {t el rest : Prog} {e : Option OpcodeStmt}
    {L L' : LState} {n : Nat} (h : exec env (.scriptIf i t e el en rest) L = .ok L') :
    ∃ x top st L1 b body, b = Vm.truthy top.value ∧ body = (if b then t else el) ∧
      i.inputNames = some [.ident x] ∧ L.stack = top :: st ∧
      argOk (.ident x) top.name = true ∧
      exec env body ⟨st, L.alt⟩ = .ok L1 ∧ exec env rest L1 = .ok L' ∧
      trace env (.scriptIf i t e el en rest) n L =
        ⟨n, ⟨[top.name], none⟩, some b⟩ :: (trace env body (nBody n t e b) ⟨st, L.alt⟩ ++
          trace env rest (nRest n t el e) L1) := by
  simp only [exec] at h
  split at h
  · next x top st hi hL =>
    split at h
    · cases h
    next ha =>
    refine ⟨x, top, st, ?_⟩
    cases hb : Vm.truthy top.value with
    | true =>
      simp only [hb, if_true] at h
      cases hx : exec env t ⟨st, L.alt⟩ with
      | ok L1 =>
        rw [hx] at h
        refine ⟨L1, true, t, rfl, rfl, hi, hL, by simpa using ha, hx, h, ?_⟩
        simp only [trace, hL, hb, if_true, hx]
        rfl
      | _ => rw [hx] at h; cases h
    | false =>
      simp only [hb, Bool.false_eq_true, if_false] at h
      cases hx : exec env el ⟨st, L.alt⟩ with
      | ok L1 =>
        rw [hx] at h
        refine ⟨L1, false, el, rfl, rfl, hi, hL, by simpa using ha, hx, h, ?_⟩
        simp only [trace, hL, hb, Bool.false_eq_true, if_false, hx]
        rfl
      | _ => rw [hx] at h; cases h
  · cases h
  · cases h

theorem branches_append (a b : List Event) : branches (a ++ b) = branches a ++ branches b := by
  simp [branches]

theorem exec_full {env : Vm.Env} {p : Prog} {L L' : LState} {n : Nat} (h : exec env p L = .ok L') :
    Full p (branches (trace env p n L)) := by
  induction p generalizing L L' n with
  | nil => rfl
  | leaf l rest ih =>
    obtain ⟨L1, _, h2, h3⟩ := exec_leaf (n := n) h
    rw [h3]
    exact ih h2
  | scriptIf i t e el en rest iht ihe ihr =>
    obtain ⟨x, top, st, L1, b, body, _, hbody, _, _, _, h5, h6, h7⟩ := exec_if (n := n) h
    rw [h7]
    refine ⟨b, branches (trace env body (nBody n t e b) ⟨st, L.alt⟩), branches (trace env rest (nRest n t el e) L1),
      ?_, ?_, ihr h6⟩
    · rw [← branches_append]; rfl
    · subst hbody
      cases b with
      | true => exact iht h5
      | false => exact ihe h5

/-- The branches of a conditional, split. -/
theorem branches_if {env : Vm.Env} {i en : OpcodeStmt} {t el rest : Prog} {e : Option OpcodeStmt}
    {L L' : LState} {n : Nat} {b : Bool} {as cs : List Bool} (h : exec env (.scriptIf i t e el en rest) L = .ok L')
    (hb : branches (trace env (.scriptIf i t e el en rest) n L) = b :: (as ++ cs))
    (ha : Full (if b then t else el) as) :
    ∃ top st L1, L.stack = top :: st ∧ Vm.truthy top.value = b ∧
      i.inputNames = some [.ident (conditionName i)] ∧ argOk (.ident (conditionName i)) top.name = true ∧
      exec env (if b then t else el) ⟨st, L.alt⟩ = .ok L1 ∧
      branches (trace env (if b then t else el) (nBody n t e b) ⟨st, L.alt⟩) = as ∧
      exec env rest L1 = .ok L' ∧ branches (trace env rest (nRest n t el e) L1) = cs := by
  obtain ⟨x, top, st, L1, b', body, hb', hbody, h1, h2, h3, h4, h5, h6⟩ := exec_if (n := n) h
  rw [h6] at hb
  have hb2 : b' :: (branches (trace env body (nBody n t e b') ⟨st, L.alt⟩) ++
      branches (trace env rest (nRest n t el e) L1)) = b :: (as ++ cs) := by
    rw [← hb, ← branches_append]; rfl
  simp only [List.cons.injEq] at hb2
  obtain ⟨rfl, hb2⟩ := hb2
  subst hbody
  obtain ⟨q1, q2⟩ := (exec_full h4).unique ha hb2
  have hx : conditionName i = x := by simp only [conditionName, h1]
  exact ⟨top, st, L1, h2, hb'.symm, by rw [hx]; exact h1, by rw [hx]; exact h3, h4, q1, h5, q2⟩

/-- There is an allowed sequence of branches, and the macro follows the states of one. -/
theorem settled (c : Predicate) (hc : ∀ d ∈ c, Consistent d) (p : Prog) (A : List Atom)
    (hh : c.holds A = true) :
    ∃ bs ∈ paths c p A, ∀ env L L' n, exec env p L = .ok L' → branches (trace env p n L) = bs →
      run env c p A L = .ok L' := by
  induction p generalizing A with
  | nil => exact ⟨[], by simp [paths], fun env L L' n h _ => h⟩
  | leaf l rest ih =>
    obtain ⟨bs, h1, h2⟩ := ih A hh
    refine ⟨bs, h1, fun env L L' n h hb => ?_⟩
    obtain ⟨L1, q1, q2, q3⟩ := exec_leaf (n := n) h
    rw [q3] at hb
    simp only [run, q1, Outcome.andThen]
    exact h2 env L1 L' (n + 1) q2 hb
  | scriptIf i t e el en rest iht ihe ihr =>
    obtain ⟨cs, r1, r2⟩ := ihr A hh
    by_cases h2 : c.holds (A ++ [⟨conditionName i, false⟩]) = true
    · obtain ⟨as, a1, a2⟩ := ihe _ h2
      refine ⟨false :: (as ++ cs), mem_paths_if.mpr ⟨false, as, cs, rfl, h2, by simpa using a1, r1⟩, ?_⟩
      intro env L L' n h hb
      obtain ⟨top, st, L1, q1, q2, q3, q4, q5, q6, q7, q8⟩ := branches_if h hb (by simpa using paths_full a1)
      simp only [Bool.false_eq_true, if_false] at q5 q6
      simp only [run, q3, q1, q4, q2, h2, Bool.not_true, Bool.false_eq_true, if_false]
      rw [a2 env _ _ _ q5 q6]
      exact r2 env _ _ _ q7 q8
    · have h1 : c.holds (A ++ [⟨conditionName i, true⟩]) = true :=
        (holds_some (conditionName i) hc hh).resolve_left h2
      obtain ⟨as, a1, a2⟩ := iht _ h1
      refine ⟨true :: (as ++ cs), mem_paths_if.mpr ⟨true, as, cs, rfl, h1, by simpa using a1, r1⟩, ?_⟩
      intro env L L' n h hb
      obtain ⟨top, st, L1, q1, q2, q3, q4, q5, q6, q7, q8⟩ := branches_if h hb (by simpa using paths_full a1)
      simp only [if_true] at q5 q6
      simp only [run, q3, q1, q4, q2, h1, Bool.not_true, Bool.false_eq_true, if_false, if_true]
      rw [a2 env _ _ _ q5 q6]
      simp only [Outcome.andThen, h2]
      exact r2 env _ _ _ q7 q8

theorem exec_grow {env : Vm.Env} {p : Prog} {L L' : LState} (h : exec env p L = .ok L') :
    L'.stack.length ≤ L.stack.length + 3 * (written p).length := by
  induction p generalizing L L' with
  | nil => cases h; simp
  | leaf l rest ih =>
    obtain ⟨L1, h1, h2, _⟩ := exec_leaf (n := 0) h
    have := ih h2
    have := leaf_grow env l L L1 h1
    simp only [written, List.length_cons]
    omega
  | scriptIf i t e el en rest iht ihe ihr =>
    obtain ⟨x, top, st, L1, b, body, _, hbody, _, h2, _, h4, h5, _⟩ := exec_if (n := 0) h
    have h6 := ihr h5
    have h7 : L1.stack.length ≤ st.length + 3 * ((written t).length + (written el).length) := by
      subst hbody
      cases b with
      | true => have := iht h4; dsimp only at this; omega
      | false => have := ihe h4; dsimp only at this; omega
    rw [h2]
    simp only [written, List.length_cons, List.length_append]
    omega

/-! ### Brackets -/

theorem bracket_accept (o : Opcode) (ho : o = .OP_ELSE ∨ o = .OP_ENDIF) (stmt : OpcodeStmt)
    (hh : stmt.head = .op o) (hi : stmt.inputNames.all List.isEmpty = true)
    (hout : stmt.outputNames.all List.isEmpty = true) (g : Gen) : ∃ r, runOpcode stmt g = .ok r := by
  obtain ⟨hd, i, out⟩ := stmt
  dsimp only at hh hi hout
  subst hh
  have hi' : i = none ∨ i = some [] := by
    cases i with
    | none => exact .inl rfl
    | some a => right; simpa using hi
  have ho' : out = none ∨ out = some [] := by
    cases out with
    | none => exact .inl rfl
    | some a => right; simpa using hout
  rcases ho with rfl | rfl <;> rcases hi' with rfl | rfl <;> rcases ho' with rfl | rfl <;> exact ⟨_, rfl⟩

theorem if_accept (stmt : OpcodeStmt) (hh : stmt.head = .op .OP_IF) (x : String)
    (hi : stmt.inputNames = some [.ident x]) (hout : stmt.outputNames.all List.isEmpty = true) (g : Gen)
    (hl : Live g) (τ : Option String) (hτ : argOk (.ident x) τ = true)
    (h : ∀ v s, (v, s) ∈ g.states → s.condition.holds g.atoms = true → ∃ i st, s.stack = i :: st ∧ i.tag = τ) :
    ∃ r, runOpcode stmt g = .ok r := by
  obtain ⟨hd, i, out⟩ := stmt
  dsimp only at hh hi hout
  subst hh hi
  have ho' : out = none ∨ out = some [] := by
    cases out with
    | none => exact .inl rfl
    | some a => right; simpa using hout
  obtain ⟨its, g1, p1, p2⟩ := popN_ok 1 [τ] g hl fun v s hm hh => by
    obtain ⟨it, st, q1, q2⟩ := h v s hm hh
    rw [q1]
    exact ⟨by simp, by simp [q2]⟩
  have hr : ∀ out, runOpcode ⟨.op .OP_IF, some [.ident x], out⟩ g =
    runOther .OP_IF ⟨.op .OP_IF, some [.ident x], out⟩ g := fun _ => rfl
  rw [hr]
  unfold runOther
  obtain ⟨b, b1, b2, b3, b4⟩ : ∃ b, Opcode.behavior .OP_IF = some b ∧ b.inputTypes.length = 1 ∧
      b.outputTypes = [] ∧ b.outputOrder = none := ⟨_, rfl, rfl, rfl, rfl⟩
  rw [b1]
  dsimp only
  rw [b2, p1, Res.bind_ok]
  dsimp only
  rw [check_single (by rw [p2]; simp [argsOk, hτ]), Res.bind_ok]
  have : ∃ r, outputItems .OP_IF b its out g1.nIdent = .ok r := by
    unfold outputItems
    rcases ho' with rfl | rfl <;> rw [b3] <;> dsimp only
    · rw [b4]; exact ⟨_, rfl⟩
    · exact ⟨_, rfl⟩
  obtain ⟨⟨out', m⟩, hr⟩ := this
  rw [hr]
  exact ⟨_, rfl⟩

theorem merge_ok (ts es : List (String × VState)) (hi he : List Atom)
    (hk : ∀ v ∈ es.map Prod.fst, v ∈ ts.map Prod.fst) : ∃ r, merge ts hi he es = .ok r := by
  unfold merge
  apply collect_ok
  rintro ⟨v, s⟩ hm
  dsimp only
  split
  · obtain ⟨⟨v', t⟩, h1, h2⟩ := List.mem_map.mp (hk v (List.mem_map.mpr ⟨_, hm, rfl⟩))
    dsimp only at h2
    subst h2
    have : ∃ t', lookup ts v' = .ok t' := by
      unfold lookup
      cases hf : ts.find? fun p => p.1 == v' with
      | some p => exact ⟨_, rfl⟩
      | none =>
        have := List.find?_eq_none.mp hf _ h1
        simp at this
    obtain ⟨t', ht⟩ := this
    rw [ht]
    exact ⟨_, rfl⟩
  · exact ⟨_, rfl⟩

/-! ### Whole scripts -/

theorem live_of_reached {g : Gen} (h : (g.states.map fun p => p.2.condition).any (·.holds g.atoms) = true) :
    Live g := by
  obtain ⟨c, hc, hh⟩ := List.any_eq_true.mp h
  obtain ⟨⟨v, s⟩, hm, rfl⟩ := List.mem_map.mp hc
  exact ⟨v, s, hm, hh⟩

theorem conditions_of_signature {g g' : Gen} (h : signature g' = signature g) :
    (g'.states.map fun p => p.2.condition) = g.states.map fun p => p.2.condition := by
  have := congrArg (List.map Prod.snd) h
  simpa [signature, Function.comp_def] using this

/-- For every possible variant and every sequence of branches it allows there is a run from a state with
the names of the variant. -/
def Covered (env : Vm.Env) (k? : Option Nat) (p : Prog) (n : Nat) (g : Gen) (R : LState → Prop) : Prop :=
  ∀ v s, (v, s) ∈ g.states → s.condition.holds g.atoms = true → ∀ bs ∈ paths s.condition p g.atoms,
    ∃ L, s.stack.map Item.tag = L.stack.map LItem.name ∧ s.alt.map Item.tag = L.alt.map LItem.name ∧ R L ∧
      (∀ k, k? = some k → DDepth L k) ∧ (∃ L', exec env p L = .ok L') ∧ branches (trace env p n L) = bs

theorem prog_accept (env : Vm.Env) (p : Prog) (k? : Option Nat) (g : Gen) (n : Nat) (R : LState → Prop)
    (hwn : WellNested p) (hok : progOk k?.isSome p = true) (hacc : acceptableProg p = true)
    (hg : GoodGen g) (hkeys : (g.states.map Prod.fst).Nodup) (hk : ∀ k, k? = some k → SDepth g k)
    (hcons : ∀ v s, (v, s) ∈ g.states → ∀ d ∈ s.condition, Consistent d)
    (hreach : reached (g.states.map fun p => p.2.condition) p g.atoms = true)
    (hsize : ∀ L, R L → L.stack.length + 3 * (written p).length < 2 ^ 30)
    (hagree : ∀ L L2, R L → R L2 → ∀ e ∈ trace env p n L, ∀ e2 ∈ trace env p n L2,
      e.index = e2.index → e.use = e2.use)
    (hcov : Covered env k? p n g R) : ∃ r, runProg p g = .ok r := by
  induction p generalizing k? g n R with
  | nil => exact ⟨_, rfl⟩
  | leaf l rest ih =>
    obtain ⟨w1, w2, w3, w4⟩ := hwn
    simp only [progOk, Bool.and_eq_true] at hok
    simp only [acceptableProg, Bool.and_eq_true] at hacc
    simp only [reached, Bool.and_eq_true] at hreach
    have hlive := live_of_reached hreach.1
    -- one run for every possible variant
    have hone : ∀ v s, (v, s) ∈ g.states → s.condition.holds g.atoms = true →
        ∃ L, s.stack.map Item.tag = L.stack.map LItem.name ∧ s.alt.map Item.tag = L.alt.map LItem.name ∧
          R L ∧ (∃ L', exec env (.leaf l rest) L = .ok L') := by
      intro v s hm hh
      obtain ⟨bs, hbs, _⟩ := settled s.condition (hcons v s hm) (.leaf l rest) g.atoms hh
      obtain ⟨L, a1, a2, a3, _, a4, _⟩ := hcov v s hm hh bs hbs
      exact ⟨L, a1, a2, a3, a4⟩
    obtain ⟨v0, s0, hm0, hh0⟩ := id hlive
    obtain ⟨L0, _, _, hR0, L0', h0⟩ := hone v0 s0 hm0 hh0
    obtain ⟨L01, _, _, ht0⟩ := exec_leaf (n := n) h0
    obtain ⟨⟨e, g1⟩, h1⟩ := leaf_accept env k? l (uses l L0) g hg hk hlive (by
      intro v s hm hh
      obtain ⟨L, a1, a2, a3, L', a4⟩ := hone v s hm hh
      obtain ⟨L1, b1, _, b3⟩ := exec_leaf (n := n) a4
      refine ⟨L, a1, a2, ?_, ?_, L1, b1⟩
      · have := hsize L a3
        simp only [written, List.length_cons] at this
        omega
      · have := hagree L L0 a3 hR0 ⟨n, uses l L, none⟩ (by rw [b3]; simp) ⟨n, uses l L0, none⟩
          (by rw [ht0]; simp) rfl
        exact this) w1 hok.1 hacc.1
    obtain ⟨k'?, a1, a2, a3, a4, a5, a6, a7⟩ := leaf_sim env k? l g g1 e hg hk w1 w2 w3 hok.1 h1
    obtain ⟨k2?, hk2, hk2'⟩ : ∃ k2? : Option Nat, k2?.isSome = isDepthOf l ∧
        (∀ k, k2? = some k → k'? = some k) := by
      cases hd : isDepthOf l with
      | true => exact ⟨k'?, a6 hd, fun k h => h⟩
      | false => exact ⟨none, rfl, by simp⟩
    have hkeys1 : (g1.states.map Prod.fst).Nodup := by rw [keys_of_signature a1]; exact hkeys
    obtain ⟨⟨e2, g2⟩, h2⟩ := ih k2? g1 (n + 1) (fun L1 => ∃ L, R L ∧ Named.leaf env l L = .ok L1) w4
      (by rw [hk2]; exact hok.2) hacc.2 a3 hkeys1 (fun k hk => a5 k (hk2' k hk))
      (by
        intro v s hm
        obtain ⟨s', b1, b2⟩ := mem_signature a1.symm hm
        rw [← b2]
        exact hcons v s' b1)
      (by rw [conditions_of_signature a1, a2]; exact hreach.2)
      (by
        rintro L1 ⟨L, b1, b2⟩
        have c1 := hsize L b1
        have c2 := leaf_grow env l L L1 b2
        simp only [written, List.length_cons] at c1
        omega)
      (by
        rintro L1 L2 ⟨L, b1, b2⟩ ⟨L', b3, b4⟩ e he e2 he2 hi
        refine hagree L L' b1 b3 e ?_ e2 ?_ hi
        · simp only [trace, b2, Outcome.events]; exact List.mem_cons_of_mem _ he
        · simp only [trace, b4, Outcome.events]; exact List.mem_cons_of_mem _ he2)
      (by
        intro v s1 hm1 hh1 bs hbs
        obtain ⟨s, b1, b2⟩ := mem_signature a1.symm hm1
        rw [a2] at hh1 hbs
        rw [← b2] at hh1 hbs
        obtain ⟨L, c1, c2, c3, c4, ⟨L', c5⟩, c6⟩ := hcov v s b1 hh1 bs hbs
        obtain ⟨L1, d1, d2, d3⟩ := exec_leaf (n := n) c5
        have t := a7 v s.condition L ⟨s, b1, rfl, c1, c2⟩ hh1 c4
        rw [d1] at t
        obtain ⟨⟨s1', t1, t2, t3, t4⟩, _, t5⟩ := t
        have := key_unique hkeys1 hm1 t1
        subst this
        refine ⟨L1, t3, t4, ⟨L, c3, d1⟩, fun k hk => t5 k (hk2' k hk), ⟨L', d2⟩, ?_⟩
        rw [← c6, d3]
        rfl)
    exact ⟨_, by simp only [runProg]; rw [h1, Res.bind_ok]; dsimp only; rw [h2, Res.bind_ok]⟩
  | scriptIf i t e el en rest iht ihe ihr =>
    have hwn0 := hwn
    obtain ⟨w1, w2, w3, w4, w5, w6, w7⟩ := hwn
    simp only [progOk, Bool.and_eq_true] at hok
    obtain ⟨⟨⟨ok1, ok2⟩, ok3⟩, ok4⟩ := hok
    simp only [acceptableProg, Bool.and_eq_true, beq_iff_eq, List.all_append, List.all_cons, List.all_nil,
      Bool.and_true] at hacc
    obtain ⟨⟨⟨⟨⟨ac1, ac2⟩, ac3, ac4⟩, ac5⟩, ac6⟩, ac7⟩ := hacc
    simp only [reached, Bool.and_eq_true] at hreach
    obtain ⟨⟨⟨re1, re2⟩, re3⟩, re4⟩ := hreach
    have hlive := live_of_reached re1
    -- one run for every possible variant
    have hone : ∀ v s, (v, s) ∈ g.states → s.condition.holds g.atoms = true →
        ∃ L, s.stack.map Item.tag = L.stack.map LItem.name ∧ R L ∧
          ∃ top st, L.stack = top :: st ∧ i.inputNames = some [.ident (conditionName i)] ∧
            argOk (.ident (conditionName i)) top.name = true := by
      intro v s hm hh
      obtain ⟨bs, hbs, _⟩ := settled s.condition (hcons v s hm) (.scriptIf i t e el en rest) g.atoms hh
      obtain ⟨L, a1, a2, a3, _, ⟨L', a4⟩, a5⟩ := hcov v s hm hh bs hbs
      obtain ⟨b, as, cs, rfl, _, ha, _⟩ := mem_paths_if.mp hbs
      obtain ⟨top, st, L1, q1, q2, q3, q4, _⟩ := branches_if a4 a5 (by
        cases b <;> simp at ha ⊢ <;> exact paths_full ha)
      exact ⟨L, a1, a3, top, st, q1, q3, q4⟩
    obtain ⟨v0, s0, hm0, hh0⟩ := id hlive
    obtain ⟨L0, _, hR0, top0, st0, hL0, hi, harg⟩ := hone v0 s0 hm0 hh0
    have hhead : ∀ L top st, L.stack = top :: st → (⟨n, ⟨[top.name], none⟩, some (Vm.truthy top.value)⟩ : Event) ∈
        trace env (.scriptIf i t e el en rest) n L := by
      intro L top st hL
      simp only [trace, hL]
      exact List.mem_cons_self
    obtain ⟨⟨e1, g1⟩, h1⟩ := if_accept i ac1 (conditionName i) hi ac2 g hlive top0.name harg fun v s hm hh => by
      obtain ⟨L, a1, a2, top, st, a3, _⟩ := hone v s hm hh
      have := hagree L L0 a2 hR0 _ (hhead L top st a3) _ (hhead L0 top0 st0 hL0) rfl
      simp only [Use.mk.injEq, List.cons.injEq, and_true] at this
      rw [a3] at a1
      cases hs : s.stack with
      | nil => rw [hs] at a1; simp at a1
      | cons it rest =>
        rw [hs] at a1
        simp only [List.map_cons, List.cons.injEq] at a1
        exact ⟨it, rest, rfl, a1.1.trans this⟩
    have hx : predicateName i = .ok (conditionName i) := by simp only [predicateName, hi]
    generalize hxn : conditionName i = x at *
    obtain ⟨i1, i2, i3, item, i4, i5⟩ := if_spec i w1 g g1 e1 x hg h1 hx
    have hat : g1.atoms = g.atoms := i5.1
    have hsig1 : signature g1 = signature g := i5.signature
    have k1 : (g1.states.map Prod.fst).Nodup := by rw [keys_of_signature hsig1]; exact hkeys
    have hcons1 : ∀ v s, (v, s) ∈ g1.states → ∀ d ∈ s.condition, Consistent d := by
      intro v s hm
      obtain ⟨s', b1, b2⟩ := mem_signature hsig1.symm hm
      rw [← b2]
      exact hcons v s' b1
    -- the states after OP_IF
    have hpop : ∀ v s1, (v, s1) ∈ g1.states → s1.condition.holds g.atoms = true →
        ∃ s it, (v, s) ∈ g.states ∧ s1.condition = s.condition ∧ s.stack = it :: s1.stack ∧ s1.alt = s.alt := by
      intro v s1 hm1 hh1
      obtain ⟨s, b1, b2, b3, _⟩ := i5.mem' hm1
      obtain ⟨it, c1, c2, _⟩ := b3 (by rw [← b2]; exact hh1)
      exact ⟨s, it, b1, b2, c1, c2⟩
    have hstart : ∀ v s1, (v, s1) ∈ g1.states → ∀ b, s1.condition.holds (g.atoms ++ [⟨x, b⟩]) = true →
        ∀ as, (if b then as ∈ paths s1.condition t (g.atoms ++ [⟨x, true⟩])
          else as ∈ paths s1.condition el (g.atoms ++ [⟨x, false⟩])) → ∀ cs ∈ paths s1.condition rest g.atoms,
        ∃ L top st L1 L', R L ∧ L.stack = top :: st ∧ Vm.truthy top.value = b ∧
          s1.stack.map Item.tag = st.map LItem.name ∧ s1.alt.map Item.tag = L.alt.map LItem.name ∧
          exec env (if b then t else el) ⟨st, L.alt⟩ = .ok L1 ∧
          branches (trace env (if b then t else el) (nBody n t e b) ⟨st, L.alt⟩) = as ∧
          exec env rest L1 = .ok L' ∧ branches (trace env rest (nRest n t el e) L1) = cs := by
      intro v s1 hm1 b hb as has cs hcs
      obtain ⟨s, it, b1, b2, b3, b4⟩ := hpop v s1 hm1 (holds_mono hb)
      rw [b2] at hb has hcs
      obtain ⟨L, c1, c2, c3, _, ⟨L', c4⟩, c5⟩ := hcov v s b1 (holds_mono hb) (b :: (as ++ cs))
        (mem_paths_if.mpr ⟨b, as, cs, rfl, by rw [hxn]; exact hb, by rw [hxn]; exact has, hcs⟩)
      obtain ⟨top, st, L1, q1, q2, _, _, q3, q4, q5, q6⟩ := branches_if c4 c5 (by
        cases b <;> simp at has ⊢ <;> exact paths_full has)
      rw [q1, b3] at c1
      simp only [List.map_cons, List.cons.injEq] at c1
      exact ⟨L, top, st, L1, L', c3, q1, q2, c1.2, by rw [b4]; exact c2, q3, q4, q5, q6⟩
    -- the first branch
    obtain ⟨⟨e2, gt⟩, h2⟩ := iht none { g1 with atoms := g1.atoms ++ [⟨x, true⟩] } (n + 1)
      (fun B => ∃ L top, R L ∧ L.stack = top :: B.stack ∧ L.alt = B.alt ∧ Vm.truthy top.value = true)
      w5 ok2 ac5 i3 k1 (by simp) hcons1
      (by
        dsimp only
        rw [conditions_of_signature hsig1, hat]; exact re2)
      (by
        rintro B ⟨L, top, b1, b2, _⟩
        have := hsize L b1
        rw [b2] at this
        simp only [written, List.length_cons, List.length_append] at this
        omega)
      (by
        rintro B B2 ⟨L, top, b1, b2, b3, b4⟩ ⟨L', top', c1, c2, c3, c4⟩ e he e2 he2 hidx
        refine hagree L L' b1 c1 e ?_ e2 ?_ hidx
        · simp only [trace, b2, b4, b3]
          exact List.mem_cons_of_mem _ (List.mem_append_left _ he)
        · simp only [trace, c2, c4, c3]
          exact List.mem_cons_of_mem _ (List.mem_append_left _ he2))
      (by
        intro v s1 hm1 hh1 as has
        dsimp only at hm1 hh1 has
        rw [hat] at hh1 has
        obtain ⟨cs, hcs, _⟩ := settled s1.condition (hcons1 v s1 hm1) rest g.atoms (holds_mono hh1)
        obtain ⟨L, top, st, L1, L', q1, q2, q3, q4, q5, q6, q7, _⟩ := hstart v s1 hm1 true hh1 as
          (by simpa using has) cs hcs
        exact ⟨⟨st, L.alt⟩, q4, q5, ⟨L, top, q1, q2, rfl, q3⟩, by simp, ⟨L1, q6⟩, q7⟩)
    -- OP_ELSE
    obtain ⟨⟨e3, gt'⟩, h3⟩ : ∃ r, runOptional e gt = .ok r := by
      cases e with
      | none => exact ⟨_, rfl⟩
      | some o =>
        have hh : o.head = .op .OP_ELSE := by
          have := w2 o rfl
          unfold isElse at this
          split at this
          · next q => cases q; rfl
          · cases this
        simp only [Option.toList_some, List.all_cons, List.all_nil, Bool.and_true, Bool.and_eq_true] at ac3
        exact bracket_accept .OP_ELSE (.inl rfl) o hh ac3.1 ac3.2 gt
    -- the second branch
    obtain ⟨⟨e4, ge⟩, h4⟩ := ihe none { g1 with atoms := g1.atoms ++ [⟨x, false⟩], nIdent := gt'.nIdent }
      (n + 1 + (written t).length + e.toList.length)
      (fun B => ∃ L top, R L ∧ L.stack = top :: B.stack ∧ L.alt = B.alt ∧ Vm.truthy top.value = false)
      w6 ok3 ac6 i3 k1 (by simp) hcons1
      (by
        dsimp only
        rw [conditions_of_signature hsig1, hat]; exact re3)
      (by
        rintro B ⟨L, top, b1, b2, _⟩
        have := hsize L b1
        rw [b2] at this
        simp only [written, List.length_cons, List.length_append] at this
        omega)
      (by
        rintro B B2 ⟨L, top, b1, b2, b3, b4⟩ ⟨L', top', c1, c2, c3, c4⟩ e he e2 he2 hidx
        refine hagree L L' b1 c1 e ?_ e2 ?_ hidx
        · simp only [trace, b2, b4, b3]
          exact List.mem_cons_of_mem _ (List.mem_append_left _ he)
        · simp only [trace, c2, c4, c3]
          exact List.mem_cons_of_mem _ (List.mem_append_left _ he2))
      (by
        intro v s1 hm1 hh1 as has
        dsimp only at hm1 hh1 has
        rw [hat] at hh1 has
        obtain ⟨cs, hcs, _⟩ := settled s1.condition (hcons1 v s1 hm1) rest g.atoms (holds_mono hh1)
        obtain ⟨L, top, st, L1, L', q1, q2, q3, q4, q5, q6, q7, _⟩ := hstart v s1 hm1 false hh1 as
          (by simpa using has) cs hcs
        exact ⟨⟨st, L.alt⟩, q4, q5, ⟨L, top, q1, q2, rfl, q3⟩, by simp, ⟨L1, q6⟩, q7⟩)
    -- OP_ENDIF
    have hen : en.head = .op .OP_ENDIF := by
      unfold closes at w4
      split at w4
      · next q => cases q; rfl
      · cases w4
    obtain ⟨⟨e5, ge'⟩, h5⟩ := bracket_accept .OP_ENDIF (.inr rfl) en hen ac4.1 ac4.2 ge
    -- what is known about the branches
    obtain ⟨t1, t2, t3, tst, _, simt⟩ := prog_sim env t none
      { g1 with atoms := g1.atoms ++ [⟨x, true⟩] } gt e2 w5 ok2 i3 k1 (by simp) h2
    obtain ⟨l1, l2, _⟩ := else_code e gt gt' e3 w2 h3
    obtain ⟨u1, u2, u3, tse, _, sime⟩ := prog_sim env el none
      { g1 with atoms := g1.atoms ++ [⟨x, false⟩], nIdent := gt'.nIdent } ge e4 w6 ok3 i3 k1 (by simp) h4
    obtain ⟨_, n2, n3⟩ := bracket_spec .OP_ENDIF (.inr rfl) en hen ge ge' e5 h5
    have hsigt : signature gt' = signature g1 := by
      have p1 : signature gt' = signature gt := by simp only [signature, l1]
      rw [p1, t1]; rfl
    have hsige : signature ge' = signature g1 := by
      have p2 : signature ge' = signature ge := by simp only [signature, n2]
      rw [p2, u1]; rfl
    have ke : (ge'.states.map Prod.fst).Nodup := by rw [keys_of_signature hsige]; exact k1
    obtain ⟨states, h6⟩ := merge_ok gt'.states ge'.states (g1.atoms ++ [⟨x, true⟩]) (g1.atoms ++ [⟨x, false⟩])
      (by rw [keys_of_signature (hsige.trans hsigt.symm)]; exact fun _ h => h)
    obtain ⟨m1, m2, m3, m4⟩ := merge_spec gt' ge' _ _ states (hsigt.trans hsige.symm) ke h6
    have gm : GoodGen { ge' with states := states, atoms := g1.atoms } := by
      intro p hp
      rcases m2 p hp with hp | hp
      · rw [l1] at hp; exact t3 p hp
      · rw [n2] at hp; exact u3 p hp
    have sigm : signature { ge' with states := states, atoms := g1.atoms } = signature g1 := by
      rw [← hsige]; exact m1
    have km : (states.map Prod.fst).Nodup := by
      have := keys_of_signature sigm
      dsimp only at this
      rw [this]; exact k1
    -- the rest
    obtain ⟨⟨e6, g6⟩, h7⟩ := ihr none { ge' with states := states, atoms := g1.atoms } (nRest n t el e)
      (fun B => ∃ L top st, R L ∧ L.stack = top :: st ∧
        exec env (if Vm.truthy top.value then t else el) ⟨st, L.alt⟩ = .ok B)
      w7 ok4 ac7 gm km (by simp)
      (by
        intro v s hm
        obtain ⟨s', b1, b2⟩ := mem_signature sigm.symm hm
        rw [← b2]
        exact hcons1 v s' b1)
      (by
        rw [conditions_of_signature sigm, conditions_of_signature hsig1]
        dsimp only
        rw [hat]; exact re4)
      (by
        rintro B ⟨L, top, st, b1, b2, b3⟩
        have c1 := hsize L b1
        have c2 := exec_grow b3
        rw [b2] at c1
        simp only [written, List.length_cons, List.length_append] at c1
        dsimp only at c2
        split at c2 <;> omega)
      (by
        rintro B B2 ⟨L, top, st, b1, b2, b3⟩ ⟨L', top', st', c1, c2, c3⟩ ev he ev2 he2 hidx
        refine hagree L L' b1 c1 ev ?_ ev2 ?_ hidx
        · simp only [trace, b2]
          cases hb : Vm.truthy top.value with
          | true =>
            rw [hb] at b3
            simp only [if_true] at b3 ⊢
            rw [b3]
            exact List.mem_cons_of_mem _ (List.mem_append_right _ he)
          | false =>
            rw [hb] at b3
            simp only [Bool.false_eq_true, if_false] at b3 ⊢
            rw [b3]
            exact List.mem_cons_of_mem _ (List.mem_append_right _ he)
        · simp only [trace, c2]
          cases hb : Vm.truthy top'.value with
          | true =>
            rw [hb] at c3
            simp only [if_true] at c3 ⊢
            rw [c3]
            exact List.mem_cons_of_mem _ (List.mem_append_right _ he2)
          | false =>
            rw [hb] at c3
            simp only [Bool.false_eq_true, if_false] at c3 ⊢
            rw [c3]
            exact List.mem_cons_of_mem _ (List.mem_append_right _ he2))
      (by
        intro v sm hmm hhm cs hcs
        dsimp only at hmm hhm hcs
        rw [hat] at hhm hcs
        obtain ⟨s1, b1, b2⟩ := mem_signature sigm.symm (by exact hmm)
        rw [← b2] at hhm hcs
        by_cases hf : s1.condition.holds (g.atoms ++ [⟨x, false⟩]) = true
        · obtain ⟨as, has, hset⟩ := settled s1.condition (hcons1 v s1 b1) el (g.atoms ++ [⟨x, false⟩]) hf
          obtain ⟨L, top, st, L1, L', q1, q2, q3, q4, q5, q6, q7, q8, q9⟩ := hstart v s1 b1 false hf as
            (by simpa using has) cs hcs
          simp only [Bool.false_eq_true, if_false] at q6 q7
          have hrun := hset env _ _ _ q6 q7
          have sm' := sime v s1.condition ⟨st, L.alt⟩ [] [] ⟨s1, b1, rfl, q4, q5⟩
            (by dsimp only; rw [hat]; exact hf) (by simp) rfl
          dsimp only at sm'
          rw [hat, hrun] at sm'
          obtain ⟨⟨s2, z1, z2, z3, z4⟩, _⟩ := sm'
          have hmem := m4 v s2 (by rw [n2]; exact z1) (by rw [z2, hat]; exact hf)
          have := key_unique km hmm hmem
          subst this
          exact ⟨L1, z3, z4, ⟨L, top, st, q1, q2, by rw [q3]; simpa using q6⟩, by simp, ⟨L', q8⟩, q9⟩
        · have ht : s1.condition.holds (g.atoms ++ [⟨x, true⟩]) = true :=
            (holds_some x (hcons1 v s1 b1) hhm).resolve_left hf
          obtain ⟨as, has, hset⟩ := settled s1.condition (hcons1 v s1 b1) t (g.atoms ++ [⟨x, true⟩]) ht
          obtain ⟨L, top, st, L1, L', q1, q2, q3, q4, q5, q6, q7, q8, q9⟩ := hstart v s1 b1 true ht as
            (by simpa using has) cs hcs
          simp only [if_true] at q6 q7
          have hrun := hset env _ _ _ q6 q7
          have sm' := simt v s1.condition ⟨st, L.alt⟩ [] [] ⟨s1, b1, rfl, q4, q5⟩
            (by dsimp only; rw [hat]; exact ht) (by simp) rfl
          dsimp only at sm'
          rw [hat, hrun] at sm'
          obtain ⟨⟨s2, z1, z2, z3, z4⟩, _⟩ := sm'
          have hmem := m3 v s2 (by rw [l1]; exact z1) (by rw [z2, hat]; exact ht)
            (by rw [z2, hat]; simpa using hf)
          have := key_unique km hmm hmem
          subst this
          exact ⟨L1, z3, z4, ⟨L, top, st, q1, q2, by rw [q3]; simpa using q6⟩, by simp, ⟨L', q8⟩, q9⟩)
    refine ⟨(e1 ++ e2 ++ e3 ++ e4 ++ e5 ++ e6, g6), ?_⟩
    simp only [runProg]
    rw [h1, Res.bind_ok]
    dsimp only
    rw [hx, Res.bind_ok]
    rw [h2, Res.bind_ok]
    dsimp only
    rw [h3, Res.bind_ok]
    dsimp only
    rw [h4, Res.bind_ok]
    dsimp only
    rw [h5, Res.bind_ok]
    dsimp only
    rw [h6, Res.bind_ok]
    rw [h7, Res.bind_ok]

end GenProofs
end BCash
