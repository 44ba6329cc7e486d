import Verif.Props.Recorded
import Verif.Proofs.MacroAcceptProg

/-! # Scripts the macro accepts -/

namespace BCash
open Spec Spec.Macro Spec.Named Macro GenProofs

/-! ## C68: correct scripts are accepted -/

namespace GenProofs

theorem pushOn_ok (item : Item) (vs : List String) (states : List (String × VState))
    (h : ∀ v ∈ vs, v ∈ states.map Prod.fst) :
    ∃ r, pushOn item vs states = .ok r ∧ r.map Prod.fst = states.map Prod.fst := by
  induction vs generalizing states with
  | nil => exact ⟨states, rfl, rfl⟩
  | cons v vs ih =>
    have hkeys : (states.map fun p => if p.1 == v then (p.1, { p.2 with stack := item :: p.2.stack }) else p).map
        Prod.fst = states.map Prod.fst := by
      rw [List.map_map]
      apply List.map_congr_left
      intro p _
      simp only [Function.comp_apply]
      split <;> rfl
    obtain ⟨r, h1, h2⟩ := ih _ (by rw [hkeys]; exact fun w hw => h w (by simp [hw]))
    refine ⟨r, ?_, h2.trans hkeys⟩
    rw [pushOn, if_pos]
    · exact h1
    · obtain ⟨q, hq, he⟩ := List.mem_map.mp (h v (by simp))
      exact List.any_eq_true.mpr ⟨q, hq, by simp [he]⟩

theorem pushInputs_ok (nv : Bool) (is : List Input) (states : List (String × VState))
    (h : ∀ i ∈ is, ∀ vs, i.variants = some vs → nv = false ∧ ∀ v ∈ vs, v ∈ states.map Prod.fst) :
    ∃ r, pushInputs nv is states = .ok r := by
  induction is generalizing states with
  | nil => exact ⟨_, rfl⟩
  | cons i is ih =>
    rw [pushInputs]
    cases hv : i.variants with
    | none =>
      dsimp only
      rw [Res.bind_ok]
      refine ih _ fun j hj vs hvs => ?_
      simpa [Function.comp_def] using h j (by simp [hj]) vs hvs
    | some vs =>
      dsimp only
      obtain ⟨q1, q2⟩ := h i (by simp) vs hv
      obtain ⟨r, h1, h2⟩ := pushOn_ok ⟨i.name, false, none⟩ vs states q2
      subst q1
      rw [h1]
      simp only [Res.bind_ok, Bool.false_and, Bool.false_eq_true, if_false]
      refine ih _ fun j hj vs hvs => ?_
      rw [h2]
      exact h j (by simp [hj]) vs hvs

theorem start_length (names : List String) (values : List Bytes) (h : values.length = names.length) :
    (start names values).stack.length = names.length := by
  simp [start, h]

end GenProofs

/-- **C68** (partial): a script in which all names are right is accepted. For every variant and every
sequence of branches its condition allows, let there be input values with which the script runs to its end
along these branches, no written name being wrong; let all these runs find items with the same names (and,
where a statement refers to an item by name, at the same depth) wherever they execute the same statement;
and let every statement be reached by a variant. Then the macro generates the script.

Missing: the restrictions of C60 (`progOk`), those of `acceptableProg`, contradictory conditions, and the
size bound (stack depths are 32-bit script integers). That agreement, reachability, conditions without
contradictions and the main restrictions of `acceptableProg` are needed is shown below. -/
theorem C68_accepted_partial (env : Vm.Env) (order : List (String × VState) → List (String × VState))
    (horder : ∀ l, (order l).Perm l) (d : Decl) (hd : declOk d)
    (hlisted : ∀ i ∈ d.inputs, ∀ vs, i.variants = some vs → ∀ v ∈ vs, v ∈ d.variants.map Prod.fst)
    (hconds : ∀ vc ∈ variantsOf d, ∀ c ∈ vc.2, Consistent c)
    (p : Prog) (hwn : WellNested p) (hok : progOk false p = true) (hacc : acceptableProg p = true)
    (hreach : reached ((variantsOf d).map Prod.snd) p [] = true)
    (hsize : ∀ vc ∈ variantsOf d, (inputsOf d vc.1).length + 3 * (written p).length < 2 ^ 30)
    (values : String → List Bool → List Bytes)
    (hruns : ∀ vc ∈ variantsOf d, ∀ bs ∈ paths vc.2 p [], Follows env d p vc.1 (values vc.1 bs) bs)
    (hagree : ∀ vc ∈ variantsOf d, ∀ bs ∈ paths vc.2 p [], ∀ vc' ∈ variantsOf d, ∀ bs' ∈ paths vc'.2 p [],
      ∀ e ∈ trace env p 0 (start (inputsOf d vc.1) (values vc.1 bs)),
      ∀ e' ∈ trace env p 0 (start (inputsOf d vc'.1) (values vc'.1 bs')), e.index = e'.index → e.use = e'.use) :
    ∃ e g, generate order d p = .ok (e, g) := by
  unfold generate
  have hkeys0 : (emptyStates d).map Prod.fst = (variantsOf d).map Prod.fst := by
    rw [emptyStates_spec d hd]
    simp [canon, Function.comp_def]
  obtain ⟨states, hinit⟩ : ∃ r, initialStates d = .ok r := by
    unfold initialStates
    refine pushInputs_ok _ d.inputs _ ?_
    intro i hi vs hvs
    have hne := (hd.2.2 i hi vs hvs).2
    refine ⟨by cases hv : d.variants with
      | nil => exact (hne hv).elim
      | cons _ _ => rfl, ?_⟩
    intro v hv
    rw [hkeys0]
    unfold variantsOf
    rw [if_neg (fun h => hne h)]
    exact hlisted i hi vs hvs v hv
  have hstates := initial_spec d hd states hinit
  subst hstates
  have hperm := horder (canon (variantsOf d) (inputsOf d))
  have hfrom : ∀ v s, (v, s) ∈ order (canon (variantsOf d) (inputsOf d)) → (v, s.condition) ∈ variantsOf d ∧
      s = ⟨s.condition, ((inputsOf d v).map fun n => ⟨n, false, none⟩).reverse, []⟩ := by
    intro v s hm
    obtain ⟨vp, h1, h2⟩ := List.mem_map.mp (hperm.mem_iff.mp hm)
    cases h2
    exact ⟨h1, rfl⟩
  obtain ⟨⟨e, g⟩, hr⟩ := prog_accept env p none ⟨order (canon (variantsOf d) (inputsOf d)), [], 0⟩ 0
    (fun L => ∃ vc ∈ variantsOf d, ∃ bs ∈ paths vc.2 p [], L = start (inputsOf d vc.1) (values vc.1 bs))
    hwn hok hacc (canon_good d hd _ (fun q hq => hperm.mem_iff.mp hq))
    ((hperm.map Prod.fst).nodup_iff.mpr (canon_keys d hd)) (by simp)
    (fun v s hm => hconds _ (hfrom v s hm).1)
    (by
      have hany : ∀ known, (((order (canon (variantsOf d) (inputsOf d))).map fun p => p.2.condition).any
          (·.holds known)) = ((variantsOf d).map Prod.snd).any (·.holds known) := by
        intro known
        rw [Bool.eq_iff_iff, List.any_eq_true, List.any_eq_true]
        have hmem : ∀ c, c ∈ ((order (canon (variantsOf d) (inputsOf d))).map fun p => p.2.condition) ↔
            c ∈ (variantsOf d).map Prod.snd := by
          intro c
          rw [(hperm.map fun p => p.2.condition).mem_iff]
          simp [canon]
        constructor
        · rintro ⟨c, h1, h2⟩; exact ⟨c, (hmem c).mp h1, h2⟩
        · rintro ⟨c, h1, h2⟩; exact ⟨c, (hmem c).mpr h1, h2⟩
      have : ∀ p known, reached ((order (canon (variantsOf d) (inputsOf d))).map fun p => p.2.condition) p known =
          reached ((variantsOf d).map Prod.snd) p known := by
        intro p
        induction p with
        | nil => intro _; rfl
        | leaf l rest ih => intro known; simp only [reached, hany, ih]
        | scriptIf i t e el en rest iht ihe ihr => intro known; simp only [reached, hany, iht, ihe, ihr]
      rw [this]
      exact hreach)
    (by
      rintro L ⟨vc, h1, bs, h2, rfl⟩
      rw [start_length _ _ (hruns vc h1 bs h2).1]
      exact hsize vc h1)
    (by
      rintro L L2 ⟨vc, h1, bs, h2, rfl⟩ ⟨vc', h3, bs', h4, rfl⟩
      exact hagree vc h1 bs h2 vc' h3 bs' h4)
    (by
      intro v s hm hh bs hbs
      dsimp only at hm hh hbs
      obtain ⟨h1, h2⟩ := hfrom v s hm
      obtain ⟨q1, q2, q3⟩ := hruns _ h1 bs hbs
      obtain ⟨s', t1, t2, t3, t4⟩ := canon_tracks d v s.condition h1 (values v bs) q1
        ⟨order (canon (variantsOf d) (inputsOf d)), [], 0⟩ (fun q hq => hperm.mem_iff.mpr hq)
      have : s' = s := by
        rw [(hfrom v s' t1).2, h2, t2]
      subst this
      exact ⟨_, t3, t4, ⟨_, h1, bs, hbs, rfl⟩, by simp, q2, q3⟩)
  exact ⟨e, g, by rw [hinit]; exact hr⟩

/-- Non-vacuity: a script that meets all hypotheses: two variants, one of which leaves a second
(inner) condition open. -/
def acceptDecl : Decl :=
  ⟨"P", [("A", [[⟨"a", true⟩]]), ("B", [[⟨"a", false⟩]])],
    [⟨"y", some ["B"]⟩, ⟨"x", none⟩, ⟨"c", none⟩, ⟨"a", none⟩]⟩

def acceptScript : Prog :=
  .scriptIf ⟨.op .OP_IF, some [.ident "a"], none⟩
    (.scriptIf ⟨.op .OP_IF, some [.ident "c"], none⟩
      (.leaf (opStmt .OP_DUP (some ["x"]) none) (.leaf (opStmt .OP_DROP none none) .nil))
      none .nil ⟨.op .OP_ENDIF, none, none⟩ .nil)
    (some ⟨.op .OP_ELSE, none, none⟩)
    (.leaf (opStmt .OP_DROP (some ["c"]) none) (.leaf (opStmt .OP_NIP (some ["y", "x"]) none) .nil))
    ⟨.op .OP_ENDIF, none, none⟩
    (plain [opStmt .OP_TOALTSTACK (some ["x"]) none, opStmt .OP_FROMALTSTACK none none,
      opStmt .OP_SIZE (some ["x"]) (some ["__", "n"]), .opcode ⟨.depthOf, some [.ident "x"], none⟩,
      opStmt .OP_PICK none none, opStmt .OP_2DROP (some ["n", "x"]) none,
      .opcode ⟨.transmute, some [.ident "x", .expr "Integer" 0], none⟩,
      .opcode ⟨.depthOfOffset, some [.ident "x", .expr "3" 3], some ["k"]⟩])

def acceptValues (v : String) (bs : List Bool) : List Bytes :=
  if v = "A" then [[7, 8], if bs = [true, true] then [1] else [], [1]] else [[9], [7], [1], []]

example : declOk acceptDecl ∧
    (∀ i ∈ acceptDecl.inputs, ∀ vs, i.variants = some vs → ∀ v ∈ vs, v ∈ acceptDecl.variants.map Prod.fst) ∧
    (∀ vc ∈ variantsOf acceptDecl, ∀ c ∈ vc.2, Consistent c) ∧
    WellNested acceptScript ∧ progOk false acceptScript = true ∧ acceptableProg acceptScript = true ∧
    reached ((variantsOf acceptDecl).map Prod.snd) acceptScript [] = true ∧
    (variantsOf acceptDecl).map (fun vc => paths vc.2 acceptScript []) =
      [[[true, true], [true, false]], [[false]]] ∧
    (∀ vc ∈ variantsOf acceptDecl, ∀ bs ∈ paths vc.2 acceptScript [],
      Follows (exampleSpendEnv none) acceptDecl acceptScript vc.1 (acceptValues vc.1 bs) bs) ∧
    (∀ vc ∈ variantsOf acceptDecl, ∀ bs ∈ paths vc.2 acceptScript [],
      ∀ vc' ∈ variantsOf acceptDecl, ∀ bs' ∈ paths vc'.2 acceptScript [],
      ∀ e ∈ trace (exampleSpendEnv none) acceptScript 0 (start (inputsOf acceptDecl vc.1) (acceptValues vc.1 bs)),
      ∀ e' ∈ trace (exampleSpendEnv none) acceptScript 0 (start (inputsOf acceptDecl vc'.1) (acceptValues vc'.1 bs')),
      e.index = e'.index → e.use = e'.use) := by
  refine ⟨⟨by decide, ?_, ?_⟩, ?_, ?_, ?_, by decide +kernel, by decide +kernel, by decide +kernel,
    by decide +kernel, ?_, by decide +kernel⟩
  · intro i hi
    simp only [acceptDecl, List.mem_cons, List.not_mem_nil, or_false] at hi
    rcases hi with rfl | rfl | rfl | rfl <;> decide +kernel
  · intro i hi vs hvs
    simp only [acceptDecl, List.mem_cons, List.not_mem_nil, or_false] at hi
    rcases hi with rfl | rfl | rfl | rfl <;> cases hvs
    exact ⟨by decide, by simp [acceptDecl]⟩
  · intro i hi vs hvs
    simp only [acceptDecl, List.mem_cons, List.not_mem_nil, or_false] at hi
    rcases hi with rfl | rfl | rfl | rfl <;> cases hvs
    decide
  · intro vc hvc c hc
    simp only [acceptDecl, variantsOf, List.cons_ne_nil, if_false, List.mem_cons, List.not_mem_nil,
      or_false] at hvc
    rcases hvc with rfl | rfl <;> simp only [List.mem_cons, List.not_mem_nil, or_false] at hc <;> subst hc <;>
      intro a ha b hb _ <;> simp only [List.mem_cons, List.not_mem_nil, or_false] at ha hb <;> rw [ha, hb]
  · simp [acceptScript, WellNested, opStmt, opens, isElse, closes, plain]
  · intro vc hvc bs hbs
    simp only [acceptDecl, variantsOf, List.cons_ne_nil, if_false, List.mem_cons, List.not_mem_nil,
      or_false] at hvc
    rcases hvc with rfl | rfl
    · have : bs = [true, true] ∨ bs = [true, false] := by
        have : paths [[⟨"a", true⟩]] acceptScript [] = [[true, true], [true, false]] := by decide +kernel
        rw [this] at hbs
        simpa using hbs
      rcases this with rfl | rfl
      · exact ⟨by decide +kernel, ⟨⟨[⟨[3], some "k"⟩, ⟨[7, 8], some "x"⟩], []⟩, by decide +kernel⟩,
          by decide +kernel⟩
      · exact ⟨by decide +kernel, ⟨⟨[⟨[3], some "k"⟩, ⟨[7, 8], some "x"⟩], []⟩, by decide +kernel⟩,
          by decide +kernel⟩
    · have : bs = [false] := by
        have : paths [[⟨"a", false⟩]] acceptScript [] = [[false]] := by decide +kernel
        rw [this] at hbs
        simpa using hbs
      subst this
      exact ⟨by decide +kernel, ⟨⟨[⟨[3], some "k"⟩, ⟨[7], some "x"⟩], []⟩, by decide +kernel⟩,
        by decide +kernel⟩

/-- **C68** fails for OP_NOTIF, which the macro takes for an operation without an operand. -/
theorem C68_notif_fails : (∃ m, generate id (plainDecl ["a"])
      (.scriptIf ⟨.op .OP_NOTIF, some [.ident "a"], none⟩ .nil none .nil ⟨.op .OP_ENDIF, none, none⟩ .nil) =
      .err m) ∧
    ∀ env, Vm.Runs env [Opcode.OP_NOTIF.toByte, Opcode.OP_ENDIF.toByte] ⟨[[1]], []⟩ (some ⟨[], []⟩) :=
  ⟨⟨_, rfl⟩, fun _ => ⟨[.op 0x64, .op 0x68], by simp [Token.Valid], rfl, rfl⟩⟩

/-- **C68** fails if an item has different names in two variants, even where the statement does not name
it. -/
theorem C68_names_fails : (∃ m, generate id ⟨"P", [("A", [[⟨"a", true⟩]]), ("B", [[⟨"a", false⟩]])],
      [⟨"x", some ["A"]⟩, ⟨"y", some ["B"]⟩]⟩ (plain [opStmt .OP_DROP none none]) = .err m) ∧
    ∀ env w n, exec env (plain [opStmt .OP_DROP none none]) (start [n] [w]) = .ok ⟨[], []⟩ :=
  ⟨⟨_, rfl⟩, fun _ _ _ => rfl⟩

/-- **C68** fails for statements no variant reaches. -/
theorem C68_unreached_fails : (∃ m, generate id ⟨"P", [("A", [[⟨"a", true⟩]])], [⟨"x", none⟩, ⟨"a", none⟩]⟩
      (.scriptIf ⟨.op .OP_IF, some [.ident "a"], none⟩ .nil (some ⟨.op .OP_ELSE, none, none⟩)
        (plain [opStmt .OP_VERIFY none none]) ⟨.op .OP_ENDIF, none, none⟩ .nil) = .err m) ∧
    ∀ env w, exec env (.scriptIf ⟨.op .OP_IF, some [.ident "a"], none⟩ .nil (some ⟨.op .OP_ELSE, none, none⟩)
        (plain [opStmt .OP_VERIFY none none]) ⟨.op .OP_ENDIF, none, none⟩ .nil)
        (start ["x", "a"] [w, [1]]) = .ok ⟨[⟨w, some "x"⟩], []⟩ :=
  ⟨⟨_, rfl⟩, fun _ _ => rfl⟩

/-- **C68** fails if there is a variant with a contradictory condition: no run belongs to it, but its
stack is checked. -/
theorem C68_contradiction_fails :
    let p := Prog.scriptIf ⟨.op .OP_IF, some [.ident "a"], none⟩ .nil none .nil ⟨.op .OP_ENDIF, none, none⟩ .nil
    let d : Decl := ⟨"P", [("A", [[⟨"a", true⟩]]), ("Z", [[⟨"a", true⟩, ⟨"a", false⟩]])], [⟨"a", some ["A"]⟩]⟩
    (∃ m, generate id d p = .err m) ∧ paths [[⟨"a", true⟩, ⟨"a", false⟩]] p [] = [] ∧
    ∀ env, Follows env d p "A" [[1]] [true] :=
  ⟨⟨_, rfl⟩, by decide, fun _ => ⟨rfl, ⟨_, rfl⟩, rfl⟩⟩

/-- **C68** fails for OP_DEPTH without a name for its result: the macro panics. -/
theorem C68_depth_fails : generate id (plainDecl []) (plain [opStmt .OP_DEPTH none none]) = .panic ∧
    ∀ env, exec env (plain [opStmt .OP_DEPTH none none]) (start [] []) = .ok ⟨[⟨[], none⟩], []⟩ :=
  ⟨rfl, fun _ => rfl⟩

/-- **C68** fails for OP_IFDUP: the macro panics, although the machine executes it. -/
theorem C68_ifdup_fails : generate id (plainDecl ["a"]) (plain [opStmt .OP_IFDUP none none]) = .panic ∧
    ∀ env, Vm.main env Opcode.OP_IFDUP.toByte [[1]] = some [[1], [1]] :=
  ⟨rfl, fun _ => rfl⟩

/-- **C68** fails for `__` as the name of a new result. -/
theorem C68_placeholder_fails :
    (∃ m, generate id (plainDecl ["a", "b"]) (plain [opStmt .OP_CAT none (some ["__"])]) = .err m) ∧
    ∀ env, exec env (plain [opStmt .OP_CAT none (some ["__"])]) (start ["a", "b"] [[1], [2]]) =
      .ok ⟨[⟨[1, 2], none⟩], []⟩ :=
  ⟨⟨_, rfl⟩, fun _ => rfl⟩

end BCash
