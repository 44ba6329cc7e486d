import Verif.Proofs.MacroReportProg
import Verif.Props.MacroGen
import Verif.Spec.Source

/-! # The error reports of the script macro -/

namespace BCash
open Spec Spec.Macro Spec.Named Spec.Diag Macro GenProofs

namespace DiagProofs

/-- An environment. -/
def anyEnv : Vm.Env := ⟨id, id, id, id, id, fun _ _ => none, fun _ _ _ => none, fun _ => false, fun _ => false⟩

theorem pushOnD_ok (item : Item) (vs : List String) (states states' : List (String × VState))
    (h : pushOnD item vs states = .ok states') : states'.map Prod.fst = states.map Prod.fst := by
  induction vs generalizing states with
  | nil => cases h; rfl
  | cons v vs ih =>
    unfold pushOnD at h
    split at h
    · rw [ih _ h, List.map_map]
      apply List.map_congr_left
      rintro ⟨w, s⟩ _
      simp only [Function.comp_apply]
      split <;> rfl
    · cases h

theorem pushOnD_err (item : Item) (vs : List String) (states : List (String × VState)) (dg : Diag)
    (h : pushOnD item vs states = .err dg) : ∃ v ∈ vs, dg = .undefinedVariant v ∧ v ∉ states.map Prod.fst := by
  induction vs generalizing states with
  | nil => cases h
  | cons v vs ih =>
    unfold pushOnD at h
    split at h
    · obtain ⟨w, h1, h2, h3⟩ := ih _ h
      refine ⟨w, List.mem_cons_of_mem _ h1, h2, ?_⟩
      rw [List.map_map] at h3
      have : (Prod.fst ∘ fun p : String × VState =>
          if (p.1 == v) = true then (p.1, { p.2 with stack := item :: p.2.stack }) else p) = Prod.fst := by
        funext p
        simp only [Function.comp_apply]
        split <;> rfl
      rw [this] at h3
      exact h3
    · next hn =>
      cases h
      refine ⟨v, List.mem_cons_self, rfl, ?_⟩
      intro hm
      obtain ⟨p, h1, h2⟩ := List.mem_map.mp hm
      apply hn
      rw [List.any_eq_true]
      exact ⟨p, h1, by simpa using h2⟩

theorem pushInputsD_err (nv : Bool) (is : List Input) (states : List (String × VState)) (dg : Diag)
    (h : pushInputsD nv is states = .err dg) :
    ∃ v, dg = .undefinedVariant v ∧ v ∉ states.map Prod.fst ∧ ∃ i ∈ is, ∃ vs, i.variants = some vs ∧ v ∈ vs := by
  induction is generalizing states with
  | nil => cases h
  | cons i is ih =>
    unfold pushInputsD at h
    rcases bind_err h with h | ⟨st, h1, h⟩
    · cases hv : i.variants with
      | none => rw [hv] at h; cases h
      | some vs =>
        rw [hv] at h
        dsimp only at h
        rcases bind_err h with h | ⟨st, _, h⟩
        · obtain ⟨v, h1, h2, h3⟩ := pushOnD_err _ _ _ _ h
          exact ⟨v, h2, h3, i, List.mem_cons_self, vs, hv, h1⟩
        · split at h <;> cases h
    · obtain ⟨v, h2, h3, j, h4, h5⟩ := ih st h
      refine ⟨v, h2, ?_, j, List.mem_cons_of_mem _ h4, h5⟩
      have hk : st.map Prod.fst = states.map Prod.fst := by
        cases hv : i.variants with
        | none =>
          rw [hv] at h1
          cases h1
          simp [Function.comp_def]
        | some vs =>
          rw [hv] at h1
          dsimp only at h1
          obtain ⟨st', q1, q2⟩ := Res.bind_eq_ok.mp h1
          split at q2
          · cases q2
          · cases q2
            exact pushOnD_ok _ _ _ _ q1
      rw [hk] at h3
      exact h3

end DiagProofs
open DiagProofs

/-! ## C104: error reports -/

/-- The numbers of statements in reports are those of the statements as written. -/
theorem C104_numbers (p : Prog) (k : Nat) : ((placed p [])[k]?).map Prod.fst = (written p)[k]? := by
  rw [← placed_written p [], List.getElem?_map]

theorem shownNames_eq (l : List String) : String.intercalate ", " l = shownNames l := by
  induction l with
  | nil => rfl
  | cons x rest ih =>
    cases rest with
    | nil => rfl
    | cons y rest =>
      rw [String.intercalate_cons_cons, ih]
      simp only [shownNames, toString, String.append_assoc]

theorem shownBranches_eq (l : List Atom) : String.intercalate ", " (l.map Atom.toString) = shownBranches l := by
  induction l with
  | nil => rfl
  | cons a rest ih =>
    obtain ⟨x, b⟩ := a
    cases rest with
    | nil => cases b <;> simp [shownBranches, Atom.toString, toString]
    | cons y rest =>
      rw [List.map_cons, List.map_cons, String.intercalate_cons_cons, ← List.map_cons, ih]
      cases b <;> simp [shownBranches, Atom.toString, toString, String.append_assoc]

set_option maxRecDepth 10000 in
/-- **C104**: the words of every report. -/
theorem C104_words (dg : Diag) : dg.text = message dg := by
  induction dg with
  | inOpcode o d ih =>
    show o.name ++ ": " ++ d.text = s!"{o.name}: {message d}"
    rw [ih]
    simp only [toString, String.append_assoc]
  | namedInOne roll place v n v' n' =>
    apply String.toList_injective
    rcases roll with _ | ⟨depth, _ | _⟩ <;> cases n <;> cases n' <;>
      (show String.toList (Diag.inner _) = String.toList (words _)
       delta Diag.inner words
       simp only [named, does, shownName, toString, String.toList_append, String.reduceToList, Option.isSome, if_true,
        List.cons_append, List.nil_append, List.append_assoc, if_false, Bool.false_eq_true])
  | namedDifferently top place v n v' n' =>
    apply String.toList_injective
    cases top <;>
      (show String.toList (Diag.inner _) = String.toList (words _)
       delta Diag.inner words
       simp only [toString, String.toList_append, String.reduceToList, if_true, List.cons_append, List.nil_append,
        List.append_assoc, if_false, Bool.false_eq_true])
  | depths x v depth v' depth' stack stack' atoms =>
    apply String.toList_injective
    show String.toList (Diag.inner _) = String.toList (words _)
    delta Diag.inner words
    simp only [shownBranches_eq]
    simp only [shownNames_eq, toString, String.toList_append, String.reduceToList, List.cons_append,
      List.nil_append, List.append_assoc]
  | oneParameter got =>
    cases got with
    | none => rfl
    | some l =>
      have : l.map OpcodeInput.toString = l.map asWritten :=
        List.map_congr_left (fun x _ => by cases x <;> rfl)
      apply String.toList_injective
      show String.toList (Diag.inner _) = String.toList (words _)
      delta Diag.inner words
      simp only [shownInputs, this, shownNames_eq, toString, String.toList_append, String.reduceToList,
        List.cons_append, List.nil_append, List.append_assoc]
  | integer e =>
    show IntegerError.text e = integerMessage e
    cases e <;>
      (delta IntegerError.text integerMessage
       simp only [toString])
  | unknown o =>
    show Diag.inner _ = words _
    delta Diag.inner words
    simp only [toString]
  | noVariantFor atoms =>
    show Diag.inner _ = words _
    delta Diag.inner words
    simp only [shownBranches_eq, toString, String.append_assoc]
  | _ =>
    show Diag.inner _ = words _
    delta Diag.inner words
    try simp only [toString, String.append_assoc]

/-- Every kind of value in the words of a report. -/
example : message (.inOpcode .OP_CAT (.noVariantFor [⟨"a", true⟩, ⟨"b", false⟩])) =
      "OP_CAT: No variant for this op (predicate stack is a, !b)" ∧
    message (.namedInOne (some (2, true)) (.main 2) "V" (some "x") "W" none) =
      "2 OP_ROLL results in inconsistent stack item names. Item in variant V has a name (x) while in variant W it doesn't." := by
  decide +kernel

/-- **C104** (partial): if the macro rejects a script with a report for one of its statements, what the report says is
true: of the statement as it is written, of the variants it names, and of the stacks found there by every run.

Missing: the restrictions of C60; OP_NOTIF (`C104_notif_fails`); the words about the alternative stack
(`C104_altstack_fails`). -/
theorem C104_report_partial (order : List (String × VState) → List (String × VState))
    (horder : ∀ l, (order l).Perm l) (d : Decl) (p : Prog) (hd : declOk d) (hp : WellNested p)
    (hok : progOk false p = true) (hnotif : ∀ stmt, Leaf.opcode stmt ∈ written p → stmt.head ≠ .op .OP_NOTIF)
    (k : Nat) (dg : Diag) (h : generateD order d p = .err (some k, dg)) : Truthful d p k dg := by
  unfold generateD at h
  rcases bind_err h with h | ⟨states, h1, h⟩
  · obtain ⟨e, _, he⟩ := mapErr_err h
    cases he
  · obtain ⟨⟨k', dg'⟩, h', he⟩ := mapErr_err h
    cases he
    have h1 : initialStates d = .ok states := by
      unfold initialStates
      exact ok_of_link (pushInputs_link _ _ _) (mapErr_ok h1)
    have hstates := initial_spec d hd states h1
    subst hstates
    have hperm := horder (canon (variantsOf d) (inputsOf d))
    have told := fun env => prog_told env p 0 none ⟨order (canon (variantsOf d) (inputsOf d)), [], 0⟩ k' dg' hp hok hnotif
      (canon_good d hd _ (fun q hq => hperm.mem_iff.mp hq))
      ((hperm.map Prod.fst).nodup_iff.mpr (canon_keys d hd)) (by simp) h'
    have hsig : ∀ w c, (w, c) ∈ signature ⟨order (canon (variantsOf d) (inputsOf d)), [], 0⟩ ↔ (w, c) ∈ variantsOf d := by
      intro w c
      unfold signature
      simp only [List.mem_map, Prod.mk.injEq]
      constructor
      · rintro ⟨q, hq, rfl, rfl⟩
        have hq := hperm.mem_iff.mp hq
        unfold canon at hq
        obtain ⟨⟨w, c⟩, h2, h3⟩ := List.mem_map.mp hq
        subst h3
        exact h2
      · intro hm
        exact ⟨_, hperm.mem_iff.mpr (List.mem_map_of_mem hm), rfl, rfl⟩
    obtain ⟨i, l, a, hi, b2, b3, b4, b5, _⟩ := told anyEnv
    have hi : k' = i := by omega
    subst hi
    refine ⟨l, a, b2, b3, ?_, ?_, ?_⟩
    · intro w hw
      obtain ⟨c, h2, h3⟩ := b4 w hw
      exact ⟨c, (hsig w c).mp h2, h3⟩
    · intro hu w c hm
      exact b5 hu w c ((hsig w c).mpr hm)
    · intro env v c values s hv hlen hs
      obtain ⟨_, _, _, _, _, _, _, _, b6⟩ := told env
      have hcond : c.holds [] = true := by
        cases c with
        | nil => rfl
        | cons c cs => simp [Predicate.holds]
      exact b6 v c _ (canon_tracks d v c hv values hlen _ (fun q hq => hperm.mem_iff.mpr hq)) hcond (by simp) s hs

/-- **C104** (unknown operations): if the macro reports that `y` is unknown, the statement reported is an operation
written with the name `y`, and the report shows that name. (`Source.Means`: what an identifier stands for.) -/
theorem C104_unknown_partial (order : List (String × VState) → List (String × VState))
    (horder : ∀ l, (order l).Perm l) (d : Decl) (p : Prog) (hd : declOk d) (hp : WellNested p)
    (hok : progOk false p = true) (hnotif : ∀ stmt, Leaf.opcode stmt ∈ written p → stmt.head ≠ .op .OP_NOTIF)
    (k : Nat) (y : String) (h : generateD order d p = .err (some k, .unknown y)) :
    (Diag.unknown y).text = s!"Unknown opcode/function: {y}" ∧
    ∃ stmt, (written p)[k]? = some (.opcode stmt) ∧ ∀ x, Source.Means x stmt.head → x = y := by
  refine ⟨C104_words _, ?_⟩
  obtain ⟨l, known, hpl, hw, -⟩ := C104_report_partial order horder d p hd hp hok hnotif k _ h
  have hk := C104_numbers p k
  rw [hpl] at hk
  cases l with
  | opcode stmt =>
    refine ⟨stmt, hk.symm, fun x hx => ?_⟩
    replace hw : WrittenOp stmt known (.unknown y) := hw
    unfold WrittenOp at hw
    rcases hw with hw | ⟨o, hw, rfl, -⟩
    · rw [hw] at hx
      rcases hx with hx | ⟨hx, -⟩
      · cases hx
      · cases hx; rfl
    · rw [hw] at hx
      rcases hx with hx | ⟨hx, -⟩
      · cases hx; rfl
      · cases hx
  | push _ _ => cases hw
  | forLoop => cases hw
  | rustIf => cases hw

/-- Non-vacuity: a misspelled opcode. -/
example : Source.Means "OP_CATT" (.unknown "OP_CATT") ∧
    generateD id (plainDecl ["a", "b"]) (plain [.opcode ⟨.unknown "OP_CATT", none, none⟩]) =
      .err (some 0, .unknown "OP_CATT") ∧
    (Diag.unknown "OP_CATT").text = "Unknown opcode/function: OP_CATT" := by
  refine ⟨.inr ⟨rfl, ?_⟩, by decide +kernel, by decide +kernel⟩
  intro h' hs
  generalize hx : "OP_CATT" = x at hs
  cases hs with
  | op o ho => cases o <;> exact absurd hx (by decide)
  | depthOf => exact absurd hx (by decide)
  | depthOfOffset => exact absurd hx (by decide)
  | transmute => exact absurd hx (by decide)

/-- **C104**: a report about the inputs names a variant that an input lists and that is not declared. -/
theorem C104_inputs (order : List (String × VState) → List (String × VState)) (d : Decl) (p : Prog) (hd : declOk d)
    (dg : Diag) (h : generateD order d p = .err (none, dg)) :
    ∃ v, dg = .undefinedVariant v ∧ (∃ i ∈ d.inputs, ∃ vs, i.variants = some vs ∧ v ∈ vs) ∧
      ∀ c, (v, c) ∉ variantsOf d := by
  unfold generateD at h
  rcases bind_err h with h | ⟨states, h1, h⟩
  · obtain ⟨e, h, he⟩ := mapErr_err h
    cases he
    obtain ⟨v, h1, h2, h3⟩ := pushInputsD_err _ _ _ _ h
    refine ⟨v, h1, h3, ?_⟩
    rw [emptyStates_spec d hd] at h2
    intro c hc
    apply h2
    unfold canon
    rw [List.map_map]
    exact List.mem_map.mpr ⟨(v, c), hc, rfl⟩
  · obtain ⟨⟨k', dg'⟩, h, he⟩ := mapErr_err h
    cases he

/-- Scripts are rejected with a report exactly when `generate` rejects them, and accepted with the same result. -/
theorem C104_rejected (order : List (String × VState) → List (String × VState)) (d : Decl) (p : Prog) :
    ((∃ e, generate order d p = .err e) ↔ ∃ k dg, generateD order d p = .err (k, dg)) ∧
    ∀ r, generate order d p = .ok r ↔ generateD order d p = .ok r := by
  rw [← generate_link]
  cases generateD order d p with
  | ok a => simp [Res.mapErr]
  | err e => obtain ⟨k, dg⟩ := e; simp [Res.mapErr]
  | panic => simp [Res.mapErr]

/-! Non-vacuity. -/

/-- In one branch `sig` is dropped; afterwards it is asked for. -/
def reportProg1 : Prog :=
  .scriptIf ⟨.op .OP_IF, some [.ident "claim"], none⟩
    (.leaf (.opcode ⟨.op .OP_DROP, some [.ident "secret"], none⟩) .nil)
    (some ⟨.op .OP_ELSE, none, none⟩)
    (.leaf (.opcode ⟨.op .OP_DROP, some [.ident "sig"], none⟩) .nil)
    ⟨.op .OP_ENDIF, none, none⟩
    (.leaf (.opcode ⟨.depthOf, some [.ident "sig"], none⟩) .nil)

/-- The branches leave different stacks. -/
def reportProg2 (last : Leaf) : Prog :=
  .scriptIf ⟨.op .OP_IF, some [.ident "claim"], none⟩ .nil none .nil ⟨.op .OP_ENDIF, none, none⟩ (.leaf last .nil)

theorem exampleDecl_ok : declOk exampleDecl := by
  refine ⟨by decide, ?_, ?_⟩
  · intro i hi
    simp only [exampleDecl, List.mem_cons, List.not_mem_nil, or_false] at hi
    rcases hi with rfl | rfl | rfl <;> decide +kernel
  · intro i hi vs hvs
    simp only [exampleDecl, List.mem_cons, List.not_mem_nil, or_false] at hi
    rcases hi with rfl | rfl | rfl <;> cases hvs <;> simp [exampleDecl]

set_option maxRecDepth 100000 in
/-- The report, its text, and a run that gets there: there is no `sig`. -/
example : generateD id exampleDecl reportProg1 = .err (some 5, .notFound "sig" "Refund") ∧
    (Diag.notFound "sig" "Refund").text = "Couldn't find sig in variant Refund" ∧
    (written reportProg1)[5]? = some (.opcode ⟨.depthOf, some [.ident "sig"], none⟩) ∧
    (5, ⟨[], []⟩) ∈ visits anyEnv [[⟨"claim", false⟩]] reportProg1 0 []
      (start (inputsOf exampleDecl "Refund") [[1], []]) ∧
    (5, ⟨[⟨[1], some "sig"⟩], []⟩) ∈ visits anyEnv [[⟨"claim", true⟩]] reportProg1 0 []
      (start (inputsOf exampleDecl "Claim") [[1], [2], [1]]) ∧
    WellNested reportProg1 ∧ progOk false reportProg1 = true := by
  refine ⟨by decide +kernel, by decide +kernel, by decide +kernel, by decide +kernel, by decide +kernel, ?_,
    by decide +kernel⟩
  simp [reportProg1, WellNested, opens, isElse, closes]

set_option maxRecDepth 100000 in
example : Truthful exampleDecl reportProg1 5 (.notFound "sig" "Refund") :=
  C104_report_partial id (fun _ => List.Perm.refl _) _ _ exampleDecl_ok
    (by simp [reportProg1, WellNested, opens, isElse, closes]) (by decide +kernel)
    (by intro s hs; simp [reportProg1, written] at hs; rcases hs with rfl | rfl | rfl | rfl | rfl | rfl <;> simp)
    _ _ (by decide +kernel)

set_option maxRecDepth 100000 in
example :
    (match generateD id exampleDecl (reportProg2 (.opcode ⟨.depthOf, some [.ident "sig"], none⟩)) with
      | .err (k, dg) => (k, dg.text)
      | _ => (none, "")) = (some 2, "Inconsistent item depths. Item `sig` in variant `Claim` is 1 items deep, " ++
        "but the same item in variant `Refund` is 0 items deep. \n Stack in variant `Claim`: sig, secret\n " ++
        "Stack in variant `Refund`: sig\n predicates: ") ∧
    (match generateD id exampleDecl (reportProg2 (opStmt .OP_DROP (some ["secret"]) none)) with
      | .err (k, dg) => (k, dg.text)
      | _ => (none, "")) = (some 2, "OP_DROP: Branch results in inconsistent stack item names. Top item in variant " ++
        "`Claim` is named `secret` while in variant `Refund` is named `sig` in .") ∧
    (match generateD id (plainDecl ["a"]) (plain [opStmt .OP_DROP none none, opStmt .OP_DROP none none]) with
      | .err (k, dg) => (k, dg.text)
      | _ => (none, "")) = (some 1, "OP_DROP: Empty stack on variant Inputs") ∧
    (match generateD id (plainDecl ["a", "b"]) (plain [opStmt .OP_CAT (some ["b", "__"]) none]) with
      | .err (k, dg) => (k, dg.text)
      | _ => (none, "")) = (some 0, "Mismatched stack item name, expected `a` but got `b`.") := by
  decide +kernel

set_option maxRecDepth 100000 in
example : generateD id ⟨"Inputs", [("A", [])], [⟨"x", some ["A", "B"]⟩]⟩ .nil = .err (none, .undefinedVariant "B") := by
  decide +kernel

/-- **C104** fails for OP_NOTIF: it takes one item, but with one name the report is that there should be none. -/
theorem C104_notif_fails : ∃ (d : Decl) (p : Prog), declOk d ∧ WellNested p ∧ progOk false p = true ∧
    generateD id d p = .err (some 0, .inputCount 0 1) ∧ ¬ Truthful d p 0 (.inputCount 0 1) := by
  refine ⟨plainDecl ["a"], .scriptIf ⟨.op .OP_NOTIF, some [.ident "a"], none⟩ .nil none .nil
    ⟨.op .OP_ENDIF, none, none⟩ .nil, ⟨by decide, ?_, ?_⟩, by simp [WellNested, opens, closes], by decide +kernel,
    by decide +kernel, ?_⟩
  · intro i hi
    simp only [plainDecl, List.map_cons, List.map_nil, List.mem_singleton] at hi
    subst hi
    decide +kernel
  · intro i hi vs hvs
    simp only [plainDecl, List.map_cons, List.map_nil, List.mem_singleton] at hi
    subst hi
    cases hvs
  · rintro ⟨l, a, h1, h2, _⟩
    cases h1
    unfold Written WrittenOp at h2
    obtain ⟨o, names, h3, h4, _⟩ := h2
    cases h3
    cases h4

set_option maxRecDepth 100000 in
/-- **C104** fails in words: of an operation on the main stack it is reported that the top item of the alternative
stack has another name, although the alternative stack is empty. -/
theorem C104_altstack_fails : ∃ (d : Decl) (p : Prog) (dg : Diag),
    generateD id d p = .err (some 0, dg) ∧
    dg.text = "OP_TOALTSTACK: Expected top altstack item named `y`, but actual name is `x`." ∧
    ∀ env values, values.length = 1 → ∀ s, (0, s) ∈ visits env [] p 0 [] (start (inputsOf d "Inputs") values) →
      s.alt = [] := by
  refine ⟨plainDecl ["x"], plain [opStmt .OP_TOALTSTACK (some ["y"]) none],
    .inOpcode .OP_TOALTSTACK (.notTop "y" "x" (.main 0)), by decide +kernel, by decide +kernel, ?_⟩
  intro env values _ s hs
  simp only [plain, visits] at hs
  rcases List.mem_cons.mp hs with hs | hs
  · cases hs; rfl
  · split at hs
    · cases hs
    · cases hs

end BCash
