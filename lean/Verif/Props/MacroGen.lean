import Mathlib.Data.List.Nodup
import Verif.Proofs.MacroRecord
import Verif.Proofs.MacroBalanced

/-! # The script macro's generated scripts -/

namespace BCash
open Spec Spec.Macro Spec.Named Macro GenProofs

/-! ## C60: names stand for the items they are written for -/

/-- **C60** (partial): a script the macro accepts runs as written. For every variant and all values of
its inputs, from the stack of the inputs the generated script does what the written script does with
named items, and every written name is the name of the item it stands for — whatever the iteration
order of the macro's tables.

Missing: the restrictions `declOk` and `progOk`, and runs (`undecided`) that take a branch the variant's condition
does not allow, or a first branch where the condition also allows the second, which does not leave items of the same
names. Without them the claim is false, see below. -/
theorem C60_names_partial (env : Vm.Env) (order : List (String × VState) → List (String × VState))
    (horder : ∀ l, (order l).Perm l) (d : Decl) (p : Prog) (e : List Emit) (g : Gen)
    (hgen : generate order d p = .ok (e, g))
    (hd : declOk d) (hp : WellNested p) (hok : progOk false p = true)
    (v : String) (cond : Predicate) (hv : (v, cond) ∈ variantsOf d)
    (values : List Bytes) (hlen : values.length = (inputsOf d v).length)
    (hdec : Named.run env cond p [] (start (inputsOf d v) values) ≠ .undecided) :
    ∃ script, serializeOps (e.map Emit.op) = .ok script ∧
      Faithful env p (start (inputsOf d v) values) script := by
  unfold generate at hgen
  obtain ⟨states, hinit, hrun⟩ := Res.bind_eq_ok.mp hgen
  have hstates := initial_spec d hd states hinit
  subst hstates
  have hperm := horder (canon (variantsOf d) (inputsOf d))
  obtain ⟨_, _, _, ts, code, sim⟩ := prog_sim env p none _ g e hp hok
    (canon_good d hd _ (fun q hq => hperm.mem_iff.mp hq))
    ((hperm.map Prod.fst).nodup_iff.mpr (canon_keys d hd)) (by simp) hrun
  refine ⟨_, code.bytes, ?_⟩
  have hcond : cond.holds [] = true := by
    cases cond with
    | nil => rfl
    | cons c cs => simp [Predicate.holds]
  have hs := sim v cond (start (inputsOf d v) values) [] []
    (canon_tracks d v cond hv values hlen _ (fun q hq => hperm.mem_iff.mpr hq)) hcond (by simp) rfl
  dsimp only at hs
  rw [List.append_nil] at hs
  unfold Faithful
  rw [run_exec env cond p [] _ hdec] at hs
  have hundec : exec env p (start (inputsOf d v) values) ≠ .undecided := by
    rw [← run_exec env cond p [] _ hdec]; exact hdec
  cases hr : exec env p (start (inputsOf d v) values) with
  | ok L' =>
    rw [hr] at hs
    exact ⟨ts, code.valid, rfl, by rw [hs.2]; rfl⟩
  | fail =>
    rw [hr] at hs
    exact ⟨ts, code.valid, rfl, hs⟩
  | mismatch => rw [hr] at hs; exact hs
  | undecided => exact hundec hr

/-- Non-vacuity: a payment with a secret or a refund. The secret is an input of the first variant only. -/
def exampleDecl : Decl where
  inputStruct := "Inputs"
  variants := [("Claim", [[⟨"claim", true⟩]]), ("Refund", [[⟨"claim", false⟩]])]
  inputs := [⟨"sig", none⟩, ⟨"secret", some ["Claim"]⟩, ⟨"claim", none⟩]

def exampleProg : Prog :=
  .scriptIf ⟨.op .OP_IF, some [.ident "claim"], none⟩
    (.leaf (.opcode ⟨.op .OP_SHA256, some [.ident "secret"], some ["digest"]⟩)
      (.leaf (.push (.pushByteArray [7, 7] true) (some "expected"))
        (.leaf (.opcode ⟨.op .OP_EQUALVERIFY, some [.ident "digest", .ident "expected"], none⟩) .nil)))
    (some ⟨.op .OP_ELSE, none, none⟩)
    (.leaf (.push (.pushInteger 500) none)
      (.leaf (.opcode ⟨.op .OP_CHECKLOCKTIMEVERIFY, none, none⟩)
        (.leaf (.opcode ⟨.op .OP_DROP, none, none⟩) .nil)))
    ⟨.op .OP_ENDIF, none, none⟩
    (.leaf (.push (.pushByteArray [9, 9] true) (some "pubkey"))
      (.leaf (.opcode ⟨.depthOf, some [.ident "sig"], none⟩)
        (.leaf (.opcode ⟨.op .OP_ROLL, none, some ["sig2"]⟩)
          (.leaf (.opcode ⟨.op .OP_SWAP, none, none⟩)
            (.leaf (.opcode ⟨.op .OP_CHECKSIG, some [.ident "sig2", .ident "pubkey"], none⟩) .nil)))))

/-- The generated operations. -/
def exampleOps : List (Op Bytes) :=
  [.code .OP_IF, .code .OP_SHA256, .pushByteArray [7, 7] true, .code .OP_EQUALVERIFY, .code .OP_ELSE,
   .pushInteger 500, .code .OP_CHECKLOCKTIMEVERIFY, .code .OP_DROP, .code .OP_ENDIF,
   .pushByteArray [9, 9] true, .pushInteger 1, .code .OP_ROLL, .code .OP_SWAP, .code .OP_CHECKSIG]

set_option maxRecDepth 100000 in
example : ∃ e g, generate id exampleDecl exampleProg = .ok (e, g) ∧ e.map Emit.op = exampleOps ∧
    declOk exampleDecl ∧ WellNested exampleProg ∧ progOk false exampleProg = true ∧
    Named.run (exampleSpendEnv (some true)) [[⟨"claim", true⟩]] exampleProg []
      (start (inputsOf exampleDecl "Claim") [[1], [7, 7], [1]]) = .ok ⟨[⟨[1], none⟩], []⟩ ∧
    Named.run (exampleSpendEnv (some true)) [[⟨"claim", true⟩]] exampleProg []
      (start (inputsOf exampleDecl "Claim") [[1], [7, 6], [1]]) = .fail ∧
    Named.run (exampleSpendEnv (some true)) [[⟨"claim", false⟩]] exampleProg []
      (start (inputsOf exampleDecl "Refund") [[1], []]) = .ok ⟨[⟨[1], none⟩], []⟩ := by
  refine ⟨_, _, rfl, rfl, ⟨by decide, ?_, ?_⟩, ?_, by decide +kernel, by decide +kernel, by decide +kernel,
    by decide +kernel⟩
  · intro i hi
    simp only [exampleDecl, List.mem_cons, List.not_mem_nil, or_false] at hi
    rcases hi with rfl | rfl | rfl <;> decide +kernel
  · intro i hi vs hvs
    simp only [exampleDecl, List.mem_cons, List.not_mem_nil, or_false] at hi
    rcases hi with rfl | rfl | rfl <;> cases hvs <;> simp [exampleDecl]
  · simp [exampleProg, WellNested, opens, isElse, closes]

/-- A run of a balanced script that obeys the condition is not undecided. -/
theorem balanced_decided (env : Vm.Env) (order : List (String × VState) → List (String × VState))
    (horder : ∀ l, (order l).Perm l) (d : Decl) (p : Prog) (e : List Emit) (g : Gen)
    (hgen : generate order d p = .ok (e, g))
    (hd : declOk d) (hp : WellNested p) (hok : progOk false p = true)
    (v : String) (cond : Predicate) (hv : (v, cond) ∈ variantsOf d) (hbal : Balanced d v cond p)
    (values : List Bytes) (hlen : values.length = (inputsOf d v).length)
    (hob : Obeys env cond p [] (start (inputsOf d v) values)) :
    Named.run env cond p [] (start (inputsOf d v) values) ≠ .undecided := by
  unfold generate at hgen
  obtain ⟨states, hinit, hrun⟩ := Res.bind_eq_ok.mp hgen
  have hstates := initial_spec d hd states hinit
  subst hstates
  have hperm := horder (canon (variantsOf d) (inputsOf d))
  have hcond : cond.holds [] = true := by
    cases cond with
    | nil => rfl
    | cons c cs => simp [Predicate.holds]
  obtain ⟨N', hN⟩ := Option.isSome_iff_exists.mp hbal
  have hnames : (start (inputsOf d v) values).names = ⟨((inputsOf d v).map some).reverse, []⟩ := by
    simp only [start, LState.names, List.map_reverse, List.map_nil, Names.mk.injEq, and_true, List.reverse_inj]
    generalize inputsOf d v = ns at hlen
    clear hob hN
    induction ns generalizing values with
    | nil => cases values <;> simp at hlen ⊢
    | cons n ns ih =>
      cases values with
      | nil => simp at hlen
      | cons x xs => simp [ih xs (by simpa using hlen)]
  exact prog_balanced env p none _ g e hp hok
    (canon_good d hd _ (fun q hq => hperm.mem_iff.mp hq))
    ((hperm.map Prod.fst).nodup_iff.mpr (canon_keys d hd)) (by simp) hrun v cond _ N'
    (canon_tracks d v cond hv values hlen _ (fun q hq => hperm.mem_iff.mpr hq)) hcond (by simp)
    (by rw [hnames]; exact hN) hob

/-- **C60** (partial): if wherever the variant's condition allows both branches of a conditional these leave items of
the same names (`Balanced`, a property of the written script alone), every run that takes only branches allowed by the
condition does what is written.

Missing: `declOk`, `progOk`; without `Balanced` or `Obeys` the claim is false (`C60_conditional_fails`,
`C60_disallowed_fails`). -/
theorem C60_balanced_partial (env : Vm.Env) (order : List (String × VState) → List (String × VState))
    (horder : ∀ l, (order l).Perm l) (d : Decl) (p : Prog) (e : List Emit) (g : Gen)
    (hgen : generate order d p = .ok (e, g))
    (hd : declOk d) (hp : WellNested p) (hok : progOk false p = true)
    (v : String) (cond : Predicate) (hv : (v, cond) ∈ variantsOf d) (hbal : Balanced d v cond p)
    (values : List Bytes) (hlen : values.length = (inputsOf d v).length)
    (hob : Obeys env cond p [] (start (inputsOf d v) values)) :
    ∃ script, serializeOps (e.map Emit.op) = .ok script ∧
      Faithful env p (start (inputsOf d v) values) script :=
  C60_names_partial env order horder d p e g hgen hd hp hok v cond hv values hlen
    (balanced_decided env order horder d p e g hgen hd hp hok v cond hv hbal values hlen hob)

theorem obeys_nil (env : Vm.Env) (p : Prog) (known : List Atom) (s : LState) : Obeys env [] p known s := by
  induction p generalizing known s with
  | nil => trivial
  | leaf l rest ih => intro s' _; exact ih known s'
  | scriptIf i t e el en rest iht ihe ihr =>
    intro x top st _ _ _
    refine ⟨rfl, ?_⟩
    split
    · exact ⟨iht _ _, fun s' _ => ihr _ s'⟩
    · exact ⟨ihe _ _, fun s' _ => ihr _ s'⟩

/-- **C60** (partial): a script without variants in which the branches of each conditional leave items of the same
names does what is written, for all values of its inputs. Missing: `declOk`, `progOk`. -/
theorem C60_without_variants_partial (env : Vm.Env) (order : List (String × VState) → List (String × VState))
    (horder : ∀ l, (order l).Perm l) (d : Decl) (p : Prog) (e : List Emit) (g : Gen)
    (hgen : generate order d p = .ok (e, g)) (hnone : d.variants = [])
    (hd : declOk d) (hp : WellNested p) (hok : progOk false p = true) (hbal : Balanced d d.inputStruct [] p)
    (values : List Bytes) (hlen : values.length = (inputsOf d d.inputStruct).length) :
    ∃ script, serializeOps (e.map Emit.op) = .ok script ∧
      Faithful env p (start (inputsOf d d.inputStruct) values) script :=
  C60_balanced_partial env order horder d p e g hgen hd hp hok d.inputStruct []
    (by rw [variantsOf, if_pos hnone]; exact List.mem_singleton_self _) hbal values hlen (obeys_nil env p [] _)

/-- Non-vacuity: one of two digests is checked, depending on an input; both branches leave `digest`. -/
def balancedDecl : Decl where
  inputStruct := "Inputs"
  variants := []
  inputs := [⟨"secret", none⟩, ⟨"old", none⟩]

def balancedProg : Prog :=
  .scriptIf ⟨.op .OP_IF, some [.ident "old"], none⟩
    (.leaf (.opcode ⟨.op .OP_SHA1, some [.ident "secret"], some ["digest"]⟩) .nil)
    (some ⟨.op .OP_ELSE, none, none⟩)
    (.leaf (.opcode ⟨.op .OP_SHA256, some [.ident "secret"], some ["once"]⟩)
      (.leaf (.opcode ⟨.op .OP_SHA256, some [.ident "once"], some ["digest"]⟩) .nil))
    ⟨.op .OP_ENDIF, none, none⟩
    (.leaf (.push (.pushByteArray [7, 7] true) (some "expected"))
      (.leaf (.opcode ⟨.op .OP_EQUAL, some [.ident "digest", .ident "expected"], none⟩) .nil))

set_option maxRecDepth 100000 in
example : ∃ e g, generate id balancedDecl balancedProg = .ok (e, g) ∧ balancedDecl.variants = [] ∧
    declOk balancedDecl ∧ WellNested balancedProg ∧ progOk false balancedProg = true ∧
    Balanced balancedDecl "Inputs" [] balancedProg ∧
    exec (exampleSpendEnv (some true)) balancedProg (start (inputsOf balancedDecl "Inputs") [[7, 7], [1]]) =
      .ok ⟨[⟨[1], none⟩], []⟩ ∧
    exec (exampleSpendEnv (some true)) balancedProg (start (inputsOf balancedDecl "Inputs") [[7, 6], []]) =
      .ok ⟨[⟨[], none⟩], []⟩ := by
  refine ⟨_, _, rfl, rfl, ⟨by decide, ?_, ?_⟩, ?_, by decide +kernel, by decide +kernel, by decide +kernel,
    by decide +kernel⟩
  · intro i hi
    simp only [balancedDecl, List.mem_cons, List.not_mem_nil, or_false] at hi
    rcases hi with rfl | rfl <;> decide +kernel
  · intro i hi vs hvs
    simp only [balancedDecl, List.mem_cons, List.not_mem_nil, or_false] at hi
    rcases hi with rfl | rfl <;> cases hvs
  · simp [balancedProg, WellNested, opens, isElse, closes]

/-- Non-vacuity: the script with variants above is balanced, and the runs of either variant obey its condition. -/
example : Balanced exampleDecl "Claim" [[⟨"claim", true⟩]] exampleProg ∧
    Balanced exampleDecl "Refund" [[⟨"claim", false⟩]] exampleProg := by decide +kernel

example (env : Vm.Env) : Obeys env [[⟨"claim", true⟩]] exampleProg []
    (start (inputsOf exampleDecl "Claim") [[1], [7, 7], [1]]) := by
  intro x top st hx hst _
  cases hx
  have hst : [(⟨[1], some "claim"⟩ : LItem), ⟨[7, 7], some "secret"⟩, ⟨[1], some "sig"⟩] = top :: st := hst
  cases hst
  refine ⟨by decide +kernel, ?_⟩
  rw [if_pos (by decide +kernel)]
  simp [exampleProg, Obeys]

/-! ### The restrictions are needed -/

/-- The macro accepts a script of well-nested statements, but for some variant, order of variants and
inputs the generated script does not do what is written. -/
def Spec.Named.AcceptedWrongly (d : Decl) (p : Prog) : Prop :=
  ∃ order : List (String × VState) → List (String × VState), (∀ l, (order l).Perm l) ∧
    ∃ e g, generate order d p = .ok (e, g) ∧ WellNested p ∧
    ∃ v cond values, (v, cond) ∈ variantsOf d ∧ values.length = (inputsOf d v).length ∧
      ∀ env script, ¬ Faithful env p (start (inputsOf d v) values) script

/-- A script without variants. -/
def plainDecl (inputs : List String) : Decl := ⟨"Inputs", [], inputs.map fun n => ⟨n, none⟩⟩

def opStmt (o : Opcode) (ins : Option (List String)) (outs : Option (List String)) : Leaf :=
  .opcode ⟨.op o, ins.map fun l => l.map OpcodeInput.ident, outs⟩

/-- Proves a violation by computing a wrong name. -/
theorem wrongly (d : Decl) (p : Prog) (e : List Emit) (g : Gen) (h : generate id d p = .ok (e, g))
    (hw : WellNested p) (v : String) (cond : Predicate) (values : List Bytes) (hv : (v, cond) ∈ variantsOf d)
    (hl : values.length = (inputsOf d v).length)
    (hm : ∀ env, exec env p (start (inputsOf d v) values) = .mismatch) : Spec.Named.AcceptedWrongly d p := by
  refine ⟨id, fun _ => List.Perm.refl _, e, g, h, hw, v, cond, values, hv, hl, ?_⟩
  intro env script hf
  unfold Faithful at hf
  rw [hm env] at hf
  exact hf

/-- **C60** fails for OP_PICK with a depth that is not known statically: it is taken to be 0. Here, the
copy of `a` is taken for one of `b`. -/
theorem C60_pick_fails : Spec.Named.AcceptedWrongly (plainDecl ["a", "b"])
    (plain [.push (.pushInteger 1) (some "k"), opStmt .OP_PICK (some ["k"]) none,
      opStmt .OP_DROP (some ["b"]) none]) :=
  wrongly _ _ _ _ rfl (by simp [plain, WellNested, opStmt, opens, isElse, closes]) "Inputs" [] [[1], [2]]
    (by decide) rfl fun _ => rfl

/-- **C60** fails for `depth_of_offset` before OP_PICK: the offset is not added to the recorded depth. -/
theorem C60_offset_pick_fails : Spec.Named.AcceptedWrongly (plainDecl ["a", "b"])
    (plain [.opcode ⟨.depthOfOffset, some [.ident "b", .expr "1" 1], none⟩, opStmt .OP_PICK none none,
      opStmt .OP_DROP (some ["b"]) none]) :=
  wrongly _ _ _ _ rfl (by simp [plain, WellNested, opStmt, opens, isElse, closes]) "Inputs" [] [[1], [2]]
    (by decide) rfl fun _ => rfl

/-- **C60** fails for OP_SIZE without output names: the size is recorded under the name of the item. -/
theorem C60_size_fails : Spec.Named.AcceptedWrongly (plainDecl ["a"])
    (plain [opStmt .OP_SIZE none none, opStmt .OP_DROP (some ["a"]) none]) :=
  wrongly _ _ _ _ rfl (by simp [plain, WellNested, opStmt, opens, isElse, closes]) "Inputs" [] [[1]]
    (by decide) rfl fun _ => rfl

/-- **C60** fails for OP_SIZE with `__` as the second output name, likewise. -/
theorem C60_size_placeholder_fails : Spec.Named.AcceptedWrongly (plainDecl ["a"])
    (plain [opStmt .OP_SIZE (some ["a"]) (some ["__", "__"]), opStmt .OP_DROP (some ["a"]) none]) :=
  wrongly _ _ _ _ rfl (by simp [plain, WellNested, opStmt, opens, isElse, closes]) "Inputs" [] [[1]]
    (by decide) rfl fun _ => rfl

/-- **C60** fails for `depth_of` with two output names, which is accepted. -/
theorem C60_depth_names_fails : Spec.Named.AcceptedWrongly (plainDecl ["a"])
    (plain [.opcode ⟨.depthOf, some [.ident "a"], some ["x", "y"]⟩]) :=
  wrongly _ _ _ _ rfl (by simp [plain, WellNested, opens, isElse, closes]) "Inputs" [] [[1]]
    (by decide) rfl fun _ => rfl

/-- **C60** fails if a script uses a name the macro makes up for an unnamed item. -/
theorem C60_reserved_fails : Spec.Named.AcceptedWrongly (plainDecl [])
    (plain [.push (.pushInteger 5) none, opStmt .OP_TOALTSTACK (some ["__id_0"]) none]) :=
  wrongly _ _ _ _ rfl (by simp [plain, WellNested, opStmt, opens, isElse, closes]) "Inputs" [] []
    (by decide) rfl fun _ => rfl

/-- **C60** fails for naming an unnamed item with OP_TOALTSTACK: it still counts as unnamed, and items
that are unnamed in one variant are confused with it. -/
theorem C60_toalt_fails : Spec.Named.AcceptedWrongly
    ⟨"Inputs", [("B", [[⟨"c", false⟩]]), ("A", [[⟨"c", true⟩]])], [⟨"c", none⟩]⟩
    (.scriptIf ⟨.op .OP_IF, some [.ident "c"], none⟩
      (plain [.push (.pushInteger 5) none, opStmt .OP_TOALTSTACK none (some ["x"])])
      (some ⟨.op .OP_ELSE, none, none⟩)
      (plain [.push (.pushInteger 5) none, opStmt .OP_TOALTSTACK none none])
      ⟨.op .OP_ENDIF, none, none⟩
      (plain [opStmt .OP_FROMALTSTACK (some ["x"]) none])) :=
  wrongly _ _ _ _ rfl (by simp [plain, WellNested, opStmt, opens, isElse, closes]) "B" [[⟨"c", false⟩]] [[]]
    (by decide) rfl fun _ => rfl

/-- **C60** fails for a conditional in a script without variants, if the branches leave different
stacks: only the second branch is tracked. -/
theorem C60_conditional_fails : Spec.Named.AcceptedWrongly (plainDecl ["a", "c"])
    (.scriptIf ⟨.op .OP_IF, some [.ident "c"], none⟩ (plain [.push (.pushInteger 5) (some "x")]) none .nil
      ⟨.op .OP_ENDIF, none, none⟩ (plain [opStmt .OP_DROP (some ["a"]) none])) :=
  wrongly _ _ _ _ rfl (by simp [plain, WellNested, opStmt, opens, isElse, closes]) "Inputs" [] [[1], [1]]
    (by decide) rfl fun _ => rfl

/-- **C60** fails for inputs that take a branch the condition of their variant does not allow: the names of the branch
are not tracked. -/
theorem C60_disallowed_fails : Spec.Named.AcceptedWrongly
    ⟨"Inputs", [("A", [[⟨"c", true⟩]])], [⟨"a", none⟩, ⟨"c", none⟩]⟩
    (.scriptIf ⟨.op .OP_IF, some [.ident "c"], none⟩ .nil (some ⟨.op .OP_ELSE, none, none⟩)
      (plain [.push (.pushInteger 5) (some "x")]) ⟨.op .OP_ENDIF, none, none⟩ (plain [opStmt .OP_DROP (some ["a"]) none])) :=
  wrongly _ _ _ _ rfl (by simp [plain, WellNested, opStmt, opens, isElse, closes]) "A" [[⟨"c", true⟩]] [[1], []]
    (by decide) rfl fun _ => rfl

/-! ## C61: inputs -/

theorem inputNames_eq (d : Decl) (hd : declOk d) (v : String) : inputNames d v = inputsOf d v := by
  unfold inputNames inputsOf
  have key : ∀ is : List Input, (∀ i ∈ is, i ∈ d.inputs) →
      (is.flatMap fun i => match i.variants with
        | none => [i.name]
        | some vs => if d.variants.isEmpty then [i.name] else (vs.filter (· == v)).map fun _ => i.name) =
      (is.filter fun i => i.variants.all fun vs => vs.contains v).map Input.name := by
    intro is
    induction is with
    | nil => intro _; rfl
    | cons i is ih =>
      intro hi
      rw [List.flatMap_cons, ih (fun j hj => hi j (by simp [hj])), List.filter_cons]
      cases hv : i.variants with
      | none => simp
      | some vs =>
        obtain ⟨hn, hne⟩ := hd.2.2 i (hi i (by simp)) vs hv
        have hne' : d.variants.isEmpty = false := by
          cases hdv : d.variants with
          | nil => exact (hne hdv).elim
          | cons a as => rfl
        simp only [hne', Bool.false_eq_true, if_false, Option.all_some]
        have hc : (vs.filter (· == v)).map (fun _ => i.name) = if vs.contains v then [i.name] else [] := by
          have : vs.filter (· == v) = List.replicate (vs.count v) v := List.filter_beq v
          rw [this, List.map_replicate]
          by_cases hm : v ∈ vs
          · rw [List.count_eq_one_of_mem hn hm]
            simp [hm]
          · rw [List.count_eq_zero.mpr hm]
            simp [hm]
        rw [hc]
        split <;> simp
  exact key d.inputs fun i hi => hi

/-- **C61**: the generated inputs of a variant push its fields in the order of their declaration, so that
the script starts on exactly the named stack it was written for. `fields` are the pushes of the field
values, `values` the items they push. -/
theorem C61_inputs (env : Vm.Env) (d : Decl) (hd : declOk d) (v : String)
    (fields : String → Op Bytes) (values : String → Bytes)
    (hf : ∀ x ∈ inputsOf d v, (fields x).WellFormed ∧ Vm.item (fields x) = some (values x)) :
    ∃ script, serializeOps ((inputNames d v).map fields) = .ok script ∧
      Vm.Runs env script ⟨[], []⟩ (some (start (inputsOf d v) ((inputsOf d v).map values)).erase) := by
  rw [inputNames_eq d hd v, start_erase _ _ (by simp)]
  have := C58_pushes env ((inputsOf d v).map fields) ((inputsOf d v).map values)
    (by
      intro op hop
      obtain ⟨x, hx, rfl⟩ := List.mem_map.mp hop
      exact (hf x hx).1)
    (by
      rw [List.map_map, List.map_map]
      apply List.map_congr_left
      intro x hx
      exact (hf x hx).2)
    ⟨[], []⟩
  simpa using this

/-- Non-vacuity: the first variant of the example. -/
example : inputsOf exampleDecl "Claim" = ["sig", "secret", "claim"] ∧
    inputsOf exampleDecl "Refund" = ["sig", "claim"] ∧
    start (inputsOf exampleDecl "Refund") [[5], []] = ⟨[⟨[], some "claim"⟩, ⟨[5], some "sig"⟩], []⟩ := by
  decide +kernel

/-- Without `declOk`: in a script without variants, an input with an empty list of variants is pushed by
the inputs but not known to the script. -/
theorem C61_empty_list_fails : ∃ d : Decl, initialStates d = .ok [("Inputs", ⟨[], [], []⟩)] ∧
    inputNames d "Inputs" = ["a"] :=
  ⟨⟨"Inputs", [], [⟨"a", some []⟩]⟩, rfl, rfl⟩

/-- **C60** and **C61** together: spending with the generated inputs runs the written script. -/
theorem C61_spend (env : Vm.Env) (order : List (String × VState) → List (String × VState))
    (horder : ∀ l, (order l).Perm l) (d : Decl) (p : Prog) (e : List Emit) (g : Gen)
    (hgen : generate order d p = .ok (e, g))
    (hd : declOk d) (hp : WellNested p) (hok : progOk false p = true)
    (v : String) (cond : Predicate) (hv : (v, cond) ∈ variantsOf d)
    (fields : String → Op Bytes) (values : String → Bytes)
    (hf : ∀ x ∈ inputsOf d v, (fields x).WellFormed ∧ Vm.item (fields x) = some (values x))
    (hdec : Named.run env cond p [] (start (inputsOf d v) ((inputsOf d v).map values)) ≠ .undecided) :
    ∃ unlocking locking, serializeOps ((inputNames d v).map fields) = .ok unlocking ∧
      serializeOps (e.map Emit.op) = .ok locking ∧
      (Vm.Accepts env unlocking locking ↔
        ∃ top rest alt, exec env p (start (inputsOf d v) ((inputsOf d v).map values)) =
          .ok ⟨top :: rest, alt⟩ ∧ Vm.truthy top.value = true) := by
  obtain ⟨ul, h1, h2⟩ := C61_inputs env d hd v fields values hf
  obtain ⟨lk, h3, h4⟩ := C60_names_partial env order horder d p e g hgen hd hp hok v cond hv
    ((inputsOf d v).map values) (by simp) hdec
  refine ⟨ul, lk, h1, h3, ?_⟩
  have hst : (start (inputsOf d v) ((inputsOf d v).map values)).erase =
      ⟨(start (inputsOf d v) ((inputsOf d v).map values)).erase.stack, []⟩ := by
    rw [start_erase _ _ (by simp)]
  unfold Faithful at h4
  constructor
  · rintro ⟨s1, s2, top, rest, r1, r2, r3, r4⟩
    have e1 := runs_unique env ul ⟨[], []⟩ _ _ h2 r1
    cases e1
    rw [← hst] at r2
    split at h4
    · next s' he =>
      have e2 := runs_unique env lk _ _ _ h4 r2
      cases e2
      obtain ⟨stack, alt⟩ := s'
      cases stack with
      | nil => cases r3
      | cons t ts =>
        simp only [LState.erase, List.map_cons, List.cons.injEq] at r3
        exact ⟨t, ts, alt, he, by rw [r3.1]; exact r4⟩
    · next he =>
      have e2 := runs_unique env lk _ _ _ h4 r2
      cases e2
    · exact h4.elim
  · rintro ⟨top, rest, alt, he, ht⟩
    rw [he] at h4
    dsimp only at h4
    exact ⟨_, _, top.value, rest.map LItem.value, h2, by rw [← hst]; exact h4, rfl, ht⟩

/-- **C61** without variants: if the branches of each conditional leave items of the same names, for all values of the
fields. -/
theorem C61_without_variants (env : Vm.Env) (order : List (String × VState) → List (String × VState))
    (horder : ∀ l, (order l).Perm l) (d : Decl) (p : Prog) (e : List Emit) (g : Gen)
    (hgen : generate order d p = .ok (e, g))
    (hd : declOk d) (hp : WellNested p) (hok : progOk false p = true)
    (hnone : d.variants = []) (hbal : Balanced d d.inputStruct [] p)
    (fields : String → Op Bytes) (values : String → Bytes)
    (hf : ∀ x ∈ inputsOf d d.inputStruct, (fields x).WellFormed ∧ Vm.item (fields x) = some (values x)) :
    ∃ unlocking locking, serializeOps ((inputNames d d.inputStruct).map fields) = .ok unlocking ∧
      serializeOps (e.map Emit.op) = .ok locking ∧
      (Vm.Accepts env unlocking locking ↔
        ∃ top rest alt, exec env p (start (inputsOf d d.inputStruct) ((inputsOf d d.inputStruct).map values)) =
          .ok ⟨top :: rest, alt⟩ ∧ Vm.truthy top.value = true) :=
  have hv : (d.inputStruct, []) ∈ variantsOf d := by rw [variantsOf, if_pos hnone]; exact List.mem_singleton_self _
  C61_spend env order horder d p e g hgen hd hp hok d.inputStruct [] hv fields values hf
    (balanced_decided env order horder d p e g hgen hd hp hok d.inputStruct [] hv hbal _ (by simp) (obeys_nil env p [] _))

/-- Non-vacuity: a claim with the right secret and one with a wrong one. -/
example : exec (exampleSpendEnv (some true)) exampleProg
      (start (inputsOf exampleDecl "Claim") [[1], [7, 7], [1]]) = .ok ⟨[⟨[1], none⟩], []⟩ ∧
    exec (exampleSpendEnv (some true)) exampleProg
      (start (inputsOf exampleDecl "Claim") [[1], [7, 6], [1]]) = .fail ∧
    exec (exampleSpendEnv (some false)) exampleProg
      (start (inputsOf exampleDecl "Claim") [[1], [7, 7], [1]]) = .ok ⟨[⟨[], none⟩], []⟩ := by
  decide +kernel

/-! ## C62: the operations of a script -/

/-- What a statement stands for: a push is itself, an opcode its code, `depth_of` some number, and
`transmute` nothing. -/
inductive Spec.Macro.Emits : Leaf → List (Op Bytes) → Prop where
  | push (op : Op Bytes) (name : Option String) : Emits (.push op name) [op]
  | code (o : Opcode) (i : Option (List OpcodeInput)) (n : Option (List String)) :
      Emits (.opcode ⟨.op o, i, n⟩) [.code o]
  | depth (i : Option (List OpcodeInput)) (n : Option (List String)) (k : Int) :
      Emits (.opcode ⟨.depthOf, i, n⟩) [.pushInteger k]
  | depthOffset (i : Option (List OpcodeInput)) (n : Option (List String)) (k : Int) :
      Emits (.opcode ⟨.depthOfOffset, i, n⟩) [.pushInteger k]
  | transmute (i : Option (List OpcodeInput)) (n : Option (List String)) : Emits (.opcode ⟨.transmute, i, n⟩) []

namespace GenProofs

theorem runOpcode_emits (stmt : OpcodeStmt) (g g' : Gen) (e : List Emit)
    (h : runOpcode stmt g = .ok (e, g')) : Spec.Macro.Emits (.opcode stmt) (e.map Emit.op) := by
  obtain ⟨hd, i, n⟩ := stmt
  cases hd with
  | depthOf =>
    simp only [runOpcode] at h
    split at h
    · obtain ⟨_, _, _, _, _, _, q, _⟩ := runDepthOf_ok h
      rw [q]; exact .depth _ _ _
    · cases h
  | depthOfOffset =>
    simp only [runOpcode] at h
    split at h
    · obtain ⟨_, _, _, _, _, _, q, _⟩ := runDepthOf_ok h
      rw [q]; exact .depthOffset _ _ _
    · cases h
  | transmute =>
    simp only [runOpcode, runTransmute] at h
    split at h
    · replace h := of_ite_err h
      obtain ⟨_, _, h⟩ := Res.bind_eq_ok.mp h
      cases h
      exact .transmute _ _
    · cases h
  | unknown => cases h
  | op o =>
    have other : ∀ o, runOther o ⟨.op o, i, n⟩ g = .ok (e, g') → e.map Emit.op = [.code o] := by
      intro o h
      unfold runOther at h
      split at h
      · cases h
      · obtain ⟨⟨_, _⟩, _, h⟩ := Res.bind_eq_ok.mp h
        obtain ⟨_, _, h⟩ := Res.bind_eq_ok.mp h
        obtain ⟨⟨_, _⟩, _, h⟩ := Res.bind_eq_ok.mp h
        cases h
        rfl
    have pick : ∀ o r, runPickRoll o r ⟨.op o, i, n⟩ g = .ok (e, g') → e.map Emit.op = [.code o] := by
      intro o r h
      unfold runPickRoll at h
      obtain ⟨⟨_, _⟩, _, h⟩ := Res.bind_eq_ok.mp h
      obtain ⟨_, _, h⟩ := Res.bind_eq_ok.mp h
      obtain ⟨_, _, h⟩ := Res.bind_eq_ok.mp h
      obtain ⟨⟨_, _⟩, _, h⟩ := Res.bind_eq_ok.mp h
      obtain ⟨_, _, h⟩ := Res.bind_eq_ok.mp h
      cases h
      rfl
    have : e.map Emit.op = [.code o] := by
      unfold runOpcode at h
      dsimp only at h
      split at h
      · next q =>
        cases q
        obtain ⟨⟨_, _⟩, _, h⟩ := Res.bind_eq_ok.mp h
        obtain ⟨_, _, h⟩ := Res.bind_eq_ok.mp h
        obtain ⟨_, _, h⟩ := Res.bind_eq_ok.mp h
        cases h; rfl
      · next q =>
        cases q
        obtain ⟨⟨_, _⟩, _, h⟩ := Res.bind_eq_ok.mp h
        obtain ⟨_, _, h⟩ := Res.bind_eq_ok.mp h
        obtain ⟨_, _, h⟩ := Res.bind_eq_ok.mp h
        cases h; rfl
      · next q => cases q; exact pick _ _ h
      · next q => cases q; exact pick _ _ h
      · next q =>
        cases q
        split at h
        · exact other _ h
        · cases h
      · next q => cases q
      · next q => cases q
      · next q => cases q
      · next q => cases q
    rw [this]
    exact .code _ _ _

theorem runProg_emits (p : Prog) (g g' : Gen) (e : List Emit) (h : runProg p g = .ok (e, g')) :
    ∃ es, List.Forall₂ Spec.Macro.Emits (written p) es ∧ e.map Emit.op = es.flatten := by
  induction p generalizing g g' e with
  | nil => cases h; exact ⟨[], .nil, rfl⟩
  | leaf l rest ih =>
    simp only [runProg] at h
    obtain ⟨⟨e1, g1⟩, h1, h⟩ := Res.bind_eq_ok.mp h
    obtain ⟨⟨e2, g2⟩, h2, h⟩ := Res.bind_eq_ok.mp h
    cases h
    obtain ⟨es, q1, q2⟩ := ih _ _ _ h2
    refine ⟨e1.map Emit.op :: es, .cons ?_ q1, by simp [q2]⟩
    cases l with
    | push op name => cases h1; exact .push _ _
    | opcode stmt => exact runOpcode_emits stmt _ _ _ h1
    | forLoop => cases h1
    | rustIf => cases h1
  | scriptIf i t el els en rest iht ihe ihr =>
    simp only [runProg] at h
    obtain ⟨⟨e1, g1⟩, h1, h⟩ := Res.bind_eq_ok.mp h
    obtain ⟨x, hx, h⟩ := Res.bind_eq_ok.mp h
    obtain ⟨⟨e2, gt⟩, h2, h⟩ := Res.bind_eq_ok.mp h
    obtain ⟨⟨e3, gt'⟩, h3, h⟩ := Res.bind_eq_ok.mp h
    obtain ⟨⟨e4, ge⟩, h4, h⟩ := Res.bind_eq_ok.mp h
    obtain ⟨⟨e5, ge'⟩, h5, h⟩ := Res.bind_eq_ok.mp h
    obtain ⟨states, h6, h⟩ := Res.bind_eq_ok.mp h
    obtain ⟨⟨e6, g6⟩, h7, h⟩ := Res.bind_eq_ok.mp h
    cases h
    obtain ⟨es2, a1, a2⟩ := iht _ _ _ h2
    obtain ⟨es4, b1, b2⟩ := ihe _ _ _ h4
    obtain ⟨es6, c1, c2⟩ := ihr _ _ _ h7
    obtain ⟨es3, d1, d2⟩ : ∃ es3, List.Forall₂ Spec.Macro.Emits (el.toList.map Leaf.opcode) es3 ∧
        e3.map Emit.op = es3.flatten := by
      cases el with
      | none => cases h3; exact ⟨[], .nil, rfl⟩
      | some o => exact ⟨[e3.map Emit.op], .cons (runOpcode_emits o _ _ _ h3) .nil, by simp⟩
    refine ⟨e1.map Emit.op :: (es2 ++ (es3 ++ es4)) ++ e5.map Emit.op :: es6, ?_, ?_⟩
    · exact List.rel_append (.cons (runOpcode_emits i _ _ _ h1) (List.rel_append a1 (List.rel_append d1 b1)))
        (.cons (runOpcode_emits en _ _ _ h5) c1)
    · simp [a2, b2, c2, d2]

end GenProofs

/-- **C62**: the generated script consists of the operations of the written statements, in the written
order, with nothing added, left out or moved. -/
theorem C62_statements (order : List (String × VState) → List (String × VState)) (d : Decl) (p : Prog)
    (e : List Emit) (g : Gen) (h : generate order d p = .ok (e, g)) :
    ∃ es, List.Forall₂ Spec.Macro.Emits (written p) es ∧ e.map Emit.op = es.flatten := by
  unfold generate at h
  obtain ⟨states, _, hrun⟩ := Res.bind_eq_ok.mp h
  exact runProg_emits p _ _ _ hrun

/-- Non-vacuity: the example has 14 statements and as many operations. -/
example : (written exampleProg).length = 14 ∧ exampleOps.length = 14 := by decide

end BCash
