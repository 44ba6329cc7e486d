import Verif.Props.MacroGen

/-! # The names recorded with the operations of a generated script -/

namespace BCash
open Spec Spec.Macro Spec.Named Macro GenProofs

/-! ## C67: recorded names -/

/-- **C67** (partial): the names recorded with the operations of a generated script (debug mode) are right.
For every variant and all values of its inputs, along the execution of the script every executed
operation has as many recorded names as items it leaves, and they are the names of these items — whatever
the iteration order of the macro's tables.

Missing: the restrictions of C60. -/
theorem C67_recorded_partial (env : Vm.Env) (order : List (String × VState) → List (String × VState))
    (horder : ∀ l, (order l).Perm l) (d : Decl) (p : Prog) (e : List Emit) (g : Gen)
    (hgen : generate order d p = .ok (e, g))
    (hd : declOk d) (hp : WellNested p) (hok : progOk false p = true)
    (v : String) (cond : Predicate) (hv : (v, cond) ∈ variantsOf d)
    (values : List Bytes) (hlen : values.length = (inputsOf d v).length)
    (hdec : Named.run env cond p [] (start (inputsOf d v) values) ≠ .undecided) :
    RecordsOk env p e (start (inputsOf d v) values) := by
  unfold generate at hgen
  obtain ⟨states, hinit, hrun⟩ := Res.bind_eq_ok.mp hgen
  have hstates := initial_spec d hd states hinit
  subst hstates
  have hperm := horder (canon (variantsOf d) (inputsOf d))
  obtain ⟨_, hrec⟩ := prog_records env p none _ g e hp hok
    (canon_good d hd _ (fun q hq => hperm.mem_iff.mp hq))
    ((hperm.map Prod.fst).nodup_iff.mpr (canon_keys d hd)) (by simp) hrun
  have hcond : cond.holds [] = true := by
    cases cond with
    | nil => rfl
    | cons c cs => simp [Predicate.holds]
  exact hrec v cond (start (inputsOf d v) values)
    (canon_tracks d v cond hv values hlen _ (fun q hq => hperm.mem_iff.mpr hq)) hcond (by simp) hdec

/-- Non-vacuity: the example of C60 (whose hypotheses are shown to hold there), and its records. -/
example : ((generate id exampleDecl exampleProg).bind fun r => .ok (r.1.map Emit.pushed)) =
    .ok [[], [some "digest"], [some "expected"], [], [], [none], [none], [], [], [some "pubkey"], [none],
      [some "sig2"], [some "sig2", some "pubkey"], [none]] := by
  decide +kernel

/-- Non-vacuity: the alternative stack; after `OP_OVER` the names of the two items and of the copy. -/
example : ((generate id (plainDecl ["a", "b"]) (plain [opStmt .OP_TOALTSTACK (some ["b"]) (some ["c"]),
      opStmt .OP_FROMALTSTACK none none, opStmt .OP_OVER none none])).bind
        fun r => .ok (r.1.map fun e => (e.pushed, e.altPushed))) =
    .ok [([], [some "c"]), ([some "c"], []), ([some "a", some "c", some "a"], [])] := by
  decide +kernel

/-- **C67** fails for OP_SIZE without output names: the recorded name of the size is that of the item. -/
theorem C67_size_fails : ∃ e g, generate id (plainDecl ["a"]) (plain [opStmt .OP_SIZE none none]) = .ok (e, g) ∧
    ∀ env, ¬ RecordsOk env (plain [opStmt .OP_SIZE none none]) e (start ["a"] [[7]]) := by
  refine ⟨_, _, rfl, ?_⟩
  rintro env ⟨_, h, _⟩
  have := (h _ (List.mem_singleton.mpr rfl)).1
  revert this
  have e1 : leaf env (opStmt .OP_SIZE none none) (start ["a"] [[7]]) =
    .ok ⟨[⟨[1], none⟩, ⟨[7], some "a"⟩], []⟩ := rfl
  intro this
  have : [some "a", some "a"] = [some "a", none] := this
  simp at this

/-- **C67** fails for naming an unnamed item with OP_TOALTSTACK: the name is not recorded. -/
theorem C67_toalt_fails : ∃ e g, generate id (plainDecl [])
      (plain [.push (.pushInteger 5) none, opStmt .OP_TOALTSTACK none (some ["x"])]) = .ok (e, g) ∧
    ∀ env, ¬ RecordsOk env (plain [.push (.pushInteger 5) none, opStmt .OP_TOALTSTACK none (some ["x"])]) e
      (start [] []) := by
  refine ⟨_, _, rfl, ?_⟩
  rintro env ⟨_, _, _, h, _⟩
  have : [none] = [some "x"] := (h _ (List.mem_singleton.mpr rfl)).2.1
  simp at this

end BCash
