import Verif.Spec.Named
import Verif.Spec.Spend

/-! # Specification: scripts with names and code separators

Execution with names as in `Spec/Named.lean`, except that an executed OP_CODESEPARATOR changes what
signatures are checked against: from then on only the part of the script after it. -/

namespace BCash.Spec.Named
open BCash.Macro BCash.Spec

/-- OP_CODESEPARATOR. -/
def isSeparator : Leaf → Bool
  | .opcode ⟨.op .OP_CODESEPARATOR, _, _⟩ => true
  | _ => false

/-- How many code separators are written in a script, executed or not. -/
def separators : Prog → Nat
  | .nil => 0
  | .leaf l rest => (if isSeparator l then 1 else 0) + separators rest
  | .scriptIf _ thenStmts _ elseStmts _ rest =>
    separators thenStmts + separators elseStmts + separators rest

/-- The operations after code separator number `n` (from 0) of a script. -/
def afterSeparator : (n : Nat) → List (Op Bytes) → List (Op Bytes)
  | _, [] => []
  | 0, op :: ops => if op = .code .OP_CODESEPARATOR then ops else afterSeparator 0 ops
  | n + 1, op :: ops =>
    if op = .code .OP_CODESEPARATOR then afterSeparator n ops else afterSeparator (n + 1) ops

/-- Continue a run that has not stopped. -/
def andThenIn (o : Outcome × Vm.Env) (f : Vm.Env → LState → Outcome × Vm.Env) : Outcome × Vm.Env :=
  match o with
  | (.ok s, env) => f env s
  | o => o

/-- Runs a script with names; `envAt n` is the environment from code separator number `n` on, `passed` the
number of separators written before. The result is the outcome and the environment in force at the end. -/
def execFrom (envAt : Nat → Vm.Env) : Prog → (passed : Nat) → Vm.Env → LState → Outcome × Vm.Env
  | .nil, _, env, s => (.ok s, env)
  | .leaf l rest, passed, env, s =>
    if isSeparator l then andThenIn (leaf env l s, envAt passed) (execFrom envAt rest (passed + 1))
    else andThenIn (leaf env l s, env) (execFrom envAt rest passed)
  | .scriptIf ifOp thenStmts _ elseStmts _ rest, passed, env, s =>
    match ifOp.inputNames, s.stack with
    | some [.ident x], top :: st =>
      if !argOk (.ident x) top.name then (.mismatch, env)
      else
        andThenIn
          (if Vm.truthy top.value then execFrom envAt thenStmts passed env ⟨st, s.alt⟩
            else execFrom envAt elseStmts (passed + separators thenStmts) env ⟨st, s.alt⟩)
          (execFrom envAt rest (passed + separators thenStmts + separators elseStmts))
    | _, [] => (.fail, env)
    | _, _ => (.mismatch, env)

/-- The same for inputs of a variant with the given condition, as `run` is for `exec`. -/
def runFrom (envAt : Nat → Vm.Env) (condition : Predicate) :
    Prog → (passed : Nat) → (known : List Atom) → Vm.Env → LState → Outcome × Vm.Env
  | .nil, _, _, env, s => (.ok s, env)
  | .leaf l rest, passed, known, env, s =>
    if isSeparator l then
      andThenIn (leaf env l s, envAt passed) (runFrom envAt condition rest (passed + 1) known)
    else andThenIn (leaf env l s, env) (runFrom envAt condition rest passed known)
  | .scriptIf ifOp thenStmts _ elseStmts _ rest, passed, known, env, s =>
    match ifOp.inputNames, s.stack with
    | some [.ident x], top :: st =>
      if !argOk (.ident x) top.name then (.mismatch, env)
      else
        let taken := Vm.truthy top.value
        if !condition.holds (known ++ [⟨x, taken⟩]) then (.undecided, env)
        else if taken then
          andThenIn (runFrom envAt condition thenStmts passed (known ++ [⟨x, true⟩]) env ⟨st, s.alt⟩)
            fun env s' =>
              if condition.holds (known ++ [⟨x, false⟩]) &&
                  namesAfter condition elseStmts (known ++ [⟨x, false⟩]) none (LState.names ⟨st, s.alt⟩) != some s'.names then
                (.undecided, env)
              else runFrom envAt condition rest
                (passed + separators thenStmts + separators elseStmts) known env s'
        else
          andThenIn (runFrom envAt condition elseStmts (passed + separators thenStmts)
              (known ++ [⟨x, false⟩]) env ⟨st, s.alt⟩)
            (runFrom envAt condition rest (passed + separators thenStmts + separators elseStmts) known)
    | _, [] => (.fail, env)
    | _, _ => (.mismatch, env)

/-- `Obeys` for scripts with code separators: the execution takes only branches that the condition allows. -/
def ObeysFrom (envAt : Nat → Vm.Env) (condition : Predicate) :
    Prog → (passed : Nat) → (known : List Atom) → Vm.Env → LState → Prop
  | .nil, _, _, _, _ => True
  | .leaf l rest, passed, known, env, s => ∀ s', leaf env l s = .ok s' →
    if isSeparator l then ObeysFrom envAt condition rest (passed + 1) known (envAt passed) s'
    else ObeysFrom envAt condition rest passed known env s'
  | .scriptIf ifOp thenStmts _ elseStmts _ rest, passed, known, env, s =>
    ∀ x top st, ifOp.inputNames = some [.ident x] → s.stack = top :: st → argOk (.ident x) top.name = true →
      condition.holds (known ++ [⟨x, Vm.truthy top.value⟩]) = true ∧
      if Vm.truthy top.value then
        ObeysFrom envAt condition thenStmts passed (known ++ [⟨x, true⟩]) env ⟨st, s.alt⟩ ∧
          ∀ s' env', execFrom envAt thenStmts passed env ⟨st, s.alt⟩ = (.ok s', env') →
            ObeysFrom envAt condition rest (passed + separators thenStmts + separators elseStmts) known env' s'
      else
        ObeysFrom envAt condition elseStmts (passed + separators thenStmts) (known ++ [⟨x, false⟩]) env ⟨st, s.alt⟩ ∧
          ∀ s' env', execFrom envAt elseStmts (passed + separators thenStmts) env ⟨st, s.alt⟩ = (.ok s', env') →
            ObeysFrom envAt condition rest (passed + separators thenStmts + separators elseStmts) known env' s'

/-- What a script written with the macro does in an input: signatures are checked against its own bytes,
after a code separator against the bytes of the operations after it. `ops` are the operations of the
script. -/
def execScript (envOf : Bytes → Vm.Env) (p : Prog) (ops : List (Op Bytes)) (bytes : List (Op Bytes) → Bytes)
    (s : LState) : Outcome :=
  (execFrom (fun n => envOf (bytes (afterSeparator n ops))) p 0 (envOf (bytes ops)) s).1

/-- The same with the condition of a variant. -/
def runScript (envOf : Bytes → Vm.Env) (condition : Predicate) (p : Prog) (ops : List (Op Bytes))
    (bytes : List (Op Bytes) → Bytes) (s : LState) : Outcome :=
  (runFrom (fun n => envOf (bytes (afterSeparator n ops))) condition p 0 [] (envOf (bytes ops)) s).1

/-- The execution of a script in an input takes only branches that the condition of the variant allows. -/
def ObeysScript (envOf : Bytes → Vm.Env) (condition : Predicate) (p : Prog) (ops : List (Op Bytes))
    (bytes : List (Op Bytes) → Bytes) (s : LState) : Prop :=
  ObeysFrom (fun n => envOf (bytes (afterSeparator n ops))) condition p 0 [] (envOf (bytes ops)) s

end BCash.Spec.Named
