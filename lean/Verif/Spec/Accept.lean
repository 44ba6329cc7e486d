import Verif.Spec.Named

/-! # Specification: statements the macro has to accept -/

namespace BCash.Spec.Named
open BCash.Macro BCash.Spec BCash.Spec.Macro

/-- What is asked of a statement, besides that its names are right, for the macro to accept it: OP_IFDUP
cannot be tracked; OP_DEPTH must name its result; `__` only stands for items that are taken and left
again; offsets are small; `transmute` keeps the name. -/
def acceptable : Leaf → Bool
  | .opcode ⟨.op .OP_IFDUP, _, _⟩ => false
  | .opcode ⟨.op .OP_DEPTH, _, outs⟩ => match outs with
    | some [x] => x != "__"
    | _ => false
  | .opcode ⟨.op .OP_TOALTSTACK, _, _⟩ | .opcode ⟨.op .OP_FROMALTSTACK, _, _⟩
  | .opcode ⟨.op .OP_PICK, _, _⟩ | .opcode ⟨.op .OP_ROLL, _, _⟩ => true
  | .opcode ⟨.op o, _, some outs⟩ => (outs.zip (flow o).2).all fun (w, from?) => w != "__" || from?.isSome
  | .opcode ⟨.depthOfOffset, some [_, .expr _ offset], _⟩ => -2 ^ 30 ≤ offset && offset ≤ 2 ^ 30
  | .opcode ⟨.transmute, some [.ident x, _], outs⟩ => match outs with
    | none => true
    | some [y] => y == x
    | _ => false
  | _ => true

/-- The same for a script: conditions are decided by OP_IF, and the brackets write no further names. -/
def acceptableProg : Prog → Bool
  | .nil => true
  | .leaf l rest => acceptable l && acceptableProg rest
  | .scriptIf i t e el en rest =>
    i.head == .op .OP_IF && i.outputNames.all List.isEmpty &&
    (e.toList ++ [en]).all (fun b => b.inputNames.all List.isEmpty && b.outputNames.all List.isEmpty) &&
    acceptableProg t && acceptableProg el && acceptableProg rest

/-! ## Runs of scripts with conditionals -/

/-- The name a condition is written with. -/
def conditionName (stmt : OpcodeStmt) : String :=
  match stmt.inputNames with
  | some [.ident x] => x
  | _ => ""

/-- The sequences of branches (true: the first) a variant's condition allows; `known` are the branches
around the current statement. -/
def paths (condition : Predicate) : Prog → (known : List Atom) → List (List Bool)
  | .nil, _ => [[]]
  | .leaf _ rest, known => paths condition rest known
  | .scriptIf i t _ el _ rest, known =>
    let first := known ++ [⟨conditionName i, true⟩]
    let second := known ++ [⟨conditionName i, false⟩]
    ((if condition.holds first then (paths condition t first).map (true :: ·) else []) ++
      (if condition.holds second then (paths condition el second).map (false :: ·) else [])).flatMap
        fun bs => (paths condition rest known).map (bs ++ ·)

/-- What a statement finds: the names of the items it takes; how deep the item lies it refers to. -/
structure Use where
  names : List (Option String)
  depth : Option Nat
deriving DecidableEq

def uses : Leaf → LState → Use
  | .opcode ⟨.op .OP_FROMALTSTACK, _, _⟩, s => ⟨(s.alt.take 1).map LItem.name, none⟩
  | .opcode ⟨.op .OP_TOALTSTACK, _, _⟩, s | .opcode ⟨.op .OP_PICK, _, _⟩, s
  | .opcode ⟨.op .OP_ROLL, _, _⟩, s => ⟨(s.stack.take 1).map LItem.name, none⟩
  | .opcode ⟨.op o, _, _⟩, s => ⟨(s.stack.take (flow o).1).map LItem.name, none⟩
  | .opcode ⟨_, some (.ident x :: _), _⟩, s => ⟨[], s.stack.findIdx? fun i => i.name == some x⟩
  | _, _ => ⟨[], none⟩

/-- An executed statement: its number in the script as written, what it finds, and the branch it takes. -/
structure Event where
  index : Nat
  use : Use
  branch : Option Bool
deriving DecidableEq

def Outcome.events (r : Outcome) (f : LState → List Event) : List Event :=
  match r with
  | .ok s => f s
  | _ => []

/-- The executed statements of `exec`; the first statement has number `n`. -/
def trace (env : Vm.Env) : Prog → (n : Nat) → LState → List Event
  | .nil, _, _ => []
  | .leaf l rest, n, s => ⟨n, uses l s, none⟩ :: (leaf env l s).events (trace env rest (n + 1))
  | .scriptIf _ t e el _ rest, n, s =>
    match s.stack with
    | [] => []
    | top :: st =>
      let nElse := n + 1 + (written t).length + e.toList.length
      let nRest := nElse + (written el).length + 1
      ⟨n, ⟨[top.name], none⟩, some (Vm.truthy top.value)⟩ ::
        (if Vm.truthy top.value then trace env t (n + 1) ⟨st, s.alt⟩ ++
            (exec env t ⟨st, s.alt⟩).events (trace env rest nRest)
          else trace env el nElse ⟨st, s.alt⟩ ++ (exec env el ⟨st, s.alt⟩).events (trace env rest nRest))

/-- The branches taken, in order. -/
def branches (es : List Event) : List Bool := es.filterMap Event.branch

/-- Every statement is reached by one of the variants. -/
def reached (conditions : List Predicate) : Prog → (known : List Atom) → Bool
  | .nil, _ => true
  | .leaf _ rest, known => conditions.any (·.holds known) && reached conditions rest known
  | .scriptIf i t _ el _ rest, known =>
    conditions.any (·.holds known) && reached conditions t (known ++ [⟨conditionName i, true⟩]) &&
    reached conditions el (known ++ [⟨conditionName i, false⟩]) && reached conditions rest known

/-- The run of a variant with the given input values ends well and takes the given branches. -/
def Follows (env : Vm.Env) (d : Decl) (p : Prog) (v : String) (values : List Bytes) (bs : List Bool) : Prop :=
  values.length = (inputsOf d v).length ∧ (∃ s', exec env p (start (inputsOf d v) values) = .ok s') ∧
  branches (trace env p 0 (start (inputsOf d v) values)) = bs

end BCash.Spec.Named
