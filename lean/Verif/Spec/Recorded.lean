import Verif.Spec.Named

/-! # Specification: the names recorded with the operations of a generated script

Every operation of a generated script carries the names of the items it leaves, deepest first, on the
main and on the alternative stack. They are compared with the names items have in an execution with
names (`Spec/Named.lean`). -/

namespace BCash.Spec.Named
open BCash.Macro BCash.Spec

/-- How many items a statement leaves on the main and on the alternative stack (items that it takes and
leaves again count). -/
def leaves : Leaf → Nat × Nat
  | .push _ _ => (1, 0)
  | .opcode ⟨.op .OP_TOALTSTACK, _, _⟩ => (0, 1)
  | .opcode ⟨.op .OP_FROMALTSTACK, _, _⟩ => (1, 0)
  | .opcode ⟨.op .OP_PICK, _, _⟩ => (1, 0)
  | .opcode ⟨.op .OP_ROLL, _, _⟩ => (1, 0)
  | .opcode ⟨.op o, _, _⟩ => ((flow o).2.length, 0)
  | .opcode ⟨.depthOf, _, _⟩ => (1, 0)
  | .opcode ⟨.depthOfOffset, _, _⟩ => (1, 0)
  | _ => (0, 0)

/-- How many operations a statement becomes. -/
def leafSize : Leaf → Nat
  | .opcode ⟨.transmute, _, _⟩ => 0
  | _ => 1

/-- How many operations a script becomes. -/
def progSize : Prog → Nat
  | .nil => 0
  | .leaf l rest => leafSize l + progSize rest
  | .scriptIf _ t el els _ rest =>
    1 + progSize t + (if el.isSome then 1 else 0) + progSize els + 1 + progSize rest

/-- The names of the topmost `n` items, deepest first. -/
def topNames (n : Nat) (stack : List LItem) : List (Option String) :=
  ((stack.take n).map LItem.name).reverse

/-- The record of the operation of a statement is right after the statement has been executed. -/
def recordOk (l : Leaf) (e : List Emit) (after : LState) : Prop :=
  ∀ x ∈ e, x.pushed = topNames (leaves l).1 after.stack ∧ x.altPushed = topNames (leaves l).2 after.alt ∧
    x.pushed.length = (leaves l).1 ∧ x.altPushed.length = (leaves l).2

/-- The brackets of a conditional leave nothing. -/
def bracketOk (e : List Emit) : Prop := ∀ x ∈ e, x.pushed = [] ∧ x.altPushed = []

/-- `e` are the operations of the script `p`, and along the execution of `p` from `s` the records of all
executed operations are right. -/
def RecordsOk (env : Vm.Env) : Prog → List Emit → LState → Prop
  | .nil, e, _ => e = []
  | .leaf l rest, e, s =>
    match leaf env l s with
    | .ok s' => (e.take (leafSize l)).length = leafSize l ∧ recordOk l (e.take (leafSize l)) s' ∧
        RecordsOk env rest (e.drop (leafSize l)) s'
    | _ => True
  | .scriptIf _ t el els _ rest, e, s =>
    let e1 := e.drop 1
    let e2 := e1.drop (progSize t)
    let e3 := e2.drop (if el.isSome then 1 else 0)
    let e4 := e3.drop (progSize els)
    bracketOk (e.take 1) ∧ bracketOk (e2.take (if el.isSome then 1 else 0)) ∧ bracketOk (e4.take 1) ∧
    match s.stack with
    | [] => True
    | top :: st =>
      if Vm.truthy top.value then
        RecordsOk env t (e1.take (progSize t)) ⟨st, s.alt⟩ ∧
        ∀ s', exec env t ⟨st, s.alt⟩ = .ok s' → RecordsOk env rest (e4.drop 1) s'
      else
        RecordsOk env els (e3.take (progSize els)) ⟨st, s.alt⟩ ∧
        ∀ s', exec env els ⟨st, s.alt⟩ = .ok s' → RecordsOk env rest (e4.drop 1) s'

end BCash.Spec.Named
