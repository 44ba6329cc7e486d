import Verif.Spec.Named
import Verif.Spec.Func
import Verif.Model.MacroType
import Mathlib.Data.List.Forall2

/-! # Specification: well-typed execution

The typed functions of the opcodes demand operands of certain types. Along an execution of a script
(`Spec/Named.lean`) every executed opcode should find such operands. -/

namespace BCash.Spec.Named
open BCash.Macro BCash.Spec

/-- A stack item is of a type; nothing is asked of items of an unspecified type. -/
def Is (t : FTy) (x : Bytes) : Prop := FHasType (fun _ _ => True) t x

/-- The opcode finds operands (`args`, deepest first) of the types its typed function demands on top of
the main stack. -/
def Operands (o : Opcode) (stack : List Bytes) (args : List Bytes) : Prop :=
  ∃ f rest, o.func = some f ∧ stack = args.reverse ++ rest ∧ List.Forall₂ Is f.params args

/-- An integer operand has more than four bytes. -/
def Oversized (o : Opcode) (args : List Bytes) : Prop :=
  ∃ f, o.func = some f ∧ ∃ p ∈ f.params.zip args, p.1 = .integer ∧ 4 < p.2.length

/-- A statement is executed on operands of the right types; if it fails, then for a reason types do not
speak of. -/
def leafTyped (env : Vm.Env) (l : Leaf) (s : LState) : Prop :=
  match l with
  | .opcode ⟨.op .OP_FROMALTSTACK, _, _⟩ => s.alt ≠ []
  | .opcode ⟨.op o, _, _⟩ => ∃ args, Operands o s.erase.stack args ∧
      (leaf env l s = .fail → ¬ Ready env o args ∨ Oversized o args)
  | _ => leaf env l s ≠ .fail

/-- Along the execution of a script every statement is executed on operands of the right types. -/
def TypesOk (env : Vm.Env) : Prog → LState → Prop
  | .nil, _ => True
  | .leaf l rest, s => leafTyped env l s ∧ ∀ s', leaf env l s = .ok s' → TypesOk env rest s'
  | .scriptIf _ t _ els _ rest, s =>
    match s.stack with
    | [] => False
    | top :: st =>
      if Vm.truthy top.value then
        TypesOk env t ⟨st, s.alt⟩ ∧ ∀ s', exec env t ⟨st, s.alt⟩ = .ok s' → TypesOk env rest s'
      else
        TypesOk env els ⟨st, s.alt⟩ ∧ ∀ s', exec env els ⟨st, s.alt⟩ = .ok s' → TypesOk env rest s'

/-- `run` for executions with types, where the items left by the two branches of a conditional may differ in type even
if they have the same names: undecided whenever a branch is taken that the condition does not allow, or a first branch
is taken although the condition also allows the second. -/
def runTyped (env : Vm.Env) (condition : Predicate) : Prog → (known : List Atom) → LState → Outcome
  | .nil, _, s => .ok s
  | .leaf l rest, known, s => (leaf env l s).andThen (runTyped env condition rest known)
  | .scriptIf ifOp thenStmts _ elseStmts _ rest, known, s =>
    match ifOp.inputNames, s.stack with
    | some [.ident x], top :: st =>
      if !argOk (.ident x) top.name then .mismatch
      else
        let taken := Vm.truthy top.value
        if !condition.holds (known ++ [⟨x, taken⟩]) then .undecided
        else if taken then
          (runTyped env condition thenStmts (known ++ [⟨x, true⟩]) ⟨st, s.alt⟩).andThen fun s =>
            if condition.holds (known ++ [⟨x, false⟩]) then .undecided
            else runTyped env condition rest known s
        else
          (runTyped env condition elseStmts (known ++ [⟨x, false⟩]) ⟨st, s.alt⟩).andThen
            (runTyped env condition rest known)
    | _, [] => .fail
    | _, _ => .mismatch

/-! ### The types a piece of a script leaves -/

/-- The types of the items, top first. -/
structure Types where
  stack : List FTy
  alt : List FTy
deriving DecidableEq

/-- The types after an opcode, by the signature of its typed function: its parameters are the types of the operands,
one type for each type parameter. -/
def callTypes (o : Opcode) (s : Types) : Option Types :=
  o.func.bind fun f =>
  (infer f.params (s.stack.take f.params.length).reverse []).bind fun σ =>
  (f.results.mapM (FTy.subst σ)).map fun rs => ⟨rs.reverse ++ s.stack.drop f.params.length, s.alt⟩

/-- The type of a pushed value. -/
def pushedType : Op Bytes → Option FTy
  | .pushInteger _ => some .integer
  | .pushBoolean _ => some .boolean
  | .pushByteArray _ _ => some .byteArray
  | _ => none

/-- The types after a statement; `depth` is the number on top, if a `depth_of` has just put it there. -/
def leafTypes (depth : Option Nat) (l : Leaf) (s : Types) : Option Types :=
  match l with
  | .push op _ => (pushedType op).map fun t => ⟨t :: s.stack, s.alt⟩
  | .opcode stmt =>
    match stmt.head with
    | .op .OP_TOALTSTACK => match s.stack with
      | t :: st => some ⟨st, t :: s.alt⟩
      | [] => none
    | .op .OP_FROMALTSTACK => match s.alt with
      | t :: alt => some ⟨t :: s.stack, alt⟩
      | [] => none
    | .op .OP_PICK => match depth, s.stack with
      | some k, _ :: st => (st[k]?).map fun t => ⟨t :: st, s.alt⟩
      | _, _ => none
    | .op .OP_ROLL => match depth, s.stack with
      | some k, _ :: st => (st[k]?).map fun t => ⟨t :: st.eraseIdx k, s.alt⟩
      | _, _ => none
    | .op o => callTypes o s
    | .depthOf | .depthOfOffset => some ⟨.integer :: s.stack, s.alt⟩
    | .transmute => some s
    | .unknown _ => none
  | _ => none

/-- The names and types left by every successful run of a variant with the given condition; none if they depend on
the branches taken. -/
def typedAfter (condition : Predicate) :
    Prog → (known : List Atom) → (depth : Option Nat) → Names → Types → Option (Names × Types)
  | .nil, _, _, n, s => some (n, s)
  | .leaf l rest, known, depth, n, s =>
    (leafNames depth l n).bind fun n' => (leafTypes depth l s).bind fun s' =>
      typedAfter condition rest known (depthLeft l n) n' s'
  | .scriptIf ifOp thenStmts _ elseStmts _ rest, known, _, n, s =>
    match ifOp.inputNames, n.stack, s.stack with
    | some [.ident x], _ :: ns, _ :: st =>
      let first := typedAfter condition thenStmts (known ++ [⟨x, true⟩]) none ⟨ns, n.alt⟩ ⟨st, s.alt⟩
      let second := typedAfter condition elseStmts (known ++ [⟨x, false⟩]) none ⟨ns, n.alt⟩ ⟨st, s.alt⟩
      let merged := match condition.holds (known ++ [Atom.mk x true]), condition.holds (known ++ [Atom.mk x false]) with
        | true, false => first
        | false, true => second
        | true, true => if first = second then second else none
        | false, false => none
      merged.bind fun r => typedAfter condition rest known none r.1 r.2
    | _, _, _ => none

/-- The declared types of the inputs of a variant. -/
def inputTypesOf (d : Decl) (types : List FTy) (v : String) : List FTy :=
  ((d.inputs.zip types).filter fun i => i.1.variants.all fun vs => vs.contains v).map Prod.snd

/-- For a variant with the given condition neither the names nor the types of the items depend on branches already
left: wherever the condition allows both branches of a conditional, they leave items of the same names and types. -/
def BalancedTypes (d : Decl) (types : List FTy) (v : String) (condition : Predicate) (p : Prog) : Prop :=
  (typedAfter condition p [] none ⟨((inputsOf d v).map some).reverse, []⟩
    ⟨(inputTypesOf d types v).reverse, []⟩).isSome = true

instance (d : Decl) (types : List FTy) (v : String) (condition : Predicate) (p : Prog) :
    Decidable (BalancedTypes d types v condition p) := by
  unfold BalancedTypes; infer_instance

/-- No name stands for values of two types. -/
def OneType (Γ : Scope) : Prop := ∀ x t t', (x, t) ∈ Γ → (x, t') ∈ Γ → t = t'

/-- The variables an operand may have been given in the variants. -/
def operandsOf : RustStmt → List (List String)
  | .bind _ _ => []
  | .call _ _ operands => operands
  | .moved operand => [operand]

/-- An operand has the same type in all variants that are possible. -/
def SameInVariants (Γ : Scope) (code : List RustStmt) : Prop :=
  ∀ s ∈ code, ∀ xs ∈ operandsOf s, ∀ x ∈ xs, ∀ y ∈ xs, Γ.type x = Γ.type y

/-- The variables a script names: those of named pushes and of named depths. -/
def letNames : Prog → List String
  | .nil => []
  | .leaf l rest => leafLets l ++ letNames rest
  | .scriptIf _ t _ els _ rest => letNames t ++ letNames els ++ letNames rest
where
  /-- the variable named by a statement -/
  leafLets : Leaf → List String
    | .push _ name => name.toList
    | .opcode ⟨.depthOf, _, some [x]⟩ => [x]
    | .opcode ⟨.depthOfOffset, _, some [x]⟩ => [x]
    | _ => []

/-- The script does not use `transmute`. -/
def noTransmute : Prog → Bool
  | .nil => true
  | .leaf (.opcode ⟨.transmute, _, _⟩) _ => false
  | .leaf _ rest => noTransmute rest
  | .scriptIf _ t _ els _ rest => noTransmute t && noTransmute els && noTransmute rest

/-! ## The code that is checked -/

/-- The types a statement writes exist: a pushed value has a type, and `transmute` names one. -/
def Resolves (tyOf : String → Option FTy) : Leaf → Prop
  | .push op _ => ∃ t, pushedType op = some t
  | l => ∀ name ty outs, l = .opcode ⟨.transmute, some [.ident name, ty], outs⟩ → ∃ t, tyOf ty.toString = some t

/-- The generated code for a statement: a push binds a variable of its type, under its name if it has one;
a depth is an integer; an item given another type is bound anew; moving items to and from the alt stack
needs no code; OP_PICK and OP_ROLL are called on the depth, and every other opcode is called on as many
operands as it takes. -/
inductive Checks (tyOf : String → Option FTy) : Leaf → List RustStmt → Prop
  | push (op : Op Bytes) (name : Option String) (x : String) (t : FTy) (ht : pushedType op = some t)
      (hx : ∀ y, name = some y → x = y) : Checks tyOf (.push op name) [.bind x t]
  | depthOf (i : Option (List OpcodeInput)) (n : Option (List String)) (x : String) :
      Checks tyOf (.opcode ⟨.depthOf, i, n⟩) [.bind x .integer]
  | depthOfOffset (i : Option (List OpcodeInput)) (n : Option (List String)) (x : String) :
      Checks tyOf (.opcode ⟨.depthOfOffset, i, n⟩) [.bind x .integer]
  | transmute (name : String) (ty : OpcodeInput) (n : Option (List String)) (x : String) (t : FTy)
      (ht : tyOf ty.toString = some t) :
      Checks tyOf (.opcode ⟨.transmute, some [.ident name, ty], n⟩) [.bind x t]
  | moved (o : Opcode) (ho : o = .OP_TOALTSTACK ∨ o = .OP_FROMALTSTACK) (i : Option (List OpcodeInput))
      (n : Option (List String)) (xs : List String) (hx : xs ≠ []) :
      Checks tyOf (.opcode ⟨.op o, i, n⟩) [.moved xs]
  | pickRoll (o : Opcode) (ho : o = .OP_PICK ∨ o = .OP_ROLL) (i : Option (List OpcodeInput))
      (n : Option (List String)) (ds xs : List String) (hd : ds ≠ []) (hx : xs ≠ []) :
      Checks tyOf (.opcode ⟨.op o, i, n⟩) [.call [] o [ds], .moved xs]
  | call (o : Opcode) (h1 : o ≠ .OP_TOALTSTACK) (h2 : o ≠ .OP_FROMALTSTACK) (h3 : o ≠ .OP_PICK) (h4 : o ≠ .OP_ROLL)
      (i : Option (List OpcodeInput)) (n : Option (List String)) (outs : List String)
      (operands : List (List String)) (b : OpcodeBehavior) (hb : o.behavior = some b)
      (hn : operands.length = b.inputTypes.length) (hv : ∀ xs ∈ operands, xs ≠ []) :
      Checks tyOf (.opcode ⟨.op o, i, n⟩) [.call outs o operands]

end BCash.Spec.Named
