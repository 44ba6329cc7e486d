import Verif.Model.MacroGen
import Verif.Model.Func

/-! # The script macro: the type check of the generated code — `bitcoin-cash-script-macro/src/generate.rs`

Besides pushing operations, the generated function binds a Rust variable for every stack item and calls
the typed function (module `func`) of every opcode on the variables of its operands, so that `rustc`
checks the types. `Model/MacroGen.lean` erases these variables (field `ident` of `StackItem`); here they
are tracked beside it, in stacks parallel to those of `Gen`. -/

namespace BCash.Macro

/-- The field `ident` (state.rs:9) of the items on the stacks of a variant, top first. -/
structure Idents where
  stack : List String
  alt : List String
deriving DecidableEq, Repr

/-- A statement of the generated function, as far as its types are concerned. An operand is given by the
variables its item has in the variants that are possible, in iteration order; the last one is written
(state.rs:119, 239). -/
inductive RustStmt where
  /-- `let x = (..).to_data();`, generate.rs:94-96, 325-326, 678-679, 705-707 -/
  | bind (ident : String) (ty : FTy)
  /-- `let (outs) = func::o(operands);`, generate.rs:571-617, and `func::o(operand);`, 414-415 -/
  | call (outs : List String) (o : Opcode) (operands : List (List String))
  /-- no code; an item is moved or copied together with its variable, generate.rs:341-418 -/
  | moved (operand : List String)
deriving DecidableEq, Repr

/-- The variables of an item taken from the stacks of all possible variants (`act`), in iteration order,
and the stacks after it. -/
def takeIdents (f : Idents → Option (String × Idents)) :
    List Bool → List Idents → Option (List String × List Idents)
  | true :: act, i :: is =>
    (f i).bind fun (x, i) => (takeIdents f act is).map fun (xs, is) => (x :: xs, i :: is)
  | false :: act, i :: is => (takeIdents f act is).map fun (xs, is) => (xs, i :: is)
  | _, is => some ([], is)

/-- `pop`, state.rs:183-253. -/
def popIdents : List Bool → List Idents → Option (List String × List Idents) :=
  takeIdents fun i => match i.stack with
    | x :: stack => some (x, { i with stack })
    | [] => none

/-- `pop_alt`, state.rs:255-257. -/
def popAltIdents : List Bool → List Idents → Option (List String × List Idents) :=
  takeIdents fun i => match i.alt with
    | x :: alt => some (x, { i with alt })
    | [] => none

/-- `pick` and `roll`, state.rs:56-123, 259-265; also the item found by `find_item`, state.rs:125-181. -/
def pickIdents (isRoll : Bool) (depth : Nat) : List Bool → List Idents → Option (List String × List Idents) :=
  takeIdents fun i => (i.stack[depth]?).map fun x =>
    (x, if isRoll then { i with stack := i.stack.eraseIdx depth } else i)

/-- generate.rs:435-439; the result has the deepest operand first. -/
def popNIdents (act : List Bool) : Nat → List Idents → Option (List (List String) × List Idents)
  | 0, is => some ([], is)
  | n + 1, is => (popIdents act is).bind fun (xs, is) => (popNIdents act n is).map fun (xss, is) =>
      (xss ++ [xs], is)

/-- `push`, state.rs:40-46. -/
def pushIdent (x : String) : List Bool → List Idents → List Idents
  | true :: act, i :: is => { i with stack := x :: i.stack } :: pushIdent x act is
  | false :: act, i :: is => i :: pushIdent x act is
  | _, is => is

/-- `push_alt`, state.rs:48-54. -/
def pushAltIdent (x : String) : List Bool → List Idents → List Idents
  | true :: act, i :: is => { i with alt := x :: i.alt } :: pushAltIdent x act is
  | false :: act, i :: is => i :: pushAltIdent x act is
  | _, is => is

/-- The variants that are possible. -/
def Gen.active (g : Gen) : List Bool := g.states.map fun p => p.2.condition.holds g.atoms

/-- The type `(expr).to_data()` has if `(expr).to_pushop()` is the operation: data_type.rs:25-107. -/
def pushType : Op Bytes → Option FTy
  | .pushInteger _ => some .integer
  | .pushBoolean _ => some .boolean
  | .pushByteArray _ _ => some .byteArray
  | _ => none

/-- The number of results of an opcode, generate.rs:478-555. -/
def outputCount (b : OpcodeBehavior) (names : Option (List String)) : Nat :=
  match names with
  | some names => names.length
  | none => match b.outputOrder with
    | some order => order.length
    | none => b.outputTypes.length

/-- The variables of `run_opcode`, generate.rs:330-422, `run_other_opcode`, 424-621, and
`run_opcode_function`, 623-717; `tyOf` resolves the type named in a `transmute`. `none` where the macro
stops with an error. -/
def identsOpcode (tyOf : String → Option FTy) (stmt : OpcodeStmt) (g : Gen) (is : List Idents) :
    Option (List RustStmt × List Idents) :=
  match stmt.head with
  | .op .OP_TOALTSTACK =>
    (popIdents g.active is).bind fun (xs, is) => (xs.getLast?).map fun x =>
      ([.moved xs], pushAltIdent x g.active is)
  | .op .OP_FROMALTSTACK =>
    (popAltIdents g.active is).bind fun (xs, is) => (xs.getLast?).map fun x =>
      ([.moved xs], pushIdent x g.active is)
  | .op .OP_PICK => pickRoll .OP_PICK false
  | .op .OP_ROLL => pickRoll .OP_ROLL true
  | .op o => (o.behavior).bind fun b =>
    (popNIdents g.active b.inputTypes.length is).map fun (xss, is) =>
      let outs := (List.range (outputCount b stmt.outputNames)).map fun i => freshName (g.nIdent + i)
      ([.call outs o xss], outs.foldl (fun is x => pushIdent x g.active is) is)
  | .depthOf | .depthOfOffset =>
    let x := match stmt.outputNames with
      | some [out] => out
      | _ => freshName g.nIdent
    some ([.bind x .integer], pushIdent x g.active is)
  | .transmute =>
    match stmt.inputNames with
    | some [.ident name, ty] =>
      match g.findItem name with
      | .ok depth => (pickIdents false depth g.active is).bind fun (xs, _) => (xs.getLast?).bind fun x =>
          (tyOf ty.toString).map fun t => ([.bind x t], is)
      | .error _ => none
    | _ => none
  | .unknown _ => none
where
  /-- OP_PICK and OP_ROLL, generate.rs:377-418. -/
  pickRoll (o : Opcode) (isRoll : Bool) : Option (List RustStmt × List Idents) :=
    match g.pop with
    | .ok (top, _) =>
      (popIdents g.active is).bind fun (ds, is) =>
      (pickIdents isRoll (top.integer.getD 0).toNat g.active is).bind fun (xs, is) =>
      (xs.getLast?).map fun x => ([.call [] o [ds], .moved xs], pushIdent x g.active is)
    | .error _ => none

/-- The variables of `run_stmt`, generate.rs:269-287, for statements other than conditionals;
`run_push`, 289-328. -/
def identsLeaf (tyOf : String → Option FTy) (l : Leaf) (g : Gen) (is : List Idents) :
    Option (List RustStmt × List Idents) :=
  match l with
  | .push op name =>
    let x := name.getD (freshName g.nIdent)
    (pushType op).map fun t => ([.bind x t], pushIdent x g.active is)
  | .opcode stmt => identsOpcode tyOf stmt g is
  | _ => none

/-- The variables after a conditional, generate.rs:773-783. -/
def mergeIdents : (thenOnly : List Bool) → (thenIdents elseIdents : List Idents) → List Idents
  | b :: bs, t :: ts, e :: es => (if b then t else e) :: mergeIdents bs ts es
  | _, _, es => es

/-- The generated code, where the macro does not stop with an error. -/
def ok? {ε α : Type} : Res ε α → Option α
  | .ok a => some a
  | _ => none

/-- The variables of an optional statement. -/
def identsOptional (tyOf : String → Option FTy) (stmt : Option OpcodeStmt) (g : Gen) (is : List Idents) :
    Option (List RustStmt × List Idents) :=
  match stmt with
  | some stmt => identsOpcode tyOf stmt g is
  | none => some ([], is)

/-- The variants that take the state of the then branch, generate.rs:773-776. -/
def thenOnly (heldIf heldElse : List Atom) (states : List (String × VState)) : List Bool :=
  states.map fun p => p.2.condition.holds heldIf && !p.2.condition.holds heldElse

/-- The generated statements of a script, generate.rs:131-133 and 719-791: the branches of conditionals
follow each other in one scope. -/
def identsProg (tyOf : String → Option FTy) : Prog → Gen → List Idents →
    Option (List RustStmt × List Idents)
  | .nil, _, is => some ([], is)
  | .leaf l rest, g, is =>
    (ok? (runLeaf l g)).bind fun r =>
    (identsLeaf tyOf l g is).bind fun c1 =>
    (identsProg tyOf rest r.2 c1.2).map fun c2 => (c1.1 ++ c2.1, c2.2)
  | .scriptIf ifOp thenStmts elseOp elseStmts endifOp rest, g, is =>
    (ok? (runOpcode ifOp g)).bind fun r1 =>
    (ok? (predicateName ifOp)).bind fun name =>
    let heldIf := r1.2.atoms ++ [⟨name, true⟩]
    let heldElse := r1.2.atoms ++ [⟨name, false⟩]
    let gThen := { r1.2 with atoms := heldIf }
    (identsOpcode tyOf ifOp g is).bind fun c1 =>
    (ok? (runProg thenStmts gThen)).bind fun r2 =>
    (identsProg tyOf thenStmts gThen c1.2).bind fun c2 =>
    (ok? (runOptional elseOp r2.2)).bind fun r3 =>
    (identsOptional tyOf elseOp r2.2 c2.2).bind fun c3 =>
    let gElse := { r1.2 with atoms := heldElse, nIdent := r3.2.nIdent }
    (ok? (runProg elseStmts gElse)).bind fun r4 =>
    (identsProg tyOf elseStmts gElse c1.2).bind fun c4 =>
    (ok? (runOpcode endifOp r4.2)).bind fun r5 =>
    (identsOpcode tyOf endifOp r4.2 c4.2).bind fun c5 =>
    (ok? (merge r3.2.states heldIf heldElse r5.2.states)).bind fun states =>
    (identsProg tyOf rest { r5.2 with states, atoms := r1.2.atoms }
      (mergeIdents (thenOnly heldIf heldElse r5.2.states) c3.2 c5.2)).map fun c6 =>
    (c1.1 ++ c2.1 ++ c3.1 ++ c4.1 ++ c5.1 ++ c6.1, c6.2)

/-- The statements of the generated function, generate.rs:90-133: a variable for each input, of its
declared type (`inputTypes`, in the order of the inputs), then the script. -/
def generateRust (tyOf : String → Option FTy) (order : List (String × VState) → List (String × VState))
    (d : Decl) (inputTypes : List FTy) (p : Prog) : Option (List RustStmt) :=
  (ok? (initialStates d)).bind fun states =>
  (identsProg tyOf p ⟨order states, [], 0⟩
    ((order states).map fun q => ⟨q.2.stack.map Item.name, []⟩)).map fun c =>
  List.zipWith (fun (i : Input) t => .bind i.name t) d.inputs inputTypes ++ c.1

/-! ## The type checker -/

/-- The variables in scope with their types, innermost first. -/
abbrev Scope := List (String × FTy)

/-- The type of a variable. -/
def Scope.type (Γ : Scope) (x : String) : Option FTy := Γ.lookup x

/-- A type of a signature with the type parameters replaced. -/
def FTy.subst (σ : List (Nat × FTy)) : FTy → Option FTy
  | .var i => σ.lookup i
  | t => some t

/-- Inference of the type arguments of a call from the types of the operands. -/
def infer : List FTy → List FTy → List (Nat × FTy) → Option (List (Nat × FTy))
  | [], [], σ => some σ
  | .var i :: ps, t :: ts, σ =>
    match σ.lookup i with
    | none => infer ps ts ((i, t) :: σ)
    | some t' => if t = t' then infer ps ts σ else none
  | p :: ps, t :: ts, σ => if t = p then infer ps ts σ else none
  | _, _, _ => none

/-- `rustc`'s check of one statement. (Rust also checks that a variable is not used after it has been
moved into a call of `func::OP_PICK` or `func::OP_ROLL`; not modelled, so more is accepted here.) -/
def RustStmt.check (Γ : Scope) : RustStmt → Option Scope
  | .bind x t => some ((x, t) :: Γ)
  | .call outs o operands =>
    o.func.bind fun f =>
    (operands.mapM fun (xs : List String) => xs.getLast?.bind Γ.type).bind fun ts =>
    (infer f.params ts []).bind fun σ =>
    (f.results.mapM (FTy.subst σ)).bind fun rs =>
    if outs.length = rs.length then some ((outs.zip rs).reverse ++ Γ) else none
  | .moved _ => some Γ

/-- `rustc`'s check of the generated function. -/
def checkRust (Γ : Scope) : List RustStmt → Option Scope
  | [] => some Γ
  | s :: rest => (s.check Γ).bind fun Γ => checkRust Γ rest

end BCash.Macro
