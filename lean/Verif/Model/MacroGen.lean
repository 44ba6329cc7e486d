import Verif.Model.Macro
import Verif.Model.Integer

/-! # The script macro: name tracking and code generation —
`bitcoin-cash-script-macro/src/state.rs`, `generate.rs`

The generated Rust function is represented by the operations it pushes, in order, with their recorded
names. Spans, source texts, the Rust identifiers of intermediate values and the type check of the
generated calls are erased (so more scripts are accepted here than `rustc` accepts). `HashMap` is a list
of entries in iteration order. Stacks are lists with the top first. -/

namespace BCash.Macro

/-- `struct StackItem`, state.rs:7-13 (`ident` erased). -/
structure Item where
  name : String
  generated : Bool
  integer : Option Int
deriving DecidableEq, Repr

/-- `StackItem::name_tokens`, state.rs:29-37: the recorded name, if any. -/
def Item.tag (i : Item) : Option String := if i.generated then none else some i.name

/-- `struct State`, state.rs:15-20. -/
structure VState where
  condition : Predicate
  stack : List Item
  alt : List Item
deriving DecidableEq, Repr

/-- The mutable part of `GenerateScript`, generate.rs:15-23: `variant_states` (state.rs:22-26) and
`n_ident`. -/
structure Gen where
  states : List (String × VState)
  atoms : List Atom
  nIdent : Nat
deriving DecidableEq, Repr

/-- An emitted operation with the names recorded for the items it pushes: `make_tagged_op`,
generate.rs:883-918. -/
structure Emit where
  op : Op Bytes
  pushed : List (Option String)
  altPushed : List (Option String)
deriving DecidableEq, Repr

/-- `make_ident`, generate.rs:877-881: the `n`-th generated name. -/
def freshName (n : Nat) : String := "__id_" ++ toString n

namespace Gen

/-- `VariantStates::push`, state.rs:40-46. -/
def push (g : Gen) (item : Item) : Gen :=
  { g with states := g.states.map fun (v, s) =>
      if s.condition.holds g.atoms then (v, { s with stack := item :: s.stack }) else (v, s) }

/-- `VariantStates::push_alt`, state.rs:48-54. -/
def pushAlt (g : Gen) (item : Item) : Gen :=
  { g with states := g.states.map fun (v, s) =>
      if s.condition.holds g.atoms then (v, { s with alt := item :: s.alt }) else (v, s) }

/-- The check against the item of the previous variant, state.rs:75-117 and 195-238: both unnamed, or
both with the same name. -/
def consistent (prev : Option Item) (next : Item) : Bool :=
  match prev with
  | none => true
  | some p => next.generated == p.generated && (next.generated || next.name == p.name)

/-- The loop of `pick_roll` and of `pop_flagged`, state.rs:59-121, 186-241: `f` takes the item out of a
state (or fails); `prev` is `prev_item`. -/
def takeLoop (f : VState → Except String (Item × VState)) (atoms : List Atom) :
    List (String × VState) → Option Item → Except String (List (String × VState) × Option Item)
  | [], prev => .ok ([], prev)
  | (v, s) :: rest, prev =>
    if s.condition.holds atoms then
      (f s).bind fun (item, s') =>
        if consistent prev item then
          (takeLoop f atoms rest (some item)).bind fun (states, last) => .ok ((v, s') :: states, last)
        else .error "inconsistent stack item names"
    else (takeLoop f atoms rest prev).bind fun (states, last) => .ok ((v, s) :: states, last)

/-- `pick_roll` and `pop_flagged`, state.rs:56-123, 183-249: the item of the last variant is returned. -/
def take (f : VState → Except String (Item × VState)) (g : Gen) : Except String (Item × Gen) :=
  (takeLoop f g.atoms g.states none).bind fun (states, last) =>
    match last with
    | some item => .ok (item, { g with states })
    | none => .error "No variant for this op"

/-- `pop`, state.rs:188-194, 251-253. -/
def pop : Gen → Except String (Item × Gen) :=
  take fun s => match s.stack with
    | item :: stack => .ok (item, { s with stack })
    | [] => .error "Empty stack"

/-- `pop_alt`, state.rs:188-194, 255-257. -/
def popAlt : Gen → Except String (Item × Gen) :=
  take fun s => match s.alt with
    | item :: alt => .ok (item, { s with alt })
    | [] => .error "Empty stack"

/-- `pick`, state.rs:62-73, 259-261. -/
def pick (depth : Nat) : Gen → Except String (Item × Gen) :=
  take fun s => match s.stack[depth]? with
    | some item => .ok (item, s)
    | none => .error "Tried accessing too deep"

/-- `roll`, state.rs:62-73, 263-265. -/
def roll (depth : Nat) : Gen → Except String (Item × Gen) :=
  take fun s => match s.stack[depth]? with
    | some item => .ok (item, { s with stack := s.stack.eraseIdx depth })
    | none => .error "Tried accessing too deep"

/-- The loop of `find_item`, state.rs:125-181 (the depth only). -/
def findLoop (name : String) (atoms : List Atom) :
    List (String × VState) → Option Nat → Except String (Option Nat)
  | [], prev => .ok prev
  | (_, s) :: rest, prev =>
    if s.condition.holds atoms then
      match s.stack.findIdx? (fun item => item.name == name) with
      | none => .error "Couldn't find item"
      | some depth =>
        if prev.all (· == depth) then findLoop name atoms rest (some depth)
        else .error "Inconsistent item depths"
    else findLoop name atoms rest prev

/-- `find_item`, state.rs:125-181. -/
def findItem (g : Gen) (name : String) : Except String Nat :=
  (findLoop name g.atoms g.states none).bind fun r =>
    match r with
    | some depth => .ok depth
    | none => .error "No variant for this op"

end Gen

/-- `MAP_NAME_TO_ENUM`, opcode.rs:9-22: OP_0, OP_1NEGATE and the bytes 0x51 to 0xbc. -/
def inNameMap (o : Opcode) : Bool :=
  o == .OP_0 || o == .OP_1NEGATE || (0x51 ≤ o.toByte.toNat && o.toByte.toNat ≤ 0xbc)

/-- `?` on a `Result` with a text as error. -/
def lift {α : Type} : Except String α → Res String α
  | .ok a => .ok a
  | .error e => .err e

/-- An index into a slice; out of bounds is a panic. -/
def index {α : Type} (l : List α) (i : Nat) : Res String α :=
  match l[i]? with
  | some a => .ok a
  | none => .panic

/-- `verify_item_name`, generate.rs:812-837. -/
def verifyItemName (stmt : OpcodeStmt) (item : Item) : Res String Unit :=
  match stmt.inputNames with
  | none => .ok ()
  | some [input] =>
    if input.toString = item.name then .ok () else .err "Expected another top item name"
  | some _ => .err "Expected 1 argument"

/-- `update_item_name`, generate.rs:839-855: the mark of a generated name is kept. -/
def updateItemName (stmt : OpcodeStmt) (item : Item) : Res String Item :=
  match stmt.outputNames with
  | none => .ok item
  | some [name] => .ok { item with name }
  | some _ => .err "Pushes 1 item"

/-- generate.rs:435-439: popping the recorded number of items; the result has the deepest first. -/
def popN : Nat → Gen → Res String (List Item × Gen)
  | 0, g => .ok ([], g)
  | n + 1, g => (lift g.pop).bind fun (item, g) => (popN n g).bind fun (items, g) =>
      .ok (items ++ [item], g)

/-- The check of one input name, generate.rs:451-476. -/
def inputNameOk (item : Item) : OpcodeInput → Bool
  | .ident name => name == "__" || (!item.generated && item.name == name)
  | .expr _ _ => true

/-- The check of the input names, generate.rs:440-477. -/
def checkInputNames (items : List Item) (names : Option (List OpcodeInput)) : Res String Unit :=
  match names with
  | none => .ok ()
  | some names =>
    if items.length ≠ names.length then .err "Expected another number of input names"
    else if (items.zip names).all fun (item, name) => inputNameOk item name then .ok ()
    else .err "Mismatched stack item name"

/-- One named output, generate.rs:492-526. -/
def namedOutput (o : Opcode) (b : OpcodeBehavior) (items : List Item) (name : String) (idx : Nat) :
    Res String Item :=
  if name = "__" then
    if o.retainsInput then index items 0
    else match b.outputOrder with
      | some order => (index order idx).bind (index items)
      | none => .err "Cannot use `__` as output placeholder"
  else .ok ⟨name, false, none⟩

/-- The pushed items, generate.rs:478-555; also the number of identifiers made. -/
def outputItems (o : Opcode) (b : OpcodeBehavior) (items : List Item) (names : Option (List String))
    (n : Nat) : Res String (List Item × Nat) :=
  match names with
  | some names =>
    if names.length ≠ b.outputTypes.length then .err "Invalid number of output names"
    else (collect (fun (name, idx) => namedOutput o b items name idx) names.zipIdx).bind fun out =>
      .ok (out, names.length)
  | none =>
    match b.outputOrder with
    | some order => (collect (index items) order).bind fun out => .ok (out, order.length)
    | none =>
      (collect (fun i => if o.retainsInput then index items 0
          else .ok ⟨freshName (n + i), true, none⟩) (List.range b.outputTypes.length)).bind fun out =>
      .ok (out, b.outputTypes.length)

/-- `run_other_opcode`, generate.rs:424-621 (`behavior()` may panic). -/
def runOther (o : Opcode) (stmt : OpcodeStmt) (g : Gen) : Res String (List Emit × Gen) :=
  match o.behavior with
  | none => .panic
  | some b =>
    (popN b.inputTypes.length g).bind fun (items, g) =>
    (checkInputNames items stmt.inputNames).bind fun _ =>
    (outputItems o b items stmt.outputNames g.nIdent).bind fun (out, n) =>
    .ok ([⟨.code o, out.map Item.tag, []⟩],
      out.foldl Gen.push { g with nIdent := g.nIdent + n })

/-- OP_PICK and OP_ROLL, generate.rs:377-418; a depth not known statically counts as 0. -/
def runPickRoll (o : Opcode) (isRoll : Bool) (stmt : OpcodeStmt) (g : Gen) :
    Res String (List Emit × Gen) :=
  (lift g.pop).bind fun (top, g) =>
  (verifyItemName stmt top).bind fun _ =>
  (match top.integer with
    | some i => if 0 ≤ i then Res.ok i.toNat else .err "out of range integral type conversion"
    | none => .ok 0).bind fun depth =>
  (lift (if isRoll then g.roll depth else g.pick depth)).bind fun (item, g) =>
  (updateItemName stmt item).bind fun item =>
  .ok ([⟨.code o, [item.tag], []⟩], g.push item)

/-- `depth_of`, `depth_of_offset`, generate.rs:631-684; the pushed number is `depth + offset` in `i32`,
computed (and checked) when the script is built, and must be a script integer. -/
def runDepthOf (name : String) (offset : Int) (stmt : OpcodeStmt) (g : Gen) :
    Res String (List Emit × Gen) :=
  (lift (g.findItem name)).bind fun depth =>
  match Integer.new depth with
  | .error _ => .err "depth is not an integer"
  | .ok d =>
    let (out, fresh) := match stmt.outputNames with
      | some [out] => (out, 0)
      | _ => (freshName g.nIdent, 1)
    let tag := match stmt.outputNames with
      | some [out] => some out
      | _ => none
    if ¬ InI32 (d + offset) then .panic
    else match Integer.new (d + offset) with
      | .error _ => .panic
      | .ok i => .ok ([⟨.pushInteger i, [tag], []⟩],
          ({ g with nIdent := g.nIdent + fresh }).push ⟨out, stmt.outputNames.isNone, some d⟩)

/-- `transmute`, generate.rs:685-716: nothing is emitted. -/
def runTransmute (stmt : OpcodeStmt) (g : Gen) : Res String (List Emit × Gen) :=
  match stmt.inputNames with
  | some [.ident name, _] =>
    if (match stmt.outputNames with
      | some [out] => out != name
      | _ => false) then .err "Input and output name must be the same"
    else (lift (g.findItem name)).bind fun _ => .ok ([], g)
  | _ => .err "Expected 1 parameter"

/-- `run_opcode`, generate.rs:330-422, and `run_opcode_function`, generate.rs:623-717. -/
def runOpcode (stmt : OpcodeStmt) (g : Gen) : Res String (List Emit × Gen) :=
  match stmt.head with
  | .op .OP_TOALTSTACK =>
    (lift g.pop).bind fun (item, g) =>
    (verifyItemName stmt item).bind fun _ =>
    (updateItemName stmt item).bind fun item =>
    .ok ([⟨.code .OP_TOALTSTACK, [], [item.tag]⟩], g.pushAlt item)
  | .op .OP_FROMALTSTACK =>
    (lift g.popAlt).bind fun (item, g) =>
    (verifyItemName stmt item).bind fun _ =>
    (updateItemName stmt item).bind fun item =>
    .ok ([⟨.code .OP_FROMALTSTACK, [item.tag], []⟩], g.push item)
  | .op .OP_PICK => runPickRoll .OP_PICK false stmt g
  | .op .OP_ROLL => runPickRoll .OP_ROLL true stmt g
  | .op o => if inNameMap o then runOther o stmt g else .err "Unknown opcode/function"
  | .depthOf =>
    match stmt.inputNames with
    | some [.ident name] => runDepthOf name 0 stmt g
    | _ => .err "Expected 1 variable name"
  | .depthOfOffset =>
    match stmt.inputNames with
    | some [.ident name, .expr _ offset] => runDepthOf name offset stmt g
    | _ => .err "Expected 1 variable name"
  | .transmute => runTransmute stmt g
  | .unknown _ => .err "Unknown opcode/function"

/-- `run_push`, generate.rs:289-328. -/
def runPush (op : Op Bytes) (name : Option String) (g : Gen) : List Emit × Gen :=
  let (out, fresh) := match name with
    | some name => (name, 0)
    | none => (freshName g.nIdent, 1)
  ([⟨op, [name], []⟩], ({ g with nIdent := g.nIdent + fresh }).push ⟨out, name.isNone, none⟩)

/-- `run_stmt`, generate.rs:269-287, for statements other than conditionals. -/
def runLeaf (l : Leaf) (g : Gen) : Res String (List Emit × Gen) :=
  match l with
  | .push op name => .ok (runPush op name g)
  | .opcode stmt => runOpcode stmt g
  | .forLoop => .err "For loops not implemented yet"
  | .rustIf => .err "`if` not implemented yet"

/-- `states.get_mut(variant_name).unwrap()`. -/
def lookup (states : List (String × VState)) (v : String) : Res String VState :=
  match states.find? fun p => p.1 == v with
  | some p => .ok p.2
  | none => .panic

/-- The merge of the two branches, generate.rs:773-783: a variant takes the state of the then branch if
only that branch is possible for it, and the state of the else branch otherwise. -/
def merge (thenStates : List (String × VState)) (heldIf heldElse : List Atom)
    (elseStates : List (String × VState)) : Res String (List (String × VState)) :=
  collect (fun (v, s) =>
    if s.condition.holds heldIf && !s.condition.holds heldElse then
      (lookup thenStates v).bind fun t => .ok (v, t)
    else .ok (v, s)) elseStates

/-- The name of the condition, generate.rs:726-745. -/
def predicateName (stmt : OpcodeStmt) : Res String String :=
  match stmt.inputNames with
  | some (.ident name :: _) => .ok name
  | _ => .err "Must provide variable name to `OP_IF`"

/-- `run_opcode` of an optional statement. -/
def runOptional (stmt : Option OpcodeStmt) (g : Gen) : Res String (List Emit × Gen) :=
  match stmt with
  | some stmt => runOpcode stmt g
  | none => .ok ([], g)

/-- The statements of a script in order (generate.rs:131-133) with `run_if`, generate.rs:719-791. -/
def runProg : Prog → Gen → Res String (List Emit × Gen)
  | .nil, g => .ok ([], g)
  | .leaf l rest, g =>
    (runLeaf l g).bind fun (e1, g) => (runProg rest g).bind fun (e2, g) => .ok (e1 ++ e2, g)
  | .scriptIf ifOp thenStmts elseOp elseStmts endifOp rest, g =>
    (runOpcode ifOp g).bind fun (e1, g) =>
    (predicateName ifOp).bind fun name =>
    let heldIf := g.atoms ++ [⟨name, true⟩]
    let heldElse := g.atoms ++ [⟨name, false⟩]
    (runProg thenStmts { g with atoms := heldIf }).bind fun (e2, gt) =>
    (runOptional elseOp gt).bind fun (e3, gt) =>
    (runProg elseStmts { g with atoms := heldElse, nIdent := gt.nIdent }).bind fun (e4, ge) =>
    (runOpcode endifOp ge).bind fun (e5, ge) =>
    (merge gt.states heldIf heldElse ge.states).bind fun states =>
    (runProg rest { ge with states, atoms := g.atoms }).bind fun (e6, g) =>
    .ok (e1 ++ e2 ++ e3 ++ e4 ++ e5 ++ e6, g)

/-! ## Script inputs -/

/-- `struct ScriptInput`, ir.rs:42-48: name and variants. -/
structure Input where
  name : String
  variants : Option (List String)
deriving DecidableEq, Repr

/-- `struct Script`, ir.rs:5-17: the name of the input struct, variants and inputs. -/
structure Decl where
  inputStruct : String
  variants : List (String × Predicate)
  inputs : List Input
deriving DecidableEq, Repr

/-- `HashMap::insert`. -/
def insertState (states : List (String × VState)) (v : String) (s : VState) :
    List (String × VState) :=
  if states.any fun p => p.1 == v then states.map fun p => if p.1 == v then (v, s) else p
  else states ++ [(v, s)]

/-- generate.rs:50-70: the states before the inputs. -/
def emptyStates (d : Decl) : List (String × VState) :=
  if d.variants.isEmpty then [(d.inputStruct, ⟨[], [], []⟩)]
  else d.variants.foldl (fun states (v, p) => insertState states v ⟨p, [], []⟩) []

/-- generate.rs:100-119: pushing an input on the stacks of the listed variants. -/
def pushOn (item : Item) : List String → List (String × VState) → Res String (List (String × VState))
  | [], states => .ok states
  | v :: vs, states =>
    if states.any fun p => p.1 == v then
      pushOn item vs (states.map fun p => if p.1 == v then (p.1, { p.2 with stack := item :: p.2.stack })
        else p)
    else .err "Undefined variant"

/-- The loop over the inputs, generate.rs:71-130. `enum_variant_fields` has no entry if the script has
no variants (`unwrap` panics, generate.rs:112). -/
def pushInputs (noVariants : Bool) : List Input → List (String × VState) →
    Res String (List (String × VState))
  | [], states => .ok states
  | i :: is, states =>
    (match i.variants with
      | some vs =>
        (pushOn ⟨i.name, false, none⟩ vs states).bind fun states =>
          if noVariants && !vs.isEmpty then .panic else .ok states
      | none => Res.ok (states.map fun (p : String × VState) =>
          (p.1, { p.2 with stack := ⟨i.name, false, none⟩ :: p.2.stack }))).bind fun states =>
    pushInputs noVariants is states

/-- The states at the start of the script, generate.rs:50-130. (`VariantStates::push` with no known
conditions reaches every state, since predicates are never empty disjunctions of a contradiction:
`holds_nil`.) -/
def initialStates (d : Decl) : Res String (List (String × VState)) :=
  pushInputs d.variants.isEmpty d.inputs (emptyStates d)

/-- `Ops for InputStruct`, generate.rs:160-237: the inputs pushed for a variant, in declaration order; a
field is recorded once per listing (generate.rs:100-130). -/
def inputNames (d : Decl) (v : String) : List String :=
  d.inputs.flatMap fun i =>
    match i.variants with
    | none => [i.name]
    | some vs => if d.variants.isEmpty then [i.name] else (vs.filter (· == v)).map fun _ => i.name

/-- `run_script`, generate.rs:33-267: the operations of the generated script; `order` is the iteration
order of the `HashMap` of variants. -/
def generate (order : List (String × VState) → List (String × VState)) (d : Decl) (p : Prog) :
    Res String (List Emit × Gen) :=
  (initialStates d).bind fun states => runProg p ⟨order states, [], 0⟩

end BCash.Macro
