import Verif.Model.MacroGen
import Verif.Model.Parse

/-! # The script macro: what it reports — the errors of
`bitcoin-cash-script-macro/src/state.rs` and `generate.rs`

`Model/MacroGen.lean` with the errors in full: which statement is reported (the position of the error, `expr_span`,
`outputs_span` or the span of an identifier, always lies in that statement) and the text of the report. The two
models are related in `Proofs/MacroDiag.lean`. -/

namespace BCash.Macro

/-- Where an item was found: so many items deep on the main stack before the statement, or on top of the alt
stack. Not part of the text. -/
inductive Place where
  | main (depth : Nat)
  | alt
deriving DecidableEq, Repr

/-- The reports. `Option String` is the name of an item, if it has one. -/
inductive Diag where
  /-- state.rs:194: in variant `v` -/
  | emptyStack (v : String) (place : Place)
  /-- state.rs:62-68; the variant `v` is not part of the text -/
  | tooDeep (v : String) (depth size : Nat)
  /-- state.rs:76-104 and 196-222: named in one of the variants only; `roll` is given for OP_PICK and OP_ROLL, with
  the depth -/
  | namedInOne (roll : Option (Nat × Bool)) (place : Place) (v : String) (n : Option String) (v' : String)
      (n' : Option String)
  /-- state.rs:105-116 and 223-236: named differently -/
  | namedDifferently (top : Bool) (place : Place) (v n v' n' : String)
  /-- state.rs:122 and 180 -/
  | noVariant
  /-- state.rs:241-248 -/
  | noVariantFor (atoms : List Atom)
  /-- state.rs:136-138 -/
  | notFound (x v : String)
  /-- state.rs:143-173: `stack` and `stack'` from the bottom -/
  | depths (x v : String) (depth : Nat) (v' : String) (depth' : Nat) (stack stack' : List String)
      (atoms : List Atom)
  /-- generate.rs:441-449 -/
  | inputCount (expected got : Nat)
  /-- generate.rs:456-463 -/
  | unnamed (x : String) (place : Place)
  /-- generate.rs:464-473 -/
  | otherName (actual x : String) (place : Place)
  /-- generate.rs:480-489 -/
  | outputCount (o : Opcode) (expected got : Nat)
  /-- generate.rs:510-516 -/
  | placeholder (o : Opcode)
  /-- generate.rs:818-824 -/
  | argCount (got : Nat)
  /-- generate.rs:825-834 -/
  | notTop (x actual : String) (place : Place)
  /-- generate.rs:845-850 -/
  | resultCount (got : Nat)
  /-- generate.rs:384-387 (`TryFromIntError`) -/
  | negativeDepth
  /-- generate.rs:658-659 (`err.to_string()`) -/
  | integer (e : IntegerError)
  /-- generate.rs:636, 641 -/
  | oneVariable
  /-- generate.rs:689-694 -/
  | sameName
  /-- generate.rs:705-709 -/
  | oneParameter (got : Option (List OpcodeInput))
  /-- generate.rs:712-715 -/
  | unknown (name : String)
  /-- generate.rs:275-278 -/
  | forLoop
  /-- generate.rs:279-282 -/
  | rustIf
  /-- generate.rs:738-743 -/
  | conditionName
  /-- generate.rs:108-110 -/
  | undefinedVariant (v : String)
  /-- `error_opcode`, generate.rs:921-923 -/
  | inOpcode (o : Opcode) (d : Diag)
deriving DecidableEq

/-- `Display for VariantPredicateAtom`, ir.rs:124-133. -/
def Atom.toString (a : Atom) : String := (if a.isPositive then "" else "!") ++ a.varName

/-- state.rs:93-97: a name in parentheses. -/
def shownName (n : Option String) : String :=
  match n with
  | none => ""
  | some n => " (" ++ n ++ ")"

/-- `{:?}` of `Option<Vec<OpcodeInput>>`, with `Debug for OpcodeInput`, ir.rs:135-139. -/
def shownInputs (l : Option (List OpcodeInput)) : String :=
  match l with
  | none => "None"
  | some l => "Some([" ++ String.intercalate ", " (l.map OpcodeInput.toString) ++ "])"

/-- `Display for IntegerError` (`thiserror`), integer.rs:10-44. -/
def _root_.BCash.IntegerError.text : IntegerError → String
  | .addOverflow a b => "Addition overflowed: " ++ toString a ++ " + " ++ toString b
  | .subOverflow a b => "Subtraction overflowed: " ++ toString a ++ " + " ++ toString b
  | .mulOverflow a b => "Multiplication overflowed: " ++ toString a ++ " / " ++ toString b
  | .division a b => "Division error: " ++ toString a ++ " / " ++ toString b
  | .modulo a b => "Modulo error: " ++ toString a ++ " % " ++ toString b
  | .shlOverflow a b => "Left shift overflow: " ++ toString a ++ " << " ++ toString b
  | .shrOverflow a b => "Right shift overflow: " ++ toString a ++ " << " ++ toString b
  | .negOverflow a => "Negation overflowed: -" ++ toString a
  | .invalidScriptInteger a => "Invalid script integer: " ++ toString a
  | .castOverflow a => "Cast overflowed: " ++ toString a
  | .castOverflowI128 => "Cast overflowed i128"

/-- The text of a report without an opcode in front. -/
def Diag.inner : Diag → String
  | .emptyStack v _ => "Empty stack on variant " ++ v
  | .tooDeep _ depth size =>
    "Tried accessing " ++ toString depth ++ " items deep, but stack only has " ++ toString size ++ " items"
  | .namedInOne roll _ v n v' n' =>
    (match roll with
      | some (depth, isRoll) => toString depth ++ " " ++ (if isRoll then "OP_ROLL" else "OP_PICK") ++
          " results in inconsistent stack item names. Item in variant "
      | none => "Pop results in inconsistent stack item names. Top stack item in variant ") ++
    v ++ (if n.isSome then " has" else " doesn't have") ++ " a name" ++ shownName n ++ " while in variant " ++
    v' ++ " it " ++ (if n'.isSome then "does" else "doesn't") ++ shownName n' ++ "."
  | .namedDifferently top _ v n v' n' =>
    "Branch results in inconsistent stack item names. " ++ (if top then "Top item" else "Item") ++ " in variant `" ++
    v ++ "` is named `" ++ n ++ "` while in variant `" ++ v' ++ "` is named `" ++ n' ++ "` in ."
  | .noVariant => "No variant for this op"
  | .noVariantFor atoms => "No variant for this op (predicate stack is " ++
    String.intercalate ", " (atoms.map Atom.toString) ++ ")"
  | .notFound x v => "Couldn't find " ++ x ++ " in variant " ++ v
  | .depths x v depth v' depth' stack stack' atoms =>
    "Inconsistent item depths. Item `" ++ x ++ "` in variant `" ++ v ++ "` is " ++ toString depth ++
    " items deep, but the same item in variant `" ++ v' ++ "` is " ++ toString depth' ++ " items deep. \n " ++
    "Stack in variant `" ++ v ++ "`: " ++ String.intercalate ", " stack ++ "\n Stack in variant `" ++ v' ++ "`: " ++
    String.intercalate ", " stack' ++ "\n predicates: " ++ String.intercalate ", " (atoms.map Atom.toString)
  | .inputCount expected got =>
    "Expected " ++ toString expected ++ " input names but got " ++ toString got ++ "."
  | .unnamed x _ => "Expected named top stack item for `" ++ x ++ "` but got unnamed."
  | .otherName actual x _ => "Mismatched stack item name, expected `" ++ actual ++ "` but got `" ++ x ++ "`."
  | .outputCount o expected got => "Invalid number of output names. " ++ o.name ++ " creates " ++ toString expected ++
    " items, but " ++ toString got ++ " defined."
  | .placeholder o => "Cannot use `__` as output placeholder for opcode " ++ o.name
  | .argCount got => "Expected 1 argument, got " ++ toString got ++ "."
  | .notTop x actual _ =>
    "Expected top altstack item named `" ++ x ++ "`, but actual name is `" ++ actual ++ "`."
  | .resultCount got => "Pushes 1 item, got " ++ toString got ++ "."
  | .negativeDepth => "out of range integral type conversion attempted"
  | .integer e => e.text
  | .oneVariable => "Expected 1 variable name"
  | .sameName => "Input and output name must be the same"
  | .oneParameter got => "Expected 1 parameter, got " ++ shownInputs got
  | .unknown name => "Unknown opcode/function: " ++ name
  | .forLoop => "For loops not implemented yet"
  | .rustIf => "`if` not implemented yet"
  | .conditionName => "Must provide variable name to `OP_IF`"
  | .undefinedVariant v => "Undefined variant `" ++ v ++ "`."
  | .inOpcode _ _ => ""

/-- The text of a report, with that of `error_opcode`, generate.rs:921-923. -/
def Diag.text : Diag → String
  | .inOpcode o d => o.name ++ ": " ++ d.text
  | d => d.inner

namespace Gen

/-- The report of items whose names differ in two variants, state.rs:75-117 and 195-238. -/
def differing (roll : Option (Nat × Bool)) (place : Place) (v : String) (i : Item) (v' : String) (i' : Item) : Diag :=
  if i'.generated ≠ i.generated then .namedInOne roll place v i.tag v' i'.tag
  else .namedDifferently roll.isNone place v i.name v' i'.name

/-- The loop of `pick_roll` and of `pop_flagged`, state.rs:59-121, 186-241, with `prev_variant`. -/
def takeLoopD (f : String → VState → Except Diag (Item × VState)) (roll : Option (Nat × Bool)) (place : Place)
    (atoms : List Atom) : List (String × VState) → Option (String × Item) →
    Except Diag (List (String × VState) × Option Item)
  | [], prev => .ok ([], prev.map Prod.snd)
  | (v, s) :: rest, prev =>
    if s.condition.holds atoms then
      match f v s with
      | .error d => .error d
      | .ok (item, s') =>
        match prev with
        | none =>
          match takeLoopD f roll place atoms rest (some (v, item)) with
          | .error d => .error d
          | .ok (states, last) => .ok ((v, s') :: states, last)
        | some (w, p) =>
          if consistent (some p) item then
            match takeLoopD f roll place atoms rest (some (v, item)) with
            | .error d => .error d
            | .ok (states, last) => .ok ((v, s') :: states, last)
          else .error (differing roll place w p v item)
    else
      match takeLoopD f roll place atoms rest prev with
      | .error d => .error d
      | .ok (states, last) => .ok ((v, s) :: states, last)

/-- `pick_roll` and `pop_flagged`, state.rs:56-123, 183-249. -/
def takeD (f : String → VState → Except Diag (Item × VState)) (roll : Option (Nat × Bool)) (place : Place) (g : Gen) :
    Res Diag (Item × Gen) :=
  match takeLoopD f roll place g.atoms g.states none with
  | .error d => .err d
  | .ok (states, some item) => .ok (item, { g with states })
  | .ok (_, none) => .err (if roll.isSome then .noVariant else .noVariantFor g.atoms)

/-- `pop`, state.rs:183-249, 251-253; `n` items of the statement have been popped before. -/
def popD (n : Nat) : Gen → Res Diag (Item × Gen) :=
  takeD (fun v s => match s.stack with
    | item :: stack => .ok (item, { s with stack })
    | [] => .error (.emptyStack v (.main n))) none (.main n)

/-- `pop_alt`, state.rs:183-249, 255-257. -/
def popAltD : Gen → Res Diag (Item × Gen) :=
  takeD (fun v s => match s.alt with
    | item :: alt => .ok (item, { s with alt })
    | [] => .error (.emptyStack v .alt)) none .alt

/-- `pick` and `roll`, state.rs:56-123, 259-265; the depth itself has been popped. -/
def pickRollD (isRoll : Bool) (depth : Nat) : Gen → Res Diag (Item × Gen) :=
  takeD (fun v s => match s.stack[depth]? with
    | some item => .ok (item, if isRoll then { s with stack := s.stack.eraseIdx depth } else s)
    | none => .error (.tooDeep v depth s.stack.length)) (some (depth, isRoll)) (.main (depth + 1))

/-- The loop of `find_item`, state.rs:125-181, with `prev_variant` and `prev_stack`. -/
def findLoopD (name : String) (atoms : List Atom) :
    List (String × VState) → Option (Nat × String × List Item) → Except Diag (Option Nat)
  | [], prev => .ok (prev.map Prod.fst)
  | (v, s) :: rest, prev =>
    if s.condition.holds atoms then
      match s.stack.findIdx? (fun item => item.name == name) with
      | none => .error (.notFound name v)
      | some depth =>
        match prev with
        | none => findLoopD name atoms rest (some (depth, v, s.stack))
        | some (d, w, stack) =>
          if d = depth then findLoopD name atoms rest (some (depth, v, s.stack))
          else .error (.depths name w d v depth (stack.reverse.map Item.name) (s.stack.reverse.map Item.name) atoms)
    else findLoopD name atoms rest prev

/-- `find_item`, state.rs:125-181. -/
def findItemD (g : Gen) (name : String) : Res Diag Nat :=
  match findLoopD name g.atoms g.states none with
  | .error d => .err d
  | .ok (some depth) => .ok depth
  | .ok none => .err .noVariant

end Gen

/-- `verify_item_name`, generate.rs:812-837. -/
def verifyItemNameD (o : Opcode) (stmt : OpcodeStmt) (item : Item) (place : Place) : Res Diag Unit :=
  match stmt.inputNames with
  | none => .ok ()
  | some [input] =>
    if input.toString = item.name then .ok () else .err (.inOpcode o (.notTop input.toString item.name place))
  | some l => .err (.inOpcode o (.argCount l.length))

/-- `update_item_name`, generate.rs:839-855. -/
def updateItemNameD (o : Opcode) (stmt : OpcodeStmt) (item : Item) : Res Diag Item :=
  match stmt.outputNames with
  | none => .ok item
  | some [name] => .ok { item with name }
  | some l => .err (.inOpcode o (.resultCount l.length))

/-- generate.rs:435-439, 857-861; `n` items have been popped before. -/
def popND (o : Opcode) : Nat → Nat → Gen → Res Diag (List Item × Gen)
  | 0, _, g => .ok ([], g)
  | k + 1, n, g => ((Gen.popD n g).mapErr (.inOpcode o)).bind fun (item, g) =>
      (popND o k (n + 1) g).bind fun (items, g) => .ok (items ++ [item], g)

/-- The check of one input name, generate.rs:451-476; the item lies at `place`. -/
def inputNameD (item : Item) (place : Place) : OpcodeInput → Res Diag Unit
  | .ident name =>
    if name = "__" then .ok ()
    else if item.generated then .err (.unnamed name place)
    else if name ≠ item.name then .err (.otherName item.name name place)
    else .ok ()
  | .expr _ _ => .ok ()

/-- The loop over the input names, generate.rs:451-476; the first item is the deepest. -/
def inputNamesD : List Item → List OpcodeInput → Res Diag Unit
  | item :: items, name :: names =>
    (inputNameD item (.main items.length) name).bind fun _ => inputNamesD items names
  | _, _ => .ok ()

/-- The check of the input names, generate.rs:440-477. -/
def checkInputNamesD (items : List Item) (names : Option (List OpcodeInput)) : Res Diag Unit :=
  match names with
  | none => .ok ()
  | some names =>
    if items.length ≠ names.length then .err (.inputCount items.length names.length)
    else inputNamesD items names

/-- An index into a slice; out of bounds is a panic. -/
def indexD {α : Type} (l : List α) (i : Nat) : Res Diag α :=
  match l[i]? with
  | some a => .ok a
  | none => .panic

/-- One named output, generate.rs:492-526. -/
def namedOutputD (o : Opcode) (b : OpcodeBehavior) (items : List Item) (name : String) (idx : Nat) : Res Diag Item :=
  if name = "__" then
    if o.retainsInput then indexD items 0
    else match b.outputOrder with
      | some order => (indexD order idx).bind (indexD items)
      | none => .err (.placeholder o)
  else .ok ⟨name, false, none⟩

/-- The pushed items, generate.rs:478-555. -/
def outputItemsD (o : Opcode) (b : OpcodeBehavior) (items : List Item) (names : Option (List String))
    (n : Nat) : Res Diag (List Item × Nat) :=
  match names with
  | some names =>
    if names.length ≠ b.outputTypes.length then .err (.outputCount o b.outputTypes.length names.length)
    else (collect (fun (name, idx) => namedOutputD o b items name idx) names.zipIdx).bind fun out =>
      .ok (out, names.length)
  | none =>
    match b.outputOrder with
    | some order => (collect (indexD items) order).bind fun out => .ok (out, order.length)
    | none =>
      (collect (fun i => if o.retainsInput then indexD items 0
          else .ok ⟨freshName (n + i), true, none⟩) (List.range b.outputTypes.length)).bind fun out =>
      .ok (out, b.outputTypes.length)

/-- `run_other_opcode`, generate.rs:424-621. -/
def runOtherD (o : Opcode) (stmt : OpcodeStmt) (g : Gen) : Res Diag (List Emit × Gen) :=
  match o.behavior with
  | none => .panic
  | some b =>
    (popND o b.inputTypes.length 0 g).bind fun (items, g) =>
    (checkInputNamesD items stmt.inputNames).bind fun _ =>
    (outputItemsD o b items stmt.outputNames g.nIdent).bind fun (out, n) =>
    .ok ([⟨.code o, out.map Item.tag, []⟩],
      out.foldl Gen.push { g with nIdent := g.nIdent + n })

/-- OP_PICK and OP_ROLL, generate.rs:377-418. -/
def runPickRollD (o : Opcode) (isRoll : Bool) (stmt : OpcodeStmt) (g : Gen) : Res Diag (List Emit × Gen) :=
  ((Gen.popD 0 g).mapErr (.inOpcode o)).bind fun (top, g) =>
  (verifyItemNameD o stmt top (.main 0)).bind fun _ =>
  (match top.integer with
    | some i => if 0 ≤ i then (Res.ok i.toNat : Res Diag Nat) else .err Diag.negativeDepth
    | none => .ok 0).bind fun depth =>
  ((Gen.pickRollD isRoll depth g).mapErr (Diag.inOpcode o)).bind fun (item, g) =>
  (updateItemNameD o stmt item).bind fun item =>
  .ok ([⟨.code o, [item.tag], []⟩], g.push item)

/-- `depth_of`, `depth_of_offset`, generate.rs:631-684. -/
def runDepthOfD (name : String) (offset : Int) (stmt : OpcodeStmt) (g : Gen) : Res Diag (List Emit × Gen) :=
  (g.findItemD name).bind fun depth =>
  match Integer.new depth with
  | .error e => .err (.integer e)
  | .ok d =>
    let (out, fresh) := match stmt.outputNames with
      | some [out] => (out, 0)
      | _ => (freshName g.nIdent, 1)
    let tag := match stmt.outputNames with
      | some [out] => some out
      | _ => none
    if ¬ InI32 (d + offset) then .panic
    else match Integer.new (d + offset) with
      | .error _ => .panic
      | .ok i => .ok ([⟨.pushInteger i, [tag], []⟩],
          ({ g with nIdent := g.nIdent + fresh }).push ⟨out, stmt.outputNames.isNone, some d⟩)

/-- `transmute`, generate.rs:685-711. -/
def runTransmuteD (stmt : OpcodeStmt) (g : Gen) : Res Diag (List Emit × Gen) :=
  match stmt.inputNames with
  | some [.ident name, _] =>
    if (match stmt.outputNames with
      | some [out] => out != name
      | _ => false) then .err .sameName
    else (g.findItemD name).bind fun _ => .ok ([], g)
  | l => .err (.oneParameter l)

/-- `run_opcode`, generate.rs:330-422, and `run_opcode_function`, generate.rs:623-717. -/
def runOpcodeD (stmt : OpcodeStmt) (g : Gen) : Res Diag (List Emit × Gen) :=
  match stmt.head with
  | .op .OP_TOALTSTACK =>
    ((Gen.popD 0 g).mapErr (.inOpcode .OP_TOALTSTACK)).bind fun (item, g) =>
    (verifyItemNameD .OP_TOALTSTACK stmt item (.main 0)).bind fun _ =>
    (updateItemNameD .OP_TOALTSTACK stmt item).bind fun item =>
    .ok ([⟨.code .OP_TOALTSTACK, [], [item.tag]⟩], g.pushAlt item)
  | .op .OP_FROMALTSTACK =>
    (g.popAltD.mapErr (.inOpcode .OP_FROMALTSTACK)).bind fun (item, g) =>
    (verifyItemNameD .OP_FROMALTSTACK stmt item .alt).bind fun _ =>
    (updateItemNameD .OP_FROMALTSTACK stmt item).bind fun item =>
    .ok ([⟨.code .OP_FROMALTSTACK, [item.tag], []⟩], g.push item)
  | .op .OP_PICK => runPickRollD .OP_PICK false stmt g
  | .op .OP_ROLL => runPickRollD .OP_ROLL true stmt g
  | .op o => if inNameMap o then runOtherD o stmt g else .err (.unknown o.name)
  | .depthOf =>
    match stmt.inputNames with
    | some [.ident name] => runDepthOfD name 0 stmt g
    | _ => .err .oneVariable
  | .depthOfOffset =>
    match stmt.inputNames with
    | some [.ident name, .expr _ offset] => runDepthOfD name offset stmt g
    | _ => .err .oneVariable
  | .transmute => runTransmuteD stmt g
  | .unknown name => .err (.unknown name)

/-- `run_stmt`, generate.rs:269-287, for statements other than conditionals. -/
def runLeafD (l : Leaf) (g : Gen) : Res Diag (List Emit × Gen) :=
  match l with
  | .push op name => .ok (runPush op name g)
  | .opcode stmt => runOpcodeD stmt g
  | .forLoop => .err .forLoop
  | .rustIf => .err .rustIf

/-- `states.get_mut(variant_name).unwrap()`. -/
def lookupD (states : List (String × VState)) (v : String) : Res (Nat × Diag) VState :=
  match states.find? fun p => p.1 == v with
  | some p => .ok p.2
  | none => .panic

/-- The merge of the two branches, generate.rs:773-783. -/
def mergeD (thenStates : List (String × VState)) (heldIf heldElse : List Atom)
    (elseStates : List (String × VState)) : Res (Nat × Diag) (List (String × VState)) :=
  collect (fun (v, s) =>
    if s.condition.holds heldIf && !s.condition.holds heldElse then
      (lookupD thenStates v).bind fun t => .ok (v, t)
    else .ok (v, s)) elseStates

/-- The name of the condition, generate.rs:726-745. -/
def predicateNameD (stmt : OpcodeStmt) : Res Diag String :=
  match stmt.inputNames with
  | some (.ident name :: _) => .ok name
  | _ => .err .conditionName

/-- `run_opcode` of an optional statement. -/
def runOptionalD (stmt : Option OpcodeStmt) (g : Gen) : Res Diag (List Emit × Gen) :=
  match stmt with
  | some stmt => runOpcodeD stmt g
  | none => .ok ([], g)

/-- How many statements are written. -/
def Prog.size : Prog → Nat
  | .nil => 0
  | .leaf _ rest => rest.size + 1
  | .scriptIf _ t e el _ rest => 1 + t.size + e.toList.length + el.size + 1 + rest.size

/-- The statements of a script in order (generate.rs:131-133) with `run_if`, generate.rs:719-791; an error comes with
the number of its statement, the first having number `n`. -/
def runProgD : Prog → Nat → Gen → Res (Nat × Diag) (List Emit × Gen)
  | .nil, _, g => .ok ([], g)
  | .leaf l rest, n, g =>
    ((runLeafD l g).mapErr (n, ·)).bind fun (e1, g) =>
    (runProgD rest (n + 1) g).bind fun (e2, g) => .ok (e1 ++ e2, g)
  | .scriptIf ifOp thenStmts elseOp elseStmts endifOp rest, n, g =>
    ((runOpcodeD ifOp g).mapErr (n, ·)).bind fun (e1, g) =>
    ((predicateNameD ifOp).mapErr (n, ·)).bind fun name =>
    let heldIf := g.atoms ++ [⟨name, true⟩]
    let heldElse := g.atoms ++ [⟨name, false⟩]
    let nElse := n + 1 + thenStmts.size
    let nBody := nElse + elseOp.toList.length
    let nEndif := nBody + elseStmts.size
    (runProgD thenStmts (n + 1) { g with atoms := heldIf }).bind fun (e2, gt) =>
    ((runOptionalD elseOp gt).mapErr (nElse, ·)).bind fun (e3, gt) =>
    (runProgD elseStmts nBody { g with atoms := heldElse, nIdent := gt.nIdent }).bind fun (e4, ge) =>
    ((runOpcodeD endifOp ge).mapErr (nEndif, ·)).bind fun (e5, ge) =>
    (mergeD gt.states heldIf heldElse ge.states).bind fun states =>
    (runProgD rest (nEndif + 1) { ge with states, atoms := g.atoms }).bind fun (e6, g) =>
    .ok (e1 ++ e2 ++ e3 ++ e4 ++ e5 ++ e6, g)

/-- generate.rs:100-119: pushing an input on the stacks of the listed variants. -/
def pushOnD (item : Item) : List String → List (String × VState) → Res Diag (List (String × VState))
  | [], states => .ok states
  | v :: vs, states =>
    if states.any fun p => p.1 == v then
      pushOnD item vs (states.map fun p => if p.1 == v then (p.1, { p.2 with stack := item :: p.2.stack })
        else p)
    else .err (.undefinedVariant v)

/-- The loop over the inputs, generate.rs:71-130. -/
def pushInputsD (noVariants : Bool) : List Input → List (String × VState) → Res Diag (List (String × VState))
  | [], states => .ok states
  | i :: is, states =>
    (match i.variants with
      | some vs =>
        (pushOnD ⟨i.name, false, none⟩ vs states).bind fun states =>
          if noVariants && !vs.isEmpty then .panic else .ok states
      | none => Res.ok (states.map fun (p : String × VState) =>
          (p.1, { p.2 with stack := ⟨i.name, false, none⟩ :: p.2.stack }))).bind fun states =>
    pushInputsD noVariants is states

/-- `run_script`, generate.rs:33-267: the error comes with the number of its statement; an error in the inputs has
none. -/
def generateD (order : List (String × VState) → List (String × VState)) (d : Decl) (p : Prog) :
    Res (Option Nat × Diag) (List Emit × Gen) :=
  ((pushInputsD d.variants.isEmpty d.inputs (emptyStates d)).mapErr (none, ·)).bind fun states =>
  (runProgD p 0 ⟨order states, [], 0⟩).mapErr fun e => (some e.1, e.2)

end BCash.Macro
