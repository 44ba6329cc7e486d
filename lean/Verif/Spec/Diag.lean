import Verif.Spec.Accept
import Verif.Model.MacroDiag
import Mathlib.Data.List.Forall2

/-! # Specification: what the error reports of the script macro say

A report is given for one statement. It says something about that statement as it is written (`Written`), names
variants that can get there, and says something about the stacks a run finds there (`About`). Runs are those of
`Spec/Named.lean`. -/

namespace BCash.Spec.Diag
open BCash.Macro BCash.Spec BCash.Spec.Macro BCash.Spec.Named

/-- The statements as written, each with the branches around it. -/
def placed : Prog → (known : List Atom) → List (Leaf × List Atom)
  | .nil, _ => []
  | .leaf l rest, known => (l, known) :: placed rest known
  | .scriptIf i t e el en rest, known =>
    (.opcode i, known) :: (placed t (known ++ [⟨conditionName i, true⟩]) ++
      (e.toList.map (fun o => (Leaf.opcode o, known)) ++ placed el (known ++ [⟨conditionName i, false⟩]))) ++
      (.opcode en, known) :: placed rest known

/-- The states in which a run executes statements, with the number of the statement. The run is one of a variant with
the given condition, and ends where `Spec.Named.run` is undecided. -/
def visits (env : Vm.Env) (condition : Predicate) :
    Prog → (n : Nat) → (known : List Atom) → LState → List (Nat × LState)
  | .nil, _, _, _ => []
  | .leaf l rest, n, known, s => (n, s) ::
    match leaf env l s with
    | .ok s' => visits env condition rest (n + 1) known s'
    | _ => []
  | .scriptIf i t e el _ rest, n, known, s => (n, s) ::
    match s.stack with
    | [] => []
    | top :: st =>
      let first := known ++ [⟨conditionName i, true⟩]
      let second := known ++ [⟨conditionName i, false⟩]
      let nElse := n + 1 + (written t).length + e.toList.length
      let nRest := nElse + (written el).length + 1
      if Vm.truthy top.value then
        if condition.holds first then
          visits env condition t (n + 1) first ⟨st, s.alt⟩ ++
          match run env condition t first ⟨st, s.alt⟩ with
          | .ok s' =>
            if condition.holds second &&
                namesAfter condition el second none (LState.names ⟨st, s.alt⟩) != some s'.names then []
            else visits env condition rest nRest known s'
          | _ => []
        else []
      else if condition.holds second then
        visits env condition el nElse second ⟨st, s.alt⟩ ++
          match run env condition el second ⟨st, s.alt⟩ with
          | .ok s' => visits env condition rest nRest known s'
          | _ => []
      else []

/-- The name of the item at a place, given the names of all items, top first; `none`: there is no item. -/
def nameAt (stack alt : List (Option String)) : Place → Option (Option String)
  | .main depth => stack[depth]?
  | .alt => alt[0]?

/-- A text shown for an item: its name, or a name reserved for unnamed items. -/
def Shows (text : String) (name : Option String) : Prop :=
  match name with
  | some x => text = x
  | none => reserved text = true

/-- What a report says about the stacks (names of the items, top first) found by a run of variant `v`. -/
def About (v : String) (stack alt : List (Option String)) : Diag → Prop
  | .emptyStack w place => w = v → nameAt stack alt place = none
  | .tooDeep w depth size => w = v → stack.length = size + 1 ∧ size ≤ depth
  | .namedInOne _ place w n w' n' =>
    (w = v → nameAt stack alt place = some n) ∧ (w' = v → nameAt stack alt place = some n')
  | .namedDifferently _ place w n w' n' =>
    (w = v → nameAt stack alt place = some (some n)) ∧ (w' = v → nameAt stack alt place = some (some n'))
  | .noVariant | .noVariantFor _ => False
  | .notFound x w => w = v → some x ∉ stack
  | .depths x w depth w' depth' shown shown' _ =>
    (w = v → stack.idxOf? (some x) = some depth ∧ List.Forall₂ Shows shown stack.reverse) ∧
    (w' = v → stack.idxOf? (some x) = some depth' ∧ List.Forall₂ Shows shown' stack.reverse)
  | .unnamed _ place => nameAt stack alt place = some none
  | .otherName actual _ place => nameAt stack alt place = some (some actual)
  | .notTop _ actual place => ∃ name, nameAt stack alt place = some name ∧ Shows actual name
  | .negativeDepth => False
  | .integer e => ∃ n : Nat, 2 ^ 31 ≤ n ∧ n < stack.length ∧ (n < 2 ^ 64 → e = .castOverflow n)
  | .inOpcode _ d => About v stack alt d
  | _ => True

/-- The variants a report names. -/
def variants : Diag → List String
  | .emptyStack v _ | .tooDeep v _ _ | .notFound _ v => [v]
  | .namedInOne _ _ v _ v' _ | .namedDifferently _ _ v _ v' _ | .depths _ v _ v' _ _ _ _ => [v, v']
  | .inOpcode _ d => variants d
  | _ => []

/-- A report that no variant gets to the statement. -/
def unreached : Diag → Bool
  | .noVariant | .noVariantFor _ => true
  | .inOpcode _ d => unreached d
  | _ => false

/-- The operations with one operand and one result by whatever name. -/
def moves (o : Opcode) : Bool :=
  o == .OP_TOALTSTACK || o == .OP_FROMALTSTACK || o == .OP_PICK || o == .OP_ROLL

/-- The statement takes the item at the place. -/
def Takes (stmt : OpcodeStmt) (place : Place) : Prop :=
  ∃ o, stmt.head = .op o ∧
    match place with
    | .alt => o = .OP_FROMALTSTACK
    | .main depth =>
      if o = .OP_PICK ∨ o = .OP_ROLL then True
      else if o = .OP_TOALTSTACK then depth = 0
      else o ≠ .OP_FROMALTSTACK ∧ depth < (flow o).1

/-- The name written for the item at the place: the last name is that of the top item. -/
def wrote (stmt : OpcodeStmt) (place : Place) : Option String :=
  match stmt.inputNames, place with
  | some names, .main depth => (names.reverse[depth]?).map OpcodeInput.toString
  | some names, .alt => (names[0]?).map OpcodeInput.toString
  | none, _ => none

/-- The name in `depth_of(x)`, `depth_of_offset(x, _)` and `transmute(x, _)`. -/
def RefersTo (stmt : OpcodeStmt) (x : String) : Prop :=
  (stmt.head = .depthOf ∨ stmt.head = .depthOfOffset ∨ stmt.head = .transmute) ∧
  ∃ l, stmt.inputNames = some (.ident x :: l)

/-- What a report says about a statement of an opcode or function, and about the branches around it. -/
def WrittenOp (stmt : OpcodeStmt) (known : List Atom) : Diag → Prop
  | .emptyStack _ place => Takes stmt place
  | .tooDeep _ _ _ => stmt.head = .op .OP_PICK ∨ stmt.head = .op .OP_ROLL
  | .namedInOne roll place v n v' n' =>
    Takes stmt place ∧ v ≠ v' ∧ n.isSome ≠ n'.isSome ∧
    ∀ depth isRoll, roll = some (depth, isRoll) →
      stmt.head = .op (if isRoll then .OP_ROLL else .OP_PICK) ∧ place = .main (depth + 1)
  | .namedDifferently _ place v n v' n' => Takes stmt place ∧ v ≠ v' ∧ n ≠ n'
  | .noVariant => True
  | .noVariantFor atoms => atoms = known
  | .notFound x _ => RefersTo stmt x
  | .depths x v depth v' depth' _ _ atoms => RefersTo stmt x ∧ v ≠ v' ∧ depth ≠ depth' ∧ atoms = known
  | .inputCount expected got => ∃ o names, stmt.head = .op o ∧ (flow o).1 = expected ∧
    stmt.inputNames = some names ∧ names.length = got ∧ got ≠ expected
  | .unnamed x place => Takes stmt place ∧ wrote stmt place = some x
  | .otherName actual x place => Takes stmt place ∧ wrote stmt place = some x ∧ x ≠ actual
  | .outputCount o expected got => ∃ names, stmt.head = .op o ∧ (flow o).2.length = expected ∧
    stmt.outputNames = some names ∧ names.length = got ∧ got ≠ expected
  | .placeholder o => ∃ names, ∃ i : Nat, stmt.head = .op o ∧ stmt.outputNames = some names ∧ names[i]? = some "__" ∧
    (flow o).2[i]? = some none
  | .argCount got => ∃ o names, stmt.head = .op o ∧ moves o = true ∧ stmt.inputNames = some names ∧
    names.length = got ∧ got ≠ 1
  | .notTop x actual place => Takes stmt place ∧ wrote stmt place = some x ∧ x ≠ actual
  | .resultCount got => ∃ o names, stmt.head = .op o ∧ moves o = true ∧ stmt.outputNames = some names ∧
    names.length = got ∧ got ≠ 1
  | .negativeDepth => False
  | .integer _ => stmt.head = .depthOf ∨ stmt.head = .depthOfOffset
  | .oneVariable =>
    (stmt.head = .depthOf ∧ ∀ x, stmt.inputNames ≠ some [.ident x]) ∨
    (stmt.head = .depthOfOffset ∧ ∀ x t i, stmt.inputNames ≠ some [.ident x, .expr t i])
  | .sameName => stmt.head = .transmute ∧ ∃ x y l, stmt.inputNames = some (.ident x :: l) ∧
    stmt.outputNames = some [y] ∧ y ≠ x
  | .oneParameter got => stmt.head = .transmute ∧ stmt.inputNames = got ∧
    ∀ x l, got ≠ some [.ident x, l]
  | .unknown x => stmt.head = .unknown x ∨ ∃ o, stmt.head = .op o ∧ o.name = x ∧
    (o.toByte.toNat < 0x51 ∨ 0xbc < o.toByte.toNat)
  | .conditionName => stmt.head = .op .OP_IF ∧ ∀ x l, stmt.inputNames ≠ some (.ident x :: l)
  | .forLoop | .rustIf | .undefinedVariant _ => False
  | .inOpcode o d => stmt.head = .op o ∧ WrittenOp stmt known d

/-- What a report says about a statement. -/
def Written (l : Leaf) (known : List Atom) (d : Diag) : Prop :=
  match l with
  | .opcode stmt => WrittenOp stmt known d
  | .forLoop => d = .forLoop
  | .rustIf => d = .rustIf
  | .push _ _ => False

/-- A report for the statement with number `k` is true: what it says about the statement; the variants it names can
get there; if it says that none does, none does; and what it says about the stacks holds of every run that
gets there. -/
def Truthful (d : Decl) (p : Prog) (k : Nat) (dg : Diag) : Prop :=
  ∃ l known, (placed p [])[k]? = some (l, known) ∧ Written l known dg ∧
    (∀ w ∈ variants dg, ∃ c, (w, c) ∈ variantsOf d ∧ c.holds known = true) ∧
    (unreached dg = true → ∀ w c, (w, c) ∈ variantsOf d → c.holds known = false) ∧
    ∀ env v c values s, (v, c) ∈ variantsOf d → values.length = (inputsOf d v).length →
      (k, s) ∈ visits env c p 0 [] (start (inputsOf d v) values) →
      About v (s.stack.map LItem.name) (s.alt.map LItem.name) dg

/-- The branches around a statement, as shown to the user: the name of each condition, with `!` where it is false. -/
def shownBranches : List Atom → String
  | [] => ""
  | [⟨x, true⟩] => x
  | [⟨x, false⟩] => s!"!{x}"
  | ⟨x, true⟩ :: rest => s!"{x}, {shownBranches rest}"
  | ⟨x, false⟩ :: rest => s!"!{x}, {shownBranches rest}"

/-- Names, separated by commas. -/
def shownNames : List String → String
  | [] => ""
  | [x] => x
  | x :: rest => s!"{x}, {shownNames rest}"

/-- What is said about the name of an item. -/
def named : Option String → String
  | some n => s!"has a name ({n})"
  | none => "doesn't have a name"

/-- What is said about the name of the other item. -/
def does : Option String → String
  | some n => s!"does ({n})"
  | none => "doesn't"

/-- A parameter, as it is written. -/
def asWritten : OpcodeInput → String
  | .ident x => x
  | .expr text _ => text

/-- The words of an error of arithmetic. -/
def integerMessage : IntegerError → String
  | .addOverflow a b => s!"Addition overflowed: {a} + {b}"
  | .subOverflow a b => s!"Subtraction overflowed: {a} + {b}"
  | .mulOverflow a b => s!"Multiplication overflowed: {a} / {b}"
  | .division a b => s!"Division error: {a} / {b}"
  | .modulo a b => s!"Modulo error: {a} % {b}"
  | .shlOverflow a b => s!"Left shift overflow: {a} << {b}"
  | .shrOverflow a b => s!"Right shift overflow: {a} << {b}"
  | .negOverflow a => s!"Negation overflowed: -{a}"
  | .invalidScriptInteger a => s!"Invalid script integer: {a}"
  | .castOverflow a => s!"Cast overflowed: {a}"
  | .castOverflowI128 => "Cast overflowed i128"

/-- The words of the reports, as the user reads them, but for the opcode in front. -/
def words : Diag → String
  | .emptyStack v _ => s!"Empty stack on variant {v}"
  | .tooDeep _ depth size => s!"Tried accessing {depth} items deep, but stack only has {size} items"
  | .namedInOne none _ v n v' n' =>
    s!"Pop results in inconsistent stack item names. Top stack item in variant {v} {named n} while in variant {v'} it {does n'}."
  | .namedInOne (some (depth, true)) _ v n v' n' =>
    s!"{depth} OP_ROLL results in inconsistent stack item names. Item in variant {v} {named n} while in variant {v'} it {does n'}."
  | .namedInOne (some (depth, false)) _ v n v' n' =>
    s!"{depth} OP_PICK results in inconsistent stack item names. Item in variant {v} {named n} while in variant {v'} it {does n'}."
  | .namedDifferently true _ v n v' n' =>
    s!"Branch results in inconsistent stack item names. Top item in variant `{v}` is named `{n}` while in variant `{v'}` is named `{n'}` in ."
  | .namedDifferently false _ v n v' n' =>
    s!"Branch results in inconsistent stack item names. Item in variant `{v}` is named `{n}` while in variant `{v'}` is named `{n'}` in ."
  | .noVariant => "No variant for this op"
  | .noVariantFor atoms => s!"No variant for this op (predicate stack is {shownBranches atoms})"
  | .notFound x v => s!"Couldn't find {x} in variant {v}"
  | .depths x v depth v' depth' stack stack' atoms =>
    s!"Inconsistent item depths. Item `{x}` in variant `{v}` is {depth} items deep, but the same item in variant `{v'}` is {depth'} items deep. \n Stack in variant `{v}`: {shownNames stack}\n Stack in variant `{v'}`: {shownNames stack'}\n predicates: {shownBranches atoms}"
  | .inputCount expected got => s!"Expected {expected} input names but got {got}."
  | .unnamed x _ => s!"Expected named top stack item for `{x}` but got unnamed."
  | .otherName actual x _ => s!"Mismatched stack item name, expected `{actual}` but got `{x}`."
  | .outputCount o expected got => s!"Invalid number of output names. {o.name} creates {expected} items, but {got} defined."
  | .placeholder o => s!"Cannot use `__` as output placeholder for opcode {o.name}"
  | .argCount got => s!"Expected 1 argument, got {got}."
  | .notTop x actual _ => s!"Expected top altstack item named `{x}`, but actual name is `{actual}`."
  | .resultCount got => s!"Pushes 1 item, got {got}."
  | .negativeDepth => "out of range integral type conversion attempted"
  | .integer e => integerMessage e
  | .oneVariable => "Expected 1 variable name"
  | .sameName => "Input and output name must be the same"
  | .oneParameter none => "Expected 1 parameter, got None"
  | .oneParameter (some l) =>
    s!"Expected 1 parameter, got Some([{shownNames (l.map asWritten)}])"
  | .unknown x => s!"Unknown opcode/function: {x}"
  | .forLoop => "For loops not implemented yet"
  | .rustIf => "`if` not implemented yet"
  | .conditionName => "Must provide variable name to `OP_IF`"
  | .undefinedVariant v => s!"Undefined variant `{v}`."
  | .inOpcode _ _ => ""

/-- The reports, as the user reads them. -/
def message : Diag → String
  | .inOpcode o d => s!"{o.name}: {message d}"
  | d => words d

end BCash.Spec.Diag
