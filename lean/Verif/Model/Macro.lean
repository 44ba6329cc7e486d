import Verif.Model.Behavior
import Verif.Model.Script

/-! # The script macro: conditions and structuring of statements —
`bitcoin-cash-script-macro/src/ir.rs`, `parse.rs`

Rust syntax trees (`syn`), spans and token streams are erased; identifiers are strings. The
identifier of an opcode statement is given resolved (`Head`): a name in `MAP_NAME_TO_ENUM`
(opcode.rs:9-22), one of the macro's functions, or anything else. -/

namespace BCash.Macro

/-! ## Variant conditions -/

/-- `struct VariantPredicateAtom`, ir.rs:36-40. -/
structure Atom where
  varName : String
  isPositive : Bool
deriving DecidableEq, Repr

/-- `struct VariantPredicate`, `VariantPredicateConjunction`, ir.rs:31-34. -/
abbrev Predicate := List (List Atom)

/-- `VariantPredicate::holds`, ir.rs:137-157. -/
def Predicate.holds (p : Predicate) (instantiations : List Atom) : Bool :=
  p.isEmpty || p.any fun conjunction => conjunction.all fun atom =>
    instantiations.all fun inst => inst.varName != atom.varName || inst.isPositive == atom.isPositive

/-- `str::split` with a pattern consisting of the same character twice (`"||"`, `"&&"`): pieces between
leftmost non-overlapping matches. `acc` is the current piece, reversed. -/
def splitTwice (c : Char) : (acc : List Char) → List Char → List (List Char)
  | acc, [] => [acc.reverse]
  | acc, [x] => [(x :: acc).reverse]
  | acc, x :: y :: rest =>
    if x = c ∧ y = c then acc.reverse :: splitTwice c [] rest
    else splitTwice c (x :: acc) (y :: rest)

/-- The closure for one atom in `parse_predicate`, parse.rs:202-226. Slicing off the first byte panics
if the first character takes more than one byte. `alnum` is `char::is_alphanumeric` (Unicode). -/
def parseAtom (alnum : Char → Bool) : List Char → Res String Atom
  | [] => .err "Empty predicate name"
  | c :: cs =>
    if 128 ≤ c.toNat then .panic
    else
      let isNegated := c = '!'
      let name := if isNegated then cs else c :: cs
      if name.isEmpty then .err "Empty predicate name"
      else if !name.all fun c => alnum c || c = '_' then .err "Not a valid predicate name"
      else .ok ⟨String.ofList name, !isNegated⟩

/-- `.map(f).collect::<Result<Vec<_>, _>>()`: stops at the first failure. -/
def collect {α β ε : Type} (f : α → Res ε β) : List α → Res ε (List β)
  | [] => .ok []
  | a :: as => (f a).bind fun b => (collect f as).bind fun bs => .ok (b :: bs)

/-- `parse_predicate`, parse.rs:190-231 (of a string literal). -/
def parsePredicate (alnum : Char → Bool) (s : List Char) : Res String Predicate :=
  collect (fun conjunction => collect (parseAtom alnum) (splitTwice '&' [] conjunction))
    (splitTwice '|' [] s)

/-! ## Statements -/

/-- `enum OpcodeInput`, ir.rs:72-76. An expression is represented by its text and (for offsets) the
value of type `i32` it has at run time. -/
inductive OpcodeInput where
  | ident (name : String)
  | expr (text : String) (value : Int)
deriving DecidableEq, Repr

/-- `Display for OpcodeInput`, ir.rs:109-116. -/
def OpcodeInput.toString : OpcodeInput → String
  | ident name => name
  | expr text _ => text

/-- The identifier of an opcode statement, resolved; `unknown`: an identifier without meaning. -/
inductive Head where
  | op (opcode : Opcode)
  | depthOf
  | depthOfOffset
  | transmute
  | unknown (name : String)
deriving DecidableEq, Repr

/-- `struct OpcodeStmt`, ir.rs:78-85. -/
structure OpcodeStmt where
  head : Head
  inputNames : Option (List OpcodeInput)
  outputNames : Option (List String)
deriving DecidableEq, Repr

/-- A statement other than `ScriptIf`: `enum Stmt`, ir.rs:56-63. A push is represented by the operation
`(expr).to_pushop()` evaluates to; for loops and Rust `if`s are opaque. -/
inductive Leaf where
  | push (op : Op Bytes) (outputName : Option String)
  | opcode (stmt : OpcodeStmt)
  | forLoop
  | rustIf
deriving DecidableEq, Repr

/-- `Vec<TaggedStmt>`, ir.rs:50-63 and 104-114: a list of statements, where `scriptIf` is a
`ScriptIfStmt` followed by the statements after it. -/
inductive Prog where
  | nil
  | leaf (l : Leaf) (rest : Prog)
  | scriptIf (ifOpcode : OpcodeStmt) (thenStmts : Prog) (elseOpcode : Option OpcodeStmt)
      (elseStmts : Prog) (endifOpcode : OpcodeStmt) (rest : Prog)
deriving DecidableEq, Repr

namespace Prog

/-- `Vec::append`. -/
def append : Prog → Prog → Prog
  | nil, q => q
  | leaf l rest, q => leaf l (append rest q)
  | scriptIf i t e el en rest, q => scriptIf i t e el en (append rest q)

instance : Append Prog := ⟨append⟩

end Prog

/-- `struct If`, parse.rs:453-460. -/
structure OpenIf where
  ifOpcode : OpcodeStmt
  elseOpcode : Option OpcodeStmt
  thenStmts : Prog
  elseStmts : Prog
deriving DecidableEq, Repr

/-- The local variables of `parse_op_if`, parse.rs:450-452 (`if_stack` with the innermost first). -/
structure IfState where
  newStmts : Prog
  ifStack : List OpenIf
  isThen : Bool
deriving DecidableEq, Repr

/-- parse.rs:519-528: adding a statement to the innermost open conditional or to the result. `stmt` is
a one-statement program. -/
def IfState.place (s : IfState) (stmt : Prog) : IfState :=
  match s.ifStack with
  | [] => { s with newStmts := s.newStmts ++ stmt }
  | top :: more =>
    if s.isThen then { s with ifStack := { top with thenStmts := top.thenStmts ++ stmt } :: more }
    else { s with ifStack := { top with elseStmts := top.elseStmts ++ stmt } :: more }

/-- The loop body of `parse_op_if` for an opcode statement, parse.rs:463-528. -/
def IfState.opcode (s : IfState) (o : OpcodeStmt) : Except String IfState :=
  match o.head with
  | .op .OP_IF | .op .OP_NOTIF =>
    .ok { s with ifStack := ⟨o, none, .nil, .nil⟩ :: s.ifStack, isThen := true }
  | .op .OP_ELSE =>
    match s.ifStack with
    | [] => .error "No previous OP_IF found."
    | top :: more => .ok { s with ifStack := { top with elseOpcode := some o } :: more, isThen := false }
  | .op .OP_ENDIF =>
    match s.ifStack with
    | [] => .error "No previous OP_IF found."
    | top :: more => .ok (IfState.place { s with ifStack := more }
        (.scriptIf top.ifOpcode top.thenStmts top.elseOpcode top.elseStmts o .nil))
  | _ => .ok (s.place (.leaf (.opcode o) .nil))

/-- The loop of `parse_op_if`, parse.rs:461-529. -/
def parseLoop : Prog → IfState → Except String IfState
  | .nil, s => .ok s
  | .leaf (.opcode o) rest, s => (s.opcode o).bind (parseLoop rest)
  | .leaf l rest, s => parseLoop rest (s.place (.leaf l .nil))
  | .scriptIf i t e el en rest, s => parseLoop rest (s.place (.scriptIf i t e el en .nil))

/-- `parse_op_if`, parse.rs:449-538. -/
def parseOpIf (stmts : Prog) : Except String Prog :=
  (parseLoop stmts ⟨.nil, [], true⟩).bind fun s =>
    match s.ifStack with
    | [] => .ok s.newStmts
    | _ :: _ => .error "Unclosed OP_IF."

/-- The body of a script function: statements and blocks (`Vec<syn::Stmt>`), after `parse_opcode` and
friends; `block` is `{ inner }` followed by `rest`. -/
inductive Syn where
  | nil
  | leaf (l : Leaf) (rest : Syn)
  | block (inner : Syn) (rest : Syn)
deriving DecidableEq, Repr

/-- The first loop of `parse_stmts` (parse.rs:283-286) with `parse_stmt` (290-351) and
`parse_stmt_expr` (353-391) on each statement: blocks are structured on their own. -/
def parseList : Syn → Except String Prog
  | .nil => .ok .nil
  | .leaf l rest => (parseList rest).map (.leaf l)
  | .block inner rest => ((parseList inner).bind parseOpIf).bind fun p => (parseList rest).map (p ++ ·)

/-- `parse_stmts`, parse.rs:282-288. -/
def parseStmts (s : Syn) : Except String Prog := (parseList s).bind parseOpIf

end BCash.Macro
