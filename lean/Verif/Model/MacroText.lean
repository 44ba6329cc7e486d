import Verif.Model.MacroGen

/-! # The script macro: recorded source texts — `gen_source.rs`, and the parts of `parse.rs` and `generate.rs`
that carry them

The statements of `Model/Macro` with the text of their tokens, and the generated operations with everything that
is recorded with them except file, line and column (`file!()`, `line!()`, `column!()`). -/

namespace BCash.Macro

/-- `Vec<TaggedStmt>`, ir.rs:50-63 and 95-105, with the texts of the statements. -/
inductive TProg where
  | nil
  | leaf (text : String) (l : Leaf) (rest : TProg)
  | scriptIf (ifText : String) (ifOpcode : OpcodeStmt) (thenStmts : TProg)
      (elseOpcode : Option (String × OpcodeStmt)) (elseStmts : TProg)
      (endifText : String) (endifOpcode : OpcodeStmt) (rest : TProg)

namespace TProg

/-- `Vec::append`. -/
def append : TProg → TProg → TProg
  | nil, q => q
  | leaf x l rest, q => leaf x l (append rest q)
  | scriptIf ix i t e el ex en rest, q => scriptIf ix i t e el ex en (append rest q)

instance : Append TProg := ⟨append⟩

end TProg

/-- `struct If`, parse.rs:453-460. -/
structure TOpenIf where
  ifText : String
  ifOpcode : OpcodeStmt
  elseOpcode : Option (String × OpcodeStmt)
  thenStmts : TProg
  elseStmts : TProg

/-- The local variables of `parse_op_if`, parse.rs:450-452. -/
structure TIfState where
  newStmts : TProg
  ifStack : List TOpenIf
  isThen : Bool

/-- parse.rs:507-516. -/
def TIfState.place (s : TIfState) (stmt : TProg) : TIfState :=
  match s.ifStack with
  | [] => { s with newStmts := s.newStmts ++ stmt }
  | top :: more =>
    if s.isThen then { s with ifStack := { top with thenStmts := top.thenStmts ++ stmt } :: more }
    else { s with ifStack := { top with elseStmts := top.elseStmts ++ stmt } :: more }

/-- The loop body of `parse_op_if` for an opcode statement, parse.rs:461-516. -/
def TIfState.opcode (s : TIfState) (text : String) (o : OpcodeStmt) : Except String TIfState :=
  match o.head with
  | .op .OP_IF | .op .OP_NOTIF =>
    .ok { s with ifStack := ⟨text, o, none, .nil, .nil⟩ :: s.ifStack, isThen := true }
  | .op .OP_ELSE =>
    match s.ifStack with
    | [] => .error "No previous OP_IF found."
    | top :: more =>
      .ok { s with ifStack := { top with elseOpcode := some (text, o) } :: more, isThen := false }
  | .op .OP_ENDIF =>
    match s.ifStack with
    | [] => .error "No previous OP_IF found."
    | top :: more => .ok (TIfState.place { s with ifStack := more }
        (.scriptIf top.ifText top.ifOpcode top.thenStmts top.elseOpcode top.elseStmts text o .nil))
  | _ => .ok (s.place (.leaf text (.opcode o) .nil))

/-- The loop of `parse_op_if`, parse.rs:461-516. -/
def parseLoopT : TProg → TIfState → Except String TIfState
  | .nil, s => .ok s
  | .leaf x (.opcode o) rest, s => (s.opcode x o).bind (parseLoopT rest)
  | .leaf x l rest, s => parseLoopT rest (s.place (.leaf x l .nil))
  | .scriptIf ix i t e el ex en rest, s =>
    parseLoopT rest (s.place (.scriptIf ix i t e el ex en .nil))

/-- `parse_op_if`, parse.rs:449-532. -/
def parseOpIfT (stmts : TProg) : Except String TProg :=
  (parseLoopT stmts ⟨.nil, [], true⟩).bind fun s =>
    match s.ifStack with
    | [] => .ok s.newStmts
    | _ :: _ => .error "Unclosed OP_IF."

/-- The body of a script function with the texts of its statements: the text of a `let` is that of the statement
(parse.rs:291), the text of an expression that of the expression (parse.rs:354). -/
inductive TSyn where
  | nil
  | leaf (text : String) (l : Leaf) (rest : TSyn)
  | block (inner : TSyn) (rest : TSyn)

/-- The first loop of `parse_stmts` (parse.rs:283-286) with `parse_stmt` (290-351) and
`parse_stmt_expr` (353-393). -/
def parseListT : TSyn → Except String TProg
  | .nil => .ok .nil
  | .leaf x l rest => (parseListT rest).map (.leaf x l)
  | .block inner rest =>
    ((parseListT inner).bind parseOpIfT).bind fun p => (parseListT rest).map (p ++ ·)

/-- `parse_stmts`, parse.rs:282-288. -/
def parseStmtsT (s : TSyn) : Except String TProg := (parseListT s).bind parseOpIfT

/-! ## Formatting -/

/-- Whether a statement has its text formatted and takes a formatted text: all but `transmute`,
generate.rs:932-936 and 294, 342, 360, 378, 430, 632. (Rust loops and `if`s, whose parts have their texts
formatted, generate.rs:937-945, are rejected later, generate.rs:277-284.) -/
def Leaf.takesLine : Leaf → Bool
  | .opcode ⟨.transmute, _, _⟩ => false
  | .forLoop | .rustIf => false
  | _ => true

/-- `make_stmt_token_streams`, generate.rs:925-960. -/
def TProg.texts : TProg → List String
  | .nil => []
  | .leaf x l rest => (if l.takesLine then [x] else []) ++ texts rest
  | .scriptIf ix _ t e el ex _ rest =>
    ix :: (texts t ++ ((e.map Prod.fst).toList ++ (texts el ++ ex :: texts rest)))

/-- Removing the first `\n {4}`: `indent.replace(s, "")`, gen_source.rs:13, 24. -/
def dropFirstIndent : List Char → List Char
  | [] => []
  | '\n' :: ' ' :: ' ' :: ' ' :: ' ' :: rest => rest
  | c :: rest => c :: dropFirstIndent rest

/-- Replacing every `\n {4}` by a line break: `indent.replace_all(.., "\n")`, gen_source.rs:13, 24. -/
def dropIndents : List Char → List Char
  | [] => []
  | '\n' :: ' ' :: ' ' :: ' ' :: ' ' :: rest => '\n' :: dropIndents rest
  | c :: rest => c :: dropIndents rest

/-- `dedent`, gen_source.rs:23-24. -/
def dedent (s : String) : String := String.ofList (dropIndents (dropFirstIndent s.toList))

/-- The foreign formatter: for a width and the texts of the statements, the formatted document
`fn main() { SEPARATOR(); stmt; SEPARATOR(); ... }` split at the separators, or an error message:
`format_token_stream` and `separator.split`, gen_source.rs:14-21, 26-27, 37-65. -/
abbrev Rustfmt := Nat → List String → Except String (List String)

/-- The pieces that are kept, gen_source.rs:26-31 (`lines.len() - 1` overflows if there is no separator). -/
def keepPieces (pieces : List String) : Res String (List String) :=
  match (pieces.drop 1).map dedent with
  | [] => .panic
  | x :: xs => .ok (x :: xs).dropLast

/-- `format_stmts`, gen_source.rs:9-35. -/
def formatStmts (fmt : Rustfmt) (widths : List Nat) (stmts : List String) : Res String (List (List String)) :=
  (collect (fun w => lift (fmt w stmts)) widths).bind (collect keepPieces)

/-- `next_formatted_stmts`, generate.rs:793-810, for statement number `idx`. -/
def formattedAt (lines : List (List String)) (widths : List Nat) (idx : Nat) : List (Nat × String) :=
  (lines.zip widths).map fun (ls, w) => (w, (ls[idx]?).getD "<unknown>")

/-! ## Generation -/

/-- `TaggedOp`, op.rs, without file, line and column. -/
structure Tagged where
  op : Op Bytes
  srcCode : List (Nat × String)
  pushed : Option (List (Option String))
  altPushed : Option (List (Option String))
deriving DecidableEq

/-- `make_tagged_op`, generate.rs:883-918. -/
def makeTaggedOp (debug : Bool) (e : Emit) (src : List (Nat × String)) : Tagged :=
  if debug then ⟨e.op, src, some e.pushed, some e.altPushed⟩ else ⟨e.op, [], none, none⟩

/-- The constant part of `GenerateScript`, generate.rs:15-23: `max_line_widths`, `formatted_lines`,
`enable_debug`. -/
structure Texts where
  widths : List Nat
  lines : List (List String)
  debug : Bool

/-- A statement that takes a formatted text if `takes`. -/
def tagWith (c : Texts) (takes : Bool) (idx : Nat) (r : Res String (List Emit × Gen)) :
    Res String (List Tagged × Gen × Nat) :=
  r.bind fun (es, g) =>
    .ok (es.map fun e => makeTaggedOp c.debug e (formattedAt c.lines c.widths idx), g,
      if takes then idx + 1 else idx)

/-- The statements in order, generate.rs:131-133, 269-287, 719-791, with `stmt_idx`. -/
def runProgT (c : Texts) : TProg → Gen → Nat → Res String (List Tagged × Gen × Nat)
  | .nil, g, idx => .ok ([], g, idx)
  | .leaf _ l rest, g, idx =>
    (tagWith c l.takesLine idx (runLeaf l g)).bind fun (e1, g, idx) =>
    (runProgT c rest g idx).bind fun (e2, g, idx) => .ok (e1 ++ e2, g, idx)
  | .scriptIf _ ifOp thenStmts elseOp elseStmts _ endifOp rest, g, idx =>
    (tagWith c (Leaf.opcode ifOp).takesLine idx (runOpcode ifOp g)).bind fun (e1, g, idx) =>
    (predicateName ifOp).bind fun name =>
    let heldIf := g.atoms ++ [⟨name, true⟩]
    let heldElse := g.atoms ++ [⟨name, false⟩]
    (runProgT c thenStmts { g with atoms := heldIf } idx).bind fun (e2, gt, idx) =>
    (match elseOp with
      | some (_, o) => tagWith c (Leaf.opcode o).takesLine idx (runOpcode o gt)
      | none => .ok ([], gt, idx)).bind fun (e3, gt, idx) =>
    (runProgT c elseStmts { g with atoms := heldElse, nIdent := gt.nIdent } idx).bind fun (e4, ge, idx) =>
    (tagWith c (Leaf.opcode endifOp).takesLine idx (runOpcode endifOp ge)).bind fun (e5, ge, idx) =>
    (merge gt.states heldIf heldElse ge.states).bind fun states =>
    (runProgT c rest { ge with states, atoms := g.atoms } idx).bind fun (e6, g, idx) =>
    .ok (e1 ++ e2 ++ e3 ++ e4 ++ e5 ++ e6, g, idx)

/-- `max_line_widths`, lib.rs:60. -/
def maxLineWidths : List Nat := [30, 40, 60, 80]

/-- `run_script`, generate.rs:33-267: the operations the generated function pushes, with what is recorded. (The
texts are formatted also if they are not recorded.) -/
def generateT (fmt : Rustfmt) (order : List (String × VState) → List (String × VState)) (debug : Bool) (d : Decl)
    (t : TProg) : Res String (List Tagged × Gen) :=
  (formatStmts fmt maxLineWidths t.texts).bind fun lines =>
  (initialStates d).bind fun states =>
  (runProgT ⟨maxLineWidths, lines, debug⟩ t ⟨order states, [], 0⟩ 0).bind fun (ops, g, _) => .ok (ops, g)


end BCash.Macro
