import Verif.Model.MacroGen

/-! # The script macro: reading the Rust function — `bitcoin-cash-script-macro/src/parse.rs`

The Rust syntax tree (`syn`) of the attribute's arguments and of the function. Spans and token streams
are erased. Of an expression that is pushed or passed as an argument, its text, the operation
`(expr).to_pushop()` evaluates to and its value as an `i32` are kept. -/

namespace BCash

/-- `{:?}` of an opcode (derived `Debug`, opcode.rs:60-2423): the name of the variant. -/
def Opcode.name : Opcode → String
  | .OP_0 => "OP_0"
  | .OP_PUSHDATA1 => "OP_PUSHDATA1"
  | .OP_PUSHDATA2 => "OP_PUSHDATA2"
  | .OP_PUSHDATA4 => "OP_PUSHDATA4"
  | .OP_1NEGATE => "OP_1NEGATE"
  | .OP_RESERVED => "OP_RESERVED"
  | .OP_1 => "OP_1"
  | .OP_2 => "OP_2"
  | .OP_3 => "OP_3"
  | .OP_4 => "OP_4"
  | .OP_5 => "OP_5"
  | .OP_6 => "OP_6"
  | .OP_7 => "OP_7"
  | .OP_8 => "OP_8"
  | .OP_9 => "OP_9"
  | .OP_10 => "OP_10"
  | .OP_11 => "OP_11"
  | .OP_12 => "OP_12"
  | .OP_13 => "OP_13"
  | .OP_14 => "OP_14"
  | .OP_15 => "OP_15"
  | .OP_16 => "OP_16"
  | .OP_NOP => "OP_NOP"
  | .OP_VER => "OP_VER"
  | .OP_IF => "OP_IF"
  | .OP_NOTIF => "OP_NOTIF"
  | .OP_VERIF => "OP_VERIF"
  | .OP_VERNOTIF => "OP_VERNOTIF"
  | .OP_ELSE => "OP_ELSE"
  | .OP_ENDIF => "OP_ENDIF"
  | .OP_VERIFY => "OP_VERIFY"
  | .OP_RETURN => "OP_RETURN"
  | .OP_TOALTSTACK => "OP_TOALTSTACK"
  | .OP_FROMALTSTACK => "OP_FROMALTSTACK"
  | .OP_2DROP => "OP_2DROP"
  | .OP_2DUP => "OP_2DUP"
  | .OP_3DUP => "OP_3DUP"
  | .OP_2OVER => "OP_2OVER"
  | .OP_2ROT => "OP_2ROT"
  | .OP_2SWAP => "OP_2SWAP"
  | .OP_IFDUP => "OP_IFDUP"
  | .OP_DEPTH => "OP_DEPTH"
  | .OP_DROP => "OP_DROP"
  | .OP_DUP => "OP_DUP"
  | .OP_NIP => "OP_NIP"
  | .OP_OVER => "OP_OVER"
  | .OP_PICK => "OP_PICK"
  | .OP_ROLL => "OP_ROLL"
  | .OP_ROT => "OP_ROT"
  | .OP_SWAP => "OP_SWAP"
  | .OP_TUCK => "OP_TUCK"
  | .OP_CAT => "OP_CAT"
  | .OP_SPLIT => "OP_SPLIT"
  | .OP_NUM2BIN => "OP_NUM2BIN"
  | .OP_BIN2NUM => "OP_BIN2NUM"
  | .OP_SIZE => "OP_SIZE"
  | .OP_INVERT => "OP_INVERT"
  | .OP_AND => "OP_AND"
  | .OP_OR => "OP_OR"
  | .OP_XOR => "OP_XOR"
  | .OP_EQUAL => "OP_EQUAL"
  | .OP_EQUALVERIFY => "OP_EQUALVERIFY"
  | .OP_RESERVED1 => "OP_RESERVED1"
  | .OP_RESERVED2 => "OP_RESERVED2"
  | .OP_1ADD => "OP_1ADD"
  | .OP_1SUB => "OP_1SUB"
  | .OP_2MUL => "OP_2MUL"
  | .OP_2DIV => "OP_2DIV"
  | .OP_NEGATE => "OP_NEGATE"
  | .OP_ABS => "OP_ABS"
  | .OP_NOT => "OP_NOT"
  | .OP_0NOTEQUAL => "OP_0NOTEQUAL"
  | .OP_ADD => "OP_ADD"
  | .OP_SUB => "OP_SUB"
  | .OP_MUL => "OP_MUL"
  | .OP_DIV => "OP_DIV"
  | .OP_MOD => "OP_MOD"
  | .OP_LSHIFT => "OP_LSHIFT"
  | .OP_RSHIFT => "OP_RSHIFT"
  | .OP_BOOLAND => "OP_BOOLAND"
  | .OP_BOOLOR => "OP_BOOLOR"
  | .OP_NUMEQUAL => "OP_NUMEQUAL"
  | .OP_NUMEQUALVERIFY => "OP_NUMEQUALVERIFY"
  | .OP_NUMNOTEQUAL => "OP_NUMNOTEQUAL"
  | .OP_LESSTHAN => "OP_LESSTHAN"
  | .OP_GREATERTHAN => "OP_GREATERTHAN"
  | .OP_LESSTHANOREQUAL => "OP_LESSTHANOREQUAL"
  | .OP_GREATERTHANOREQUAL => "OP_GREATERTHANOREQUAL"
  | .OP_MIN => "OP_MIN"
  | .OP_MAX => "OP_MAX"
  | .OP_WITHIN => "OP_WITHIN"
  | .OP_RIPEMD160 => "OP_RIPEMD160"
  | .OP_SHA1 => "OP_SHA1"
  | .OP_SHA256 => "OP_SHA256"
  | .OP_HASH160 => "OP_HASH160"
  | .OP_HASH256 => "OP_HASH256"
  | .OP_CODESEPARATOR => "OP_CODESEPARATOR"
  | .OP_CHECKSIG => "OP_CHECKSIG"
  | .OP_CHECKSIGVERIFY => "OP_CHECKSIGVERIFY"
  | .OP_CHECKMULTISIG => "OP_CHECKMULTISIG"
  | .OP_CHECKMULTISIGVERIFY => "OP_CHECKMULTISIGVERIFY"
  | .OP_NOP1 => "OP_NOP1"
  | .OP_CHECKLOCKTIMEVERIFY => "OP_CHECKLOCKTIMEVERIFY"
  | .OP_CHECKSEQUENCEVERIFY => "OP_CHECKSEQUENCEVERIFY"
  | .OP_NOP4 => "OP_NOP4"
  | .OP_NOP5 => "OP_NOP5"
  | .OP_NOP6 => "OP_NOP6"
  | .OP_NOP7 => "OP_NOP7"
  | .OP_NOP8 => "OP_NOP8"
  | .OP_NOP9 => "OP_NOP9"
  | .OP_NOP10 => "OP_NOP10"
  | .OP_CHECKDATASIG => "OP_CHECKDATASIG"
  | .OP_CHECKDATASIGVERIFY => "OP_CHECKDATASIGVERIFY"
  | .OP_REVERSEBYTES => "OP_REVERSEBYTES"
  | .FIRST_UNDEFINED_OP_VALUE => "FIRST_UNDEFINED_OP_VALUE"

/-- `MAP_NAME_TO_ENUM`, opcode.rs:9-22, as a list of entries. -/
def Opcode.nameMap : List (String × Opcode) :=
  ("OP_0", .OP_0) :: ("OP_1NEGATE", .OP_1NEGATE) ::
    ((List.range' 0x51 (0xbd - 0x51)).filterMap fun code =>
      (Opcode.ofByte (UInt8.ofNat code)).map fun o => (o.name, o))

namespace Macro

/-- The identifier of a statement: `MAP_NAME_TO_ENUM.get`, generate.rs:339, and the names of
`run_opcode_function`, generate.rs:630-716. (The names of conditionals that `parse_op_if` looks for,
parse.rs:466-505, are in the map.) -/
def Head.ofName (name : String) : Head :=
  match Opcode.nameMap.lookup name with
  | some o => .op o
  | none =>
    if name = "depth_of" then .depthOf
    else if name = "depth_of_offset" then .depthOfOffset
    else if name = "transmute" then .transmute
    else .unknown name

/-! ## Syntax trees -/

/-- `syn::Path`: one segment or more (leading colons and generic arguments erased). -/
structure Path where
  first : String
  more : List String
deriving DecidableEq, Repr

/-- `syn::Lit`. -/
inductive Lit where
  | str (s : String)
  | bool (b : Bool)
  | other
deriving DecidableEq, Repr

mutual
/-- `syn::Meta`. -/
inductive Meta where
  | path (path : Path)
  | list (path : Path) (nested : List NestedMeta)
  | nameValue (path : Path) (lit : Lit)
/-- `syn::NestedMeta`. -/
inductive NestedMeta where
  | nested (m : Meta)
  | lit (l : Lit)
end

/-- The tokens of an attribute after its path. -/
inductive AttrContent where
  | none
  | list (nested : List NestedMeta)
  | value (lit : Lit)
  /-- anything else -/
  | other

/-- `syn::Attribute`. -/
structure Attribute where
  path : Path
  content : AttrContent

/-- `syn::Attribute::parse_meta` (`none`: an error). -/
def Attribute.parseMeta (a : Attribute) : Option Meta :=
  match a.content with
  | .none => some (.path a.path)
  | .list nested => some (.list a.path nested)
  | .value lit => some (.nameValue a.path lit)
  | .other => .none

/-- An expression as a value: its text, `(expr).to_pushop()` and its value as an `i32`. -/
structure Src where
  text : String
  op : Op Bytes
  value : Int
deriving DecidableEq, Repr

/-- An argument of a call: a path or any other expression. -/
inductive Arg where
  | path (p : Path) (src : Src)
  | other (src : Src)
deriving DecidableEq, Repr

/-- What is called: a path or any other expression. -/
inductive Callee where
  | path (p : Path)
  | other
deriving DecidableEq, Repr

/-- `syn::Pat`: an identifier (`plain`: without attributes, `ref`, `mut` and subpattern), a tuple of
patterns (of which only identifiers matter), or another pattern. -/
inductive Pat where
  | ident (name : String) (plain : Bool)
  | tuple (hasAttrs : Bool) (elems : List (Option String))
  | other
deriving DecidableEq, Repr

mutual
/-- `syn::Expr`. -/
inductive Expr where
  | path (p : Path)
  | call (hasAttrs : Bool) (callee : Callee) (args : List Arg)
  | forLoop (src : Src) (body : Stmts)
  | ifThen (src : Src) (thenBranch : Stmts)
  | ifElse (src : Src) (thenBranch : Stmts) (elseBranch : Expr)
  | block (src : Src) (body : Stmts)
  | other (src : Src)
/-- `Vec<syn::Stmt>`; `expr` stands for expressions with and without semicolon. -/
inductive Stmts where
  | nil
  | letInit (pat : Pat) (init : Expr) (rest : Stmts)
  | letOnly (pat : Pat) (rest : Stmts)
  | expr (e : Expr) (rest : Stmts)
  | item (rest : Stmts)
end

/-- `syn::FnArg`. -/
inductive FnArg where
  | receiver
  | typed (attrs : List Attribute) (pat : Pat) (ty : String)

/-- `syn::ItemFn`; `constGeneric`: whether it has a const parameter. -/
structure ItemFn where
  attrs : List Attribute
  hasReturn : Bool
  constGeneric : Bool
  inputs : List FnArg
  body : Stmts

/-- Facts about characters and identifiers: `char::is_alphanumeric`, `char::is_whitespace`, and whether
`syn::Ident::new` accepts a string (it panics otherwise). -/
structure Lex where
  alnum : Char → Bool
  white : Char → Bool
  isIdent : String → Bool

/-! ## Attributes -/

/-- `single_path`, parse.rs:68-74. -/
def singlePath (p : Path) : Option String := if p.more.isEmpty then some p.first else none

/-- `parse_string_lit`, parse.rs:174-180. -/
def parseStringLit : Lit → Option String
  | .str s => some s
  | _ => none

/-- `parse_bool_lit`, parse.rs:182-188. -/
def parseBoolLit : Lit → Option Bool
  | .bool b => some b
  | _ => none

/-- The local variables of `parse_attrs`, parse.rs:88-90. -/
structure Settings where
  crateName : Option String
  variants : List (String × Predicate)
  debug : Option Bool
deriving DecidableEq, Repr

/-- `parse_predicate`, parse.rs:190-231. -/
def parsePredicateLit (lx : Lex) (l : Lit) : Res String Predicate :=
  match parseStringLit l with
  | none => .err "Invalid predicate literal, must be string."
  | some s => parsePredicate lx.alnum s.toList

/-- The loop body of `parse_attrs`, parse.rs:91-113. -/
def parseSetting (lx : Lex) (s : Settings) : NestedMeta → Res String Settings
  | .nested (.nameValue path lit) =>
    match singlePath path with
    | none => .err "Variant cannot have a module"
    | some name =>
      if name = "crate" then
        match parseStringLit lit with
        | none => .err "Invalid crate name, must be string."
        | some c => if lx.isIdent c then .ok { s with crateName := some c } else .panic
      else if name = "debug" then
        match parseBoolLit lit with
        | none => .err "Invalid debug, must be bool."
        | some b => .ok { s with debug := some b }
      else (parsePredicateLit lx lit).bind fun p => .ok { s with variants := s.variants ++ [(name, p)] }
  | _ => .err "Invalid variant, must be of form `VariantName=\"conditions\"`"

/-- The loop of `parse_attrs`, parse.rs:91-113. -/
def parseSettings (lx : Lex) : List NestedMeta → Settings → Res String Settings
  | [], s => .ok s
  | a :: as, s => (parseSetting lx s a).bind (parseSettings lx as)

/-- `parse_attrs`, parse.rs:76-116. -/
def parseAttrs (lx : Lex) : List NestedMeta → Res String (String × Settings)
  | [] => .err "Must provide at least input struct name"
  | .nested (.path p) :: rest =>
    match singlePath p with
    | none => .err "Input struct name cannot have a module"
    | some name => (parseSettings lx rest ⟨none, [], none⟩).bind fun s => .ok (name, s)
  | _ :: _ => .err "Invalid input struct name"

/-! ## Documentation -/

/-- `struct ScriptDocs`, ir.rs:19-22. -/
structure Docs where
  inputStruct : List String
  variants : List (String × List String)
deriving DecidableEq, Repr

/-- `parse_doc_attribute`, parse.rs:162-172. -/
def parseDocAttribute (a : Attribute) : Option String :=
  match a.parseMeta with
  | some (.nameValue path lit) =>
    match singlePath path with
    | some name => if name = "doc" then parseStringLit lit else none
    | none => none
  | _ => none

/-- `str::trim`. -/
def trim (lx : Lex) (s : String) : List Char :=
  ((s.toList.dropWhile lx.white).reverse.dropWhile lx.white).reverse

/-- `starts_with(prefix) && name == s[prefix.len()..]`, parse.rs:133, 138-141. -/
def isHeading (lx : Lex) (marker : List Char) (name : String) (line : String) : Bool :=
  trim lx line == marker ++ name.toList

/-- `HashMap::insert` of no lines. -/
def resetDocs (variants : List (String × List String)) (v : String) : List (String × List String) :=
  if variants.any fun p => p.1 == v then variants.map fun p => if p.1 == v then (v, []) else p
  else variants ++ [(v, [])]

/-- The local variables of `parse_docs`, parse.rs:123-127. -/
structure DocState where
  docs : Docs
  found : Bool
  current : Option String
deriving DecidableEq, Repr

/-- The loop body of `parse_docs`, parse.rs:128-155 (`get_mut(..).unwrap()` panics if there is no entry). -/
def docLine (lx : Lex) (inputStruct : String) (variants : List String) (s : DocState) (line : String) :
    Res String DocState :=
  if isHeading lx ['#', ' '] inputStruct line then .ok { s with found := true }
  else
    match (if s.found then variants.find? fun v => isHeading lx ['#', '#', ' '] v line else none) with
    | some v =>
      .ok { s with current := some v, docs := { s.docs with variants := resetDocs s.docs.variants v } }
    | none =>
      match s.current with
      | some v =>
        if s.docs.variants.any fun p => p.1 == v then
          .ok { s with docs := { s.docs with
            variants := s.docs.variants.map fun p => if p.1 == v then (p.1, p.2 ++ [line]) else p } }
        else .panic
      | none =>
        if s.found then .ok { s with docs := { s.docs with inputStruct := s.docs.inputStruct ++ [line] } }
        else .ok s

/-- The loop of `parse_docs`, parse.rs:128-155. -/
def docLoop (lx : Lex) (inputStruct : String) (variants : List String) :
    List String → DocState → Res String DocState
  | [], s => .ok s
  | l :: ls, s => (docLine lx inputStruct variants s l).bind (docLoop lx inputStruct variants ls)

/-- `parse_docs`, parse.rs:118-160. -/
def parseDocs (lx : Lex) (attrs : List Attribute) (inputStruct : String) (variants : List String) :
    Res String Docs :=
  (docLoop lx inputStruct variants (attrs.filterMap parseDocAttribute) ⟨⟨[], []⟩, false, none⟩).map
    DocState.docs

/-! ## Inputs -/

/-- `struct ScriptInput`, ir.rs:42-48 (`token_stream` erased). -/
structure ScriptInput where
  name : String
  ty : String
  variants : Option (List String)
  attrs : List Attribute

/-- The closure for one listed variant, parse.rs:251-257. -/
def parseListed : NestedMeta → Res String String
  | .nested (.path p) =>
    match singlePath p with
    | some v => .ok v
    | none => .err "Variant cannot have a module"
  | _ => .err "Invalid variant"

/-- The loop of `parse_script_input`, parse.rs:236-268. -/
def parseInputAttrs : List Attribute → Option (List String) → List Attribute →
    Res String (Option (List String) × List Attribute)
  | [], variants, attrs => .ok (variants, attrs)
  | a :: as, variants, attrs =>
    if singlePath a.path = some "variant" then
      match a.parseMeta with
      | none => .err "parse error"
      | some (.list _ nested) => (collect parseListed nested).bind fun vs =>
          parseInputAttrs as (some vs) attrs
      | some (.path p) =>
        match singlePath p with
        | some v => parseInputAttrs as (some [v]) attrs
        | none => .err "Variant cannot have a module"
      | some (.nameValue _ _) => .err "Invalid variant"
    else parseInputAttrs as variants (attrs ++ [a])

/-- `parse_script_input`, parse.rs:230-280. -/
def parseScriptInput (attrs : List Attribute) (pat : Pat) (ty : String) : Res String ScriptInput :=
  (parseInputAttrs attrs none []).bind fun (variants, attrs) =>
    match pat with
    | .ident name _ => .ok ⟨name, ty, variants, attrs⟩
    | _ => .err "Only plain identifiers are supported as script inputs."

/-- The closure for one parameter, parse.rs:56-62. -/
def parseFnArg : FnArg → Res String ScriptInput
  | .typed attrs pat ty => parseScriptInput attrs pat ty
  | .receiver => .err "Cannot have self parameters"

/-- `parse_script_inputs`, parse.rs:38-66. -/
def parseScriptInputs : List FnArg → Res String (List ScriptInput × String)
  | [] => .err "A script must take at least one parameter, the constructor parameters."
  | .receiver :: _ => .err "A script cannot be a method; the first parameter must contain the necessary constructor parameters."
  | .typed _ _ ty :: rest => (collect parseFnArg rest).bind fun inputs => .ok (inputs, ty)

/-! ## Statements -/

/-- `parse_opcode_inputs`, parse.rs:431-447. -/
def parseOpcodeInput : Arg → OpcodeInput
  | .path p src =>
    match singlePath p with
    | some name => .ident name
    | none => .expr src.text src.value
  | .other src => .expr src.text src.value

/-- `parse_opcode`, parse.rs:395-429; `none`: not a call or path. -/
def parseOpcode (e : Expr) (outputNames : Option (List String)) : Except String OpcodeStmt :=
  match e with
  | .call hasAttrs callee args =>
    if hasAttrs then .error "Unexpected attribute"
    else match callee with
      | .other => .error "Expected path"
      | .path p =>
        match singlePath p with
        | some name => .ok ⟨Head.ofName name, some (args.map parseOpcodeInput), outputNames⟩
        | none => .error "Expected opcode."
  | .path p =>
    match singlePath p with
    | some name => .ok ⟨Head.ofName name, none, outputNames⟩
    | none => .error "Expected opcode."
  | _ => .error "Expected call or path"

/-- The names given by a `let`, parse.rs:298-319. -/
def letNames : Pat → Except String (List String)
  | .ident name plain => if plain then .ok [name] else .error "Expected `let x = ...`"
  | .tuple hasAttrs elems =>
    if hasAttrs then .error "Expected `let x = ...`"
    else elems.foldr (fun x r => r.bind fun names =>
      match x with
      | some name => .ok (name :: names)
      | none => .error "Expected `let x = ...`") (.ok [])
  | .other => .error "Expected `let x = ...`"

/-- The operation of an expression that is pushed. (Calls and paths are never pushed.) -/
def Expr.pushop : Expr → Op Bytes
  | .forLoop src _ | .ifThen src _ | .ifElse src _ _ | .block src _ | .other src => src.op
  | .path _ | .call _ _ _ => .code .OP_0

/-- A `let` with an initialiser, parse.rs:293-345. -/
def parseLet (pat : Pat) (init : Expr) : Except String Leaf :=
  (letNames pat).bind fun names =>
    match init with
    | .call _ _ _ | .path _ => (parseOpcode init (some names)).map .opcode
    | _ =>
      match names with
      | [name] => .ok (.push init.pushop (some name))
      | _ => .error "Expected single output"

mutual
/-- `parse_stmt_expr`, parse.rs:353-393. -/
def parseStmtExpr : Expr → Except String Prog
  | .forLoop _ body => ((parseStmtList body).bind parseOpIf).map fun _ => .leaf .forLoop .nil
  | .ifThen _ t => ((parseStmtList t).bind parseOpIf).map fun _ => .leaf .rustIf .nil
  | .ifElse _ t e => ((parseStmtList t).bind parseOpIf).bind fun _ =>
      (parseStmtExpr e).map fun _ => .leaf .rustIf .nil
  | .block _ body => (parseStmtList body).bind parseOpIf
  | .call hasAttrs callee args =>
    (parseOpcode (.call hasAttrs callee args) none).map fun o => .leaf (.opcode o) .nil
  | .path p => (parseOpcode (.path p) none).map fun o => .leaf (.opcode o) .nil
  | .other src => .ok (.leaf (.push src.op none) .nil)
/-- The first loop of `parse_stmts`, parse.rs:283-286, with `parse_stmt`, parse.rs:290-351. -/
def parseStmtList : Stmts → Except String Prog
  | .nil => .ok .nil
  | .letInit pat init rest => (parseLet pat init).bind fun l => (parseStmtList rest).map (.leaf l)
  | .letOnly _ _ => .error "Expected opcode after `let`"
  | .expr e rest => (parseStmtExpr e).bind fun p => (parseStmtList rest).map (p ++ ·)
  | .item _ => .error "Unexpected Item"
end

/-- `parse_stmts`, parse.rs:282-288. -/
def parseBody (s : Stmts) : Except String Prog := (parseStmtList s).bind parseOpIf

/-! ## The whole function -/

/-- `struct Script`, ir.rs:5-17. -/
structure Script where
  inputStruct : String
  crateIdent : Option String
  scriptVariants : List (String × Predicate)
  paramType : String
  inputs : List ScriptInput
  stmts : Prog
  docs : Docs
  enableDebug : Bool

/-- `parse_script`, parse.rs:8-36. -/
def parseScript (lx : Lex) (args : List NestedMeta) (f : ItemFn) : Res String Script :=
  (parseAttrs lx args).bind fun (inputStruct, s) =>
  if f.hasReturn then .err "A script's return type should be empty (no `->`)"
  else
    (parseDocs lx f.attrs inputStruct (s.variants.map Prod.fst)).bind fun docs =>
    (parseScriptInputs f.inputs).bind fun (inputs, paramType) =>
    (lift (parseBody f.body)).bind fun stmts =>
    .ok ⟨inputStruct, s.crateName, s.variants, paramType, inputs, stmts, docs, s.debug.getD true⟩

/-- The part of the script that matters for code generation. -/
def Script.decl (s : Script) : Decl :=
  ⟨s.inputStruct, s.scriptVariants, s.inputs.map fun i => ⟨i.name, i.variants⟩⟩

/-- The attribute macro `script`, lib.rs:44-68, with `GenerateScript::run`, generate.rs:26-31, up to the
generated operations. A const parameter panics after the statements have been generated
(generate.rs:148-153). -/
def scriptMacro (lx : Lex) (order : List (String × VState) → List (String × VState))
    (args : List NestedMeta) (f : ItemFn) : Res String (Script × List Emit × Gen) :=
  (parseScript lx args f).bind fun s =>
  (generate order s.decl s.stmts).bind fun r =>
  if f.constGeneric then .panic else .ok (s, r)

end Macro
end BCash
