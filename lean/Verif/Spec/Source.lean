import Mathlib.Data.List.Forall2
import Verif.Spec.Macro
import Verif.Model.Parse

/-! # Specification: how a script function is written

What the attribute's arguments, the parameters, the documentation and the statements of a function say,
given by how each of them is written. The syntax trees (and the data types for what they say) are shared
with the model; nothing here refers to its functions, except that the bodies of Rust loops and `if`s,
which no script may contain, are only required to be readable. -/

namespace BCash.Spec.Source
open BCash.Macro BCash.Spec.Macro

/-- What is used about characters: the connectives of conditions are not alphanumeric, and the marker of
headings is not whitespace. -/
structure LexOk (lx : Lex) : Prop where
  not : lx.alnum '!' = false
  and : lx.alnum '&' = false
  or : lx.alnum '|' = false
  hash : lx.white '#' = false

/-- An identifier is nonempty and without whitespace. -/
def Word (lx : Lex) (x : String) : Prop := x.toList ≠ [] ∧ ∀ c ∈ x.toList, lx.white c = false

/-- A path consisting of one identifier. -/
def name (x : String) : Path := ⟨x, []⟩

/-! ## Arguments of the attribute -/

/-- `VariantName = "condition"`, `crate = "name"`, `debug = true`. -/
inductive Setting where
  | variant (name : String) (cond : Predicate)
  | crateName (name : String)
  | debug (on : Bool)

def Setting.written : Setting → NestedMeta
  | .variant v cond => .nested (.nameValue (name v) (.str (String.ofList (write cond))))
  | .crateName c => .nested (.nameValue (name "crate") (.str c))
  | .debug on => .nested (.nameValue (name "debug") (.bool on))

/-- Conditions are nonempty with good variable names; crate names are identifiers; `crate` and `debug`
are not variants. -/
def Setting.Ok (lx : Lex) : Setting → Prop
  | .variant v cond => v ≠ "crate" ∧ v ≠ "debug" ∧ cond ≠ [] ∧
      ∀ c ∈ cond, c ≠ [] ∧ ∀ a ∈ c, GoodAtom lx.alnum a
  | .crateName c => lx.isIdent c = true
  | .debug _ => True

/-- The variants, in order. -/
def variantSettings (l : List Setting) : List (String × Predicate) :=
  l.filterMap fun | .variant v c => some (v, c) | _ => none

/-- The crate name given last. -/
def crateSetting (l : List Setting) : Option String :=
  (l.filterMap fun | .crateName c => some c | _ => none).getLast?

/-- The debug setting given last. -/
def debugSetting (l : List Setting) : Option Bool :=
  (l.filterMap fun | .debug b => some b | _ => none).getLast?

/-- `StructName, settings...`. -/
def writtenArgs (structName : String) (l : List Setting) : List NestedMeta :=
  .nested (.path (name structName)) :: l.map Setting.written

/-! ## Parameters -/

/-- An attribute of a parameter. -/
inductive Mark where
  /-- `#[variant(A, B)]` -/
  | variants (vs : List String)
  /-- `#[variant]` -/
  | bare
  /-- any other attribute -/
  | other (a : Attribute)

def Mark.written : Mark → Attribute
  | .variants vs => ⟨name "variant", .list (vs.map fun v => .nested (.path (name v)))⟩
  | .bare => ⟨name "variant", .none⟩
  | .other a => a

def Mark.Ok : Mark → Prop
  | .other a => a.path ≠ name "variant"
  | _ => True

/-- The variants of a parameter: those its last `variant` attribute lists (`#[variant]` lists
`variant`), or all variants if there is none. -/
def listed (marks : List Mark) : Option (List String) :=
  (marks.filterMap fun | .variants vs => some vs | .bare => some ["variant"] | _ => none).getLast?

/-- All other attributes. -/
def kept (marks : List Mark) : List Attribute := marks.filterMap fun | .other a => some a | _ => none

/-- The parameter is written as this input. -/
def IsInput (a : FnArg) (i : ScriptInput) : Prop :=
  ∃ marks plain, a = .typed (marks.map Mark.written) (.ident i.name plain) i.ty ∧
    (∀ m ∈ marks, m.Ok) ∧ i.variants = listed marks ∧ i.attrs = kept marks

/-! ## Documentation -/

/-- The line consists of the marker and the name, up to whitespace around it. -/
def Heading (lx : Lex) (marker name line : String) : Prop :=
  ∃ before after : List Char, line.toList = before ++ marker.toList ++ name.toList ++ after ∧
    (∀ c ∈ before, lx.white c = true) ∧ ∀ c ∈ after, lx.white c = true

/-- `/// line`, or another attribute. -/
def docLines (attrs : List Attribute) : List String :=
  attrs.filterMap fun
    | ⟨⟨"doc", []⟩, .value (.str line)⟩ => some line
    | _ => none

/-- A documentation text: lines up to the heading of the input struct, the heading, lines, and sections
consisting of the heading of a variant and lines. -/
structure DocText where
  preamble : List String
  heading : String
  intro : List String
  /-- variant, heading, lines -/
  sections : List (String × String × List String)

def DocText.lines (t : DocText) : List String :=
  t.preamble ++ t.heading :: t.intro ++ t.sections.flatMap fun s => s.2.1 :: s.2.2

/-- Not a heading of the struct or of a variant. -/
def Plain (lx : Lex) (structName : String) (variants : List String) (line : String) : Prop :=
  ¬ Heading lx "# " structName line ∧ ∀ v ∈ variants, ¬ Heading lx "## " v line

def DocText.Ok (lx : Lex) (structName : String) (variants : List String) (t : DocText) : Prop :=
  (∀ l ∈ t.preamble, ¬ Heading lx "# " structName l) ∧
  Heading lx "# " structName t.heading ∧
  (∀ l ∈ t.intro, Plain lx structName variants l) ∧
  ∀ s ∈ t.sections, s.1 ∈ variants ∧ Heading lx "## " s.1 s.2.1 ∧
    ∀ l ∈ s.2.2, Plain lx structName variants l

/-- The lines of the last section about a variant. -/
def DocText.about (t : DocText) (v : String) : Option (List String) :=
  ((t.sections.filter fun s => s.1 == v).getLast?).map fun s => s.2.2

/-! ## Statements -/

/-- What the identifier of a statement stands for: every opcode except the data pushes and OP_RESERVED
under its name, and three functions. -/
inductive Stands : String → Head → Prop
  | op (o : Opcode) (h : o ∉ [.OP_PUSHDATA1, .OP_PUSHDATA2, .OP_PUSHDATA4, .OP_RESERVED,
      .FIRST_UNDEFINED_OP_VALUE]) : Stands o.name (.op o)
  | depthOf : Stands "depth_of" .depthOf
  | depthOfOffset : Stands "depth_of_offset" .depthOfOffset
  | transmute : Stands "transmute" .transmute

/-- ... and everything else for nothing. -/
def Means (x : String) (h : Head) : Prop := Stands x h ∨ (h = .unknown x ∧ ∀ h', ¬ Stands x h')

/-- Arguments: an identifier is a name, everything else an expression. -/
inductive SaysArg : Arg → OpcodeInput → Prop
  | ident (x : String) (src : Src) : SaysArg (.path (name x) src) (.ident x)
  | path (x y : String) (more : List String) (src : Src) :
      SaysArg (.path ⟨x, y :: more⟩ src) (.expr src.text src.value)
  | other (src : Src) : SaysArg (.other src) (.expr src.text src.value)

/-- `OP_X` and `OP_X(a, b)`, with or without names for the results. -/
inductive SaysOp : Expr → Option (List String) → OpcodeStmt → Prop
  | bare {x h} (outs : Option (List String)) (hx : Means x h) :
      SaysOp (.path (name x)) outs ⟨h, none, outs⟩
  | call {x h args args'} (outs : Option (List String)) (hx : Means x h)
      (hargs : List.Forall₂ SaysArg args args') :
      SaysOp (.call false (.path (name x)) args) outs ⟨h, some args', outs⟩

/-- `x` and `(x, y)` (in a tuple, `mut x` and the like count as `x`). -/
inductive SaysNames : Pat → List String → Prop
  | one (x : String) : SaysNames (.ident x true) [x]
  | tuple (xs : List String) : SaysNames (.tuple false (xs.map some)) xs

/-- Expressions whose value is pushed: anything but a call or a path. -/
inductive SaysValue : Expr → Op Bytes → Prop
  | other (src : Src) : SaysValue (.other src) src.op
  | block (src : Src) (b : Stmts) : SaysValue (.block src b) src.op
  | ifThen (src : Src) (t : Stmts) : SaysValue (.ifThen src t) src.op
  | ifElse (src : Src) (t : Stmts) (e : Expr) : SaysValue (.ifElse src t e) src.op
  | forLoop (src : Src) (b : Stmts) : SaysValue (.forLoop src b) src.op

/-- What a sequence of statements says: operations, pushes, and blocks of statements. -/
inductive Says : Stmts → Syn → Prop
  | nil : Says .nil .nil
  /-- `let names = OP_X(args);` -/
  | letOp {pat e rest names o s} (hn : SaysNames pat names) (ho : SaysOp e (some names) o)
      (hr : Says rest s) : Says (.letInit pat e rest) (.leaf (.opcode o) s)
  /-- `let x = value;` -/
  | letPush {pat e rest x op s} (hn : SaysNames pat [x]) (hv : SaysValue e op) (hr : Says rest s) :
      Says (.letInit pat e rest) (.leaf (.push op (some x)) s)
  /-- `OP_X(args);` -/
  | op {e rest o s} (ho : SaysOp e none o) (hr : Says rest s) : Says (.expr e rest) (.leaf (.opcode o) s)
  /-- `value;` (a block, loop or `if` is not a value here) -/
  | push {rest s} (src : Src) (hr : Says rest s) : Says (.expr (.other src) rest) (.leaf (.push src.op none) s)
  /-- `{ statements }` -/
  | block {body rest inner s} (src : Src) (hb : Says body inner) (hr : Says rest s) :
      Says (.expr (.block src body) rest) (.block inner s)
  | forLoop {body rest inner p s} (src : Src) (hb : Says body inner) (hp : parseStmts inner = .ok p)
      (hr : Says rest s) : Says (.expr (.forLoop src body) rest) (.leaf .forLoop s)
  | ifThen {t rest inner p s} (src : Src) (ht : Says t inner) (hp : parseStmts inner = .ok p)
      (hr : Says rest s) : Says (.expr (.ifThen src t) rest) (.leaf .rustIf s)
  | ifElse {t e rest inner inner' p p' s} (src : Src) (ht : Says t inner) (hp : parseStmts inner = .ok p)
      (he : Says (.expr e .nil) inner') (hp' : parseList inner' = .ok p')
      (hr : Says rest s) : Says (.expr (.ifElse src t e) rest) (.leaf .rustIf s)

/-! ## The whole function -/

/-- The attribute and the function declare this: the struct of the inputs, the variants with their
conditions, and the inputs (all parameters but the first). -/
structure Declares (lx : Lex) (args : List NestedMeta) (f : ItemFn) (d : Decl) : Prop where
  settings : ∃ l : List Setting, args = writtenArgs d.inputStruct l ∧ (∀ s ∈ l, s.Ok lx) ∧
    d.variants = variantSettings l
  noReturn : f.hasReturn = false
  inputs : ∃ attrs pat ty params inputs, f.inputs = .typed attrs pat ty :: params ∧
    List.Forall₂ IsInput params inputs ∧ d.inputs = inputs.map fun i => ⟨i.name, i.variants⟩

end BCash.Spec.Source
