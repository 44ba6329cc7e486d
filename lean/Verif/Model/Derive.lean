import Verif.Model.CodecP
import Verif.Model.Parse

/-! # The derive macro — `bitcoin-cash-code/src/lib.rs`

`#[derive(BitcoinCode)]`: what `generate` makes of the declaration of a struct, and what the generated
implementation does when it is compiled. The syntax trees of attributes are those of `Model/Parse.lean` (the
helpers `single_path` and `parse_string_lit`, lib.rs:7-21, are the same as in the script macro). Types are
their texts; visibility and the positions of errors are left out. -/

namespace BCash.Derive
open BCash.Macro

/-! ## Declarations -/

/-- A named field, `syn::Field`. -/
structure Field where
  attrs : List Attribute
  name : String
  ty : String

/-- `syn::Fields`. -/
inductive Fields where
  | named (fields : List Field)
  | unnamed
  | unit

/-- `syn::ItemStruct`; `generic`: it has a type or lifetime parameter (without default). -/
structure ItemStruct where
  attrs : List Attribute
  name : String
  generic : Bool
  fields : Fields

/-- What the macro can be put on. -/
inductive Item where
  | struct (s : ItemStruct)
  /-- an enum or a union -/
  | other

/-! ## Generated code -/

/-- A statement of the generated `deser_rest`. -/
inductive Let where
  /-- `let (name, data) = <ty as crate::BitcoinCode>::deser_rest(data)?;`, lib.rs:137-139 -/
  | read (name ty : String)
  /-- `let name = Default::default();`, lib.rs:141-143 -/
  | default (name : String)
deriving DecidableEq, Repr

/-- The generated implementation, lib.rs:149-165. -/
structure Output where
  structName : String
  crateName : String
  /-- the number in `Vec::with_capacity` -/
  capacity : Nat
  /-- `__serialize_parts.push(self.field.ser().named("label"));`, lib.rs:134-136: field and label -/
  pushes : List (String × String)
  lets : List Let
  /-- the fields of the struct literal, lib.rs:160 -/
  literal : List String
deriving DecidableEq, Repr

/-! ## `generate` -/

/-- The body of the loop over the arguments of `bitcoin_code`, lib.rs:31-71. -/
def crateArg (lx : Lex) : NestedMeta → Res String String
  | .nested (.nameValue path lit) =>
    match singlePath path with
    | none => .err "Invalid attribute, invalid name"
    | some ident =>
      if ident = "crate" then
        match parseStringLit lit with
        | none => .err "Invalid attribute, invalid value"
        | some c => if lx.isIdent c then .ok c else .panic
      else .err "Invalid attribute, unknown name"
  | .nested _ => .err "Invalid parameter, must provide values like this: a=\"b\""
  | .lit _ => .err "Invalid literal, must provide values like this: a=\"b\""

/-- The loop over the arguments of `bitcoin_code`, lib.rs:31-71. -/
def crateArgs (lx : Lex) : List NestedMeta → String → Res String String
  | [], c => .ok c
  | a :: as, _ => (crateArg lx a).bind (crateArgs lx as)

/-- The loop over the attributes of the struct, lib.rs:28-75. The path is compared as text: one segment. -/
def structAttrs (lx : Lex) : List Attribute → String → Res String String
  | [], c => .ok c
  | a :: as, c =>
    match a.parseMeta with
    | none => .err "syntax"
    | some (.list path nested) =>
      if path = ⟨"bitcoin_code", []⟩ then (crateArgs lx nested c).bind (structAttrs lx as)
      else structAttrs lx as c
    | some _ => structAttrs lx as c

/-- `param.to_token_stream().to_string()` is `"skip"`, lib.rs:110-119: a path of that one segment. -/
def isSkip : NestedMeta → Bool
  | .nested (.path p) => p = ⟨"skip", []⟩
  | _ => false

/-- The loop over the attributes of a field, lib.rs:101-124. The path of the attribute is not looked at. -/
def fieldAttrs : List Attribute → Bool → Res String Bool
  | [], skipped => .ok skipped
  | a :: as, _ =>
    match a.parseMeta with
    | none => .err "syntax"
    | some (.path _) => .err "Invalid attribute"
    | some (.nameValue _ _) => .err "Invalid attribute"
    | some (.list _ nested) =>
      match nested with
      | [n] => if isSkip n then fieldAttrs as true else .err "Invalid attribute"
      | _ => .err "Invalid attribute"

/-- The three vectors filled by the loop over the fields, lib.rs:95-97. -/
structure Calls where
  pushes : List (String × String)
  lets : List Let
  literal : List String

/-- The loop over the fields, lib.rs:99-145. -/
def fieldCalls : List Field → Res String Calls
  | [] => .ok ⟨[], [], []⟩
  | f :: fs =>
    (fieldAttrs f.attrs false).bind fun skipped =>
    (fieldCalls fs).bind fun c =>
      .ok (if skipped then ⟨c.pushes, .default f.name :: c.lets, f.name :: c.literal⟩
        else ⟨(f.name, f.name) :: c.pushes, .read f.name f.ty :: c.lets, f.name :: c.literal⟩)

/-- `generate`, lib.rs:23-167. -/
def generate (lx : Lex) (s : ItemStruct) : Res String Output :=
  (structAttrs lx s.attrs "bitcoin_cash").bind fun crateName =>
    match s.fields with
    | .unnamed => .err "Cannot use macro for unnamed struct fields"
    | .unit => .err "Cannot use macro for unit structs"
    | .named fields =>
      (fieldCalls fields).bind fun c =>
        .ok ⟨s.name, crateName, fields.length, c.pushes, c.lets, c.literal⟩

/-- `serialize_macro`, lib.rs:169-179: anything but a struct is an error of the parser; errors become
`compile_error!`. -/
def deriveMacro (lx : Lex) : Item → Res String Output
  | .struct s => generate lx s
  | .other => .err "expected `struct`"

/-! ## The generated implementation, compiled -/

/-- What the surrounding program provides: the implementations of `BitcoinCode` and `Default` for the types
of fields (`V`: the values of all types), whether the trait is in scope where the struct is declared (which the
method call `.ser()` needs), and the names under which the library is known. -/
structure World (V : Type) where
  code : String → Option (CodecP V)
  dflt : String → Option V
  inScope : Bool
  crates : String → Bool

/-- The value of a struct: its fields with their values, in order. -/
abbrev Record (V : Type) := List (String × V)

/-- The type of a field of the struct. -/
def tyOf (fields : List Field) (x : String) : Option String := (fields.find? (·.name = x)).map Field.ty

/-- rustc accepts a statement of `deser_rest`: `let (data, data) = …` binds a name twice (E0416); the
types must have the implementations. -/
def Let.ok {V : Type} (W : World V) (fields : List Field) : Let → Bool
  | .read x ty => x ≠ "data" && (W.code ty).isSome
  | .default x => ((tyOf fields x).bind W.dflt).isSome

/-- rustc accepts the generated implementation: the impl has no generics, the crate must be known, the trait
must be in scope for the method calls, and `data`, which is moved out as the rest, cannot also be moved into a
field (E0382; also E0308 unless that field is a `ByteArray`). -/
def compiles {V : Type} (W : World V) (s : ItemStruct) (fields : List Field) (o : Output) : Bool :=
  !s.generic && W.crates o.crateName && (o.pushes.isEmpty || W.inScope) && o.lets.all (Let.ok W fields) &&
    !(o.literal.contains "data")

/-- The generated `ser`, lib.rs:151-155: the parts. -/
def runPushes {V : Type} (W : World V) (fields : List Field) (self : Record V) :
    List (String × String) → Option (List ByteArray)
  | [] => some []
  | (x, label) :: ps =>
    ((tyOf fields x).bind W.code).bind fun c => (self.lookup x).bind fun v => (c.ser v).bind fun b =>
      (runPushes W fields self ps).bind fun bs => some (b.named label :: bs)

/-- The statements of the generated `deser_rest`, lib.rs:158: the local variables besides `data`, the
latest first, and `data`. (No statement that compiles binds `data` to anything but the rest.) -/
def runLets {V : Type} (W : World V) (fields : List Field) :
    List Let → Record V → ByteArray → Res Error (Record V × ByteArray)
  | [], env, data => .ok (env, data)
  | .read x ty :: ls, env, data =>
    match W.code ty with
    | none => .panic
    | some c => (c.deserRest data).bind fun (v, rest) => runLets W fields ls ((x, v) :: env) rest
  | .default x :: ls, env, data =>
    match (tyOf fields x).bind W.dflt with
    | none => .panic
    | some v => runLets W fields ls ((x, v) :: env) data

/-- The struct literal, lib.rs:160: each field from the local variable of its name. -/
def buildLiteral {V : Type} (env : Record V) : List String → Option (Record V)
  | [] => some []
  | x :: xs => (env.lookup x).bind fun v => (buildLiteral env xs).bind fun r => some ((x, v) :: r)

/-- The compiled implementation. -/
def Output.codec {V : Type} (W : World V) (fields : List Field) (o : Output) : CodecP (Record V) where
  ser self := (runPushes W fields self o.pushes).map ByteArray.fromParts
  deserRest data := (runLets W fields o.lets [] data).bind fun (env, rest) =>
    match buildLiteral env o.literal with
    | none => .panic
    | some r => .ok (r, rest)

/-- The macro and the compiler together: the implementation of `BitcoinCode` for a struct, if there is one. -/
def derived {V : Type} (lx : Lex) (W : World V) (s : ItemStruct) : Option (CodecP (Record V)) :=
  match generate lx s, s.fields with
  | .ok o, .named fields => if compiles W s fields o then some (o.codec W fields) else none
  | _, _ => none

end BCash.Derive
