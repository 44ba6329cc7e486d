import Verif.Model.Func
import Verif.Model.MacroText
import Verif.Model.Parse

/-! # The inputs type — `bitcoin-cash-script-macro/src/generate.rs:50-237`

The struct or enum the macro generates for the inputs of a script, and its implementation of `Ops`. Visibility of
the type itself, file, line and column are left out; `text` is the text of a parameter
(`input.token_stream.to_string()`, generate.rs:83). -/

namespace BCash.Macro

/-- A field of the generated type: `#attrs pub name: ty`, generate.rs:79-82, or `#attrs name: ty`,
generate.rs:191-196. -/
structure FieldItem where
  attrs : List Attribute
  isPub : Bool
  name : String
  ty : String

/-- A case of the generated enum, generate.rs:197-202. -/
structure CaseItem where
  docs : List String
  name : String
  fields : List FieldItem

/-- The generated type, generate.rs:166-171 and 225-230. -/
inductive InputsItem where
  | struct (docs : List String) (name : String) (fields : List FieldItem)
  | enum (docs : List String) (name : String) (cases : List CaseItem)

/-- `enum_variant_fields.get_mut(v).unwrap().push(…)`, generate.rs:112-118, 122-128. -/
def addField (m : String → List ScriptInput) (i : ScriptInput) (v : String) : String → List ScriptInput :=
  fun w => if w = v then m w ++ [i] else m w

/-- `enum_variant_fields` after the loop over the inputs, generate.rs:39, 59, 71-130. -/
def enumVariantFields (variants : List (String × Predicate)) : List ScriptInput → (String → List ScriptInput) →
    String → List ScriptInput
  | [], m => m
  | i :: is, m =>
    enumVariantFields variants is (match i.variants with
      | some vs => vs.foldl (fun m v => addField m i v) m
      | none => (variants.map Prod.fst).foldl (fun m v => addField m i v) m)

/-- The inputs of a variant. -/
def Script.fieldsOf (s : Script) (v : String) : List ScriptInput :=
  enumVariantFields s.scriptVariants s.inputs (fun _ => []) v

/-- The generated type, generate.rs:163-237. -/
def Script.inputsItem (s : Script) : InputsItem :=
  if s.scriptVariants.isEmpty then
    .struct s.docs.inputStruct s.inputStruct (s.inputs.map fun i => ⟨i.attrs, true, i.name, i.ty⟩)
  else
    .enum s.docs.inputStruct s.inputStruct (s.scriptVariants.map fun (v, _) =>
      ⟨(s.docs.variants.lookup v).getD [], v, (s.fieldsOf v).map fun i => ⟨i.attrs, false, i.name, i.ty⟩⟩)

/-- A value of the generated type: the case (for a struct its name) and the values of the fields. -/
structure InputsValue where
  case : String
  fields : List (String × PushValue)

/-- The pushes of a struct or case, generate.rs:89-95 and 205-220: the value of each field, recorded with its
name and the text of the parameter at every width. -/
def pushFields (debug : Bool) (text : ScriptInput → String) (fields : List (String × PushValue)) :
    List ScriptInput → Res Empty (List Tagged)
  | [] => .ok []
  | i :: is =>
    match fields.lookup i.name with
    | none => .panic
    | some v => v.toPushop.bind fun op => (pushFields debug text fields is).bind fun ts =>
        .ok (makeTaggedOp debug ⟨op, [some i.name], []⟩ (maxLineWidths.map fun w => (w, text i)) :: ts)

/-- `Ops for InputStruct`, generate.rs:163-237, 240-245. -/
def Script.inputOps (s : Script) (text : ScriptInput → String) (v : InputsValue) : Res Empty (List Tagged) :=
  if s.scriptVariants.isEmpty then pushFields s.enableDebug text v.fields s.inputs
  else pushFields s.enableDebug text v.fields (s.fieldsOf v.case)

end BCash.Macro
