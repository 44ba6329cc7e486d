import Mathlib.Data.List.Forall2
import Verif.Model.MacroItems

/-! # Specification of C96: the type of the inputs of a script -/

namespace BCash.Spec.Items
open BCash.Macro

/-- A parameter as a field: the same attributes, name and type. -/
def asField (isPub : Bool) (i : ScriptInput) : FieldItem := ⟨i.attrs, isPub, i.name, i.ty⟩

/-- The input exists in this variant: it lists it, or lists none. -/
def applies (v : String) (i : ScriptInput) : Bool :=
  match i.variants with
  | none => true
  | some vs => vs.contains v

/-- The type one expects: without variants a struct of all inputs, else an enum with a case for each variant with
the inputs that exist in it, documented as written. -/
def expected (docs : List String) (about : String → Option (List String)) (name : String)
    (variants : List String) (inputs : List ScriptInput) : InputsItem :=
  if variants = [] then .struct docs name (inputs.map (asField true))
  else .enum docs name (variants.map fun v =>
    ⟨(about v).getD [], v, (inputs.filter (applies v)).map (asField false)⟩)

/-- What `rustc` demands of the type: no case twice, no field twice. -/
def Valid : InputsItem → Prop
  | .struct _ _ fields => (fields.map FieldItem.name).Nodup
  | .enum _ _ cases => (cases.map CaseItem.name).Nodup ∧ ∀ c ∈ cases, (c.fields.map FieldItem.name).Nodup

/-- A value of the type: one value for each field of the struct or of one of the cases. -/
inductive Inhabits : InputsItem → InputsValue → Prop where
  | struct (docs : List String) (name : String) (fields : List FieldItem) (values : List (String × PushValue)) :
      values.map Prod.fst = fields.map FieldItem.name → Inhabits (.struct docs name fields) ⟨name, values⟩
  | enum (docs : List String) (name : String) (cases : List CaseItem) (c : CaseItem)
      (values : List (String × PushValue)) : c ∈ cases →
      values.map Prod.fst = c.fields.map FieldItem.name → Inhabits (.enum docs name cases) ⟨c.name, values⟩

/-- The value of a field has the type written for the field, as `rustc` reads it. -/
def OfField (tyOf : String → Option FTy) (f : FieldItem) (value : String × PushValue) : Prop :=
  value.1 = f.name ∧ tyOf f.ty = some value.2.fType

/-- A value of the type, as `rustc` checks it. -/
inductive WellTyped (tyOf : String → Option FTy) : InputsItem → InputsValue → Prop where
  | struct (docs : List String) (name : String) (fields : List FieldItem) (values : List (String × PushValue)) :
      List.Forall₂ (OfField tyOf) fields values → WellTyped tyOf (.struct docs name fields) ⟨name, values⟩
  | enum (docs : List String) (name : String) (cases : List CaseItem) (c : CaseItem)
      (values : List (String × PushValue)) : c ∈ cases →
      List.Forall₂ (OfField tyOf) c.fields values → WellTyped tyOf (.enum docs name cases) ⟨c.name, values⟩

/-- The values that cannot be pushed. -/
def Unpushable (v : PushValue) : Prop := (∃ e, v = .integerResult (.error e)) ∨ v = .inner (-2 ^ 31)

end BCash.Spec.Items
