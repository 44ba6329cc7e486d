import Mathlib.Data.List.Forall2
import Verif.Model.Derive

/-! # Specification: structs with a derived serialisation

How a struct must be written for the macro to accept it, and what its serialisation is, in terms of the
serialisations of the types of its fields. The syntax trees and the description of the surrounding program
are shared with the model; nothing here refers to the model's functions. -/

namespace BCash.Spec.Derive
open BCash.Macro BCash.Derive

/-- An attribute of a struct. -/
inductive Mark where
  /-- `#[bitcoin_code(crate = "a", crate = "b", …)]` -/
  | crates (names : List String)
  /-- any other attribute -/
  | other (a : Attribute)

def Mark.written : Mark → Attribute
  | .crates names => ⟨⟨"bitcoin_code", []⟩, .list (names.map fun c => .nested (.nameValue ⟨"crate", []⟩ (.str c)))⟩
  | .other a => a

/-- Other attributes are `name`, `name = literal` or `name(…)`, and not `bitcoin_code(…)`; crate names are
identifiers. -/
def Mark.Ok (lx : Lex) : Mark → Prop
  | .crates names => ∀ c ∈ names, lx.isIdent c = true
  | .other a => a.content ≠ .other ∧ ∀ l, a.content = .list l → a.path ≠ ⟨"bitcoin_code", []⟩

/-- The crate named last, or `bitcoin_cash`. -/
def crateOf (marks : List Mark) : String :=
  ((marks.map fun | .crates names => names | .other _ => []).flatten.getLast?).getD "bitcoin_cash"

/-- `#[path(skip)]` -/
def skipMark (path : Path) : Attribute := ⟨path, .list [.nested (.path ⟨"skip", []⟩)]⟩

/-- A field has no attributes other than `#[path(skip)]`, for any paths. -/
def PlainField (f : Field) : Prop := ∃ paths : List Path, f.attrs = paths.map skipMark

/-- The struct is written as the macro expects: named fields, well-written attributes. -/
def WellWritten (lx : Lex) (s : ItemStruct) (crateName : String) (fields : List Field) : Prop :=
  (∃ marks : List Mark, s.attrs = marks.map Mark.written ∧ (∀ m ∈ marks, m.Ok lx) ∧
    crateName = crateOf marks) ∧
  s.fields = .named fields ∧ ∀ f ∈ fields, PlainField f

/-- The fields that are written: those without attributes. -/
def Stored (f : Field) : Prop := f.attrs = []

/-- The surrounding program makes the implementation possible. -/
structure Fits {V : Type} (W : World V) (s : ItemStruct) (crateName : String) (fields : List Field) : Prop where
  notGeneric : s.generic = false
  crateKnown : W.crates crateName = true
  inScope : (∃ f ∈ fields, Stored f) → W.inScope = true
  /-- stored fields have serialisable types, the others types with a default -/
  stored : ∀ f ∈ fields, Stored f → ∃ c, W.code f.ty = some c
  skipped : ∀ f ∈ fields, ¬ Stored f → ∃ d, W.dflt f.ty = some d
  /-- no field is called `data` -/
  names : ∀ f ∈ fields, f.name ≠ "data"

/-- `parts` are the serialised values of the stored fields, in order, each named after its field. -/
inductive Parts {V : Type} (W : World V) : List Field → Record V → List ByteArray → Prop
  | nil : Parts W [] [] []
  | stored {f fs v r c b ps} : Stored f → W.code f.ty = some c → c.ser v = some b → Parts W fs r ps →
      Parts W (f :: fs) ((f.name, v) :: r) (b.named f.name :: ps)
  | skipped {f fs v r ps} : ¬ Stored f → Parts W fs r ps → Parts W (f :: fs) ((f.name, v) :: r) ps

/-- The fields are read from `data` in order, each from what the one before left; fields that are not
stored have their default. -/
inductive Reads {V : Type} (W : World V) : List Field → ByteArray → Record V → ByteArray → Prop
  | nil {data} : Reads W [] data [] data
  | stored {f fs data c v mid r rest} : Stored f → W.code f.ty = some c → c.deserRest data = .ok (v, mid) →
      Reads W fs mid r rest → Reads W (f :: fs) data ((f.name, v) :: r) rest
  | skipped {f fs data d r rest} : ¬ Stored f → W.dflt f.ty = some d → Reads W fs data r rest →
      Reads W (f :: fs) data ((f.name, d) :: r) rest

/-- The values of two records agree: stored fields are related by `R`, the others of the second record have
their default. -/
inductive Kept {V : Type} (W : World V) (R : V → V → Prop) : List Field → Record V → Record V → Prop
  | nil : Kept W R [] [] []
  | stored {f fs v w r q} : Stored f → R v w → Kept W R fs r q →
      Kept W R (f :: fs) ((f.name, v) :: r) ((f.name, w) :: q)
  | skipped {f fs v d r q} : ¬ Stored f → W.dflt f.ty = some d → Kept W R fs r q →
      Kept W R (f :: fs) ((f.name, v) :: r) ((f.name, d) :: q)

/-- What is written for a value is read back, whatever follows. -/
def ReadsBack {V : Type} (c : CodecP V) (R : V → V → Prop) (v : V) : Prop :=
  ∀ b, c.ser v = some b → ∀ (data : ByteArray) (rest : Bytes), data.data = b.data ++ rest →
    ∃ w r, c.deserRest data = .ok (w, r) ∧ R v w ∧ r.data = rest

/-- Only what writing produces is read. -/
def Canonical {V : Type} (c : CodecP V) : Prop :=
  ∀ data v rest, c.deserRest data = .ok (v, rest) → ∃ b, c.ser v = some b ∧ data.data = b.data ++ rest.data

end BCash.Spec.Derive
