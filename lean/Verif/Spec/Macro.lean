import Verif.Model.Macro

/-! # Specification for the script macro's conditions and conditionals

Conditions are formulas in disjunctive form over named truth values; a script body is a sequence of
statements in which OP_IF/OP_NOTIF, OP_ELSE and OP_ENDIF are brackets. The data types (atoms,
statements, statement trees) are shared with the model; the meaning given here is independent of it. -/

namespace BCash.Spec.Macro
open BCash.Macro

/-! ## Conditions -/

/-- One of the alternatives is satisfied by the assignment. -/
def Sat (α : String → Bool) (p : List (List Atom)) : Prop :=
  ∃ c ∈ p, ∀ a ∈ c, α a.varName = a.isPositive

/-- The assignment agrees with what is known. -/
def Agrees (α : String → Bool) (known : List Atom) : Prop := ∀ a ∈ known, α a.varName = a.isPositive

/-- No variable occurs both plain and negated. -/
def Consistent (c : List Atom) : Prop :=
  ∀ a ∈ c, ∀ b ∈ c, a.varName = b.varName → a.isPositive = b.isPositive

/-- How an atom is written. -/
def writeAtom (a : Atom) : List Char := (if a.isPositive then [] else ['!']) ++ a.varName.toList

/-- Pieces with a separator between them. -/
def sepBy (sep : List Char) : List (List Char) → List Char
  | [] => []
  | [x] => x
  | x :: y :: rest => x ++ sep ++ sepBy sep (y :: rest)

/-- How a condition is written: `a&&!b||c`. -/
def write (p : List (List Atom)) : List Char :=
  sepBy ['|', '|'] (p.map fun c => sepBy ['&', '&'] (c.map writeAtom))

/-- Names are nonempty sequences of letters, digits and underscores. -/
def GoodName (alnum : Char → Bool) (name : String) : Prop :=
  name.toList ≠ [] ∧ ∀ c ∈ name.toList, alnum c = true ∨ c = '_'

/-- Atoms that can be written so that they are read back: a good name whose first character is ASCII
unless the atom is negated. -/
def GoodAtom (alnum : Char → Bool) (a : Atom) : Prop :=
  GoodName alnum a.varName ∧ (a.isPositive = true → (a.varName.toList.headD 'a').toNat < 128)

/-! ## Conditionals -/

/-- The statements of a tree in the order in which they are written (and executed): condition, then
branch, else, else branch, end. -/
def written : Prog → List Leaf
  | .nil => []
  | .leaf l rest => l :: written rest
  | .scriptIf i t e el en rest =>
    .opcode i :: (written t ++ (e.toList.map Leaf.opcode ++ written el)) ++ .opcode en :: written rest

/-- The brackets. -/
def opens (l : Leaf) : Bool :=
  match l with | .opcode ⟨.op .OP_IF, _, _⟩ | .opcode ⟨.op .OP_NOTIF, _, _⟩ => true | _ => false
def isElse (l : Leaf) : Bool := match l with | .opcode ⟨.op .OP_ELSE, _, _⟩ => true | _ => false
def closes (l : Leaf) : Bool := match l with | .opcode ⟨.op .OP_ENDIF, _, _⟩ => true | _ => false

/-- A well-formed tree: brackets are where they belong, and only there; without OP_ELSE there is no else
branch. -/
def WellNested : Prog → Prop
  | .nil => True
  | .leaf l rest => opens l = false ∧ isElse l = false ∧ closes l = false ∧ WellNested rest
  | .scriptIf i t e el en rest =>
    opens (.opcode i) = true ∧ (∀ o, e = some o → isElse (.opcode o) = true) ∧
    (e = none → el = .nil) ∧ closes (.opcode en) = true ∧ WellNested t ∧ WellNested el ∧ WellNested rest

/-- Brackets are balanced, starting with `depth` open conditionals. -/
def balanced : (depth : Nat) → List Leaf → Bool
  | depth, [] => depth == 0
  | depth, l :: ls =>
    if opens l then balanced (depth + 1) ls
    else if isElse l then depth != 0 && balanced depth ls
    else if closes l then depth != 0 && balanced (depth - 1) ls
    else balanced depth ls

/-- A sequence of statements as a program without structure. -/
def plain : List Leaf → Prog
  | [] => .nil
  | l :: ls => .leaf l (plain ls)

/-- The statements of a body with blocks, in written order. -/
def body : Syn → List Leaf
  | .nil => []
  | .leaf l rest => l :: body rest
  | .block inner rest => body inner ++ body rest

/-- A body in which every branch is written as a block, `OP_IF(..); { .. } OP_ELSE; { .. }
OP_ENDIF;`. -/
def blocks : Prog → Syn
  | .nil => .nil
  | .leaf l rest => .leaf l (blocks rest)
  | .scriptIf i t none _ en rest => .leaf (.opcode i) (.block (blocks t) (.leaf (.opcode en) (blocks rest)))
  | .scriptIf i t (some e) el en rest => .leaf (.opcode i) (.block (blocks t)
      (.leaf (.opcode e) (.block (blocks el) (.leaf (.opcode en) (blocks rest)))))

end BCash.Spec.Macro
