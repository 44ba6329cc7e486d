import Mathlib.Data.List.Forall2
import Verif.Spec.Macro
import Verif.Model.MacroText

/-! # Specification: recorded source texts

Statement trees with texts are shared with the model. -/

namespace BCash.Spec.Text
open BCash.Macro BCash.Spec.Macro

/-- A tree without its texts. -/
def erase : TProg → Prog
  | .nil => .nil
  | .leaf _ l rest => .leaf l (erase rest)
  | .scriptIf _ i t e el _ en rest => .scriptIf i (erase t) (e.map Prod.snd) (erase el) en (erase rest)

/-- A body without its texts. -/
def eraseBody : TSyn → Syn
  | .nil => .nil
  | .leaf _ l rest => .leaf l (eraseBody rest)
  | .block inner rest => .block (eraseBody inner) (eraseBody rest)

/-- The statements of a tree with their texts in the order in which they are written. -/
def statements : TProg → List (String × Leaf)
  | .nil => []
  | .leaf x l rest => (x, l) :: statements rest
  | .scriptIf ix i t e el ex en rest =>
    (ix, .opcode i) :: (statements t ++ ((e.toList.map fun p => (p.1, Leaf.opcode p.2)) ++ statements el)) ++
      (ex, .opcode en) :: statements rest

/-- The statements of a body with their texts. -/
def source : TSyn → List (String × Leaf)
  | .nil => []
  | .leaf x l rest => (x, l) :: source rest
  | .block inner rest => source inner ++ source rest

/-- A body in which every branch is written as a block. -/
def blocks : TProg → TSyn
  | .nil => .nil
  | .leaf x l rest => .leaf x l (blocks rest)
  | .scriptIf ix i t none _ ex en rest =>
    .leaf ix (.opcode i) (.block (blocks t) (.leaf ex (.opcode en) (blocks rest)))
  | .scriptIf ix i t (some (y, e)) el ex en rest => .leaf ix (.opcode i) (.block (blocks t)
      (.leaf y (.opcode e) (.block (blocks el) (.leaf ex (.opcode en) (blocks rest)))))

/-- `transmute` becomes no operation. -/
def silent : Leaf → Bool
  | .opcode ⟨.transmute, _, _⟩ => true
  | _ => false

/-- The statement becomes this operation. -/
def Becomes : Leaf → Op Bytes → Prop
  | .push op _, x => x = op
  | .opcode ⟨.op o, _, _⟩, x => x = .code o
  | .opcode ⟨.depthOf, _, _⟩, x => ∃ n, x = .pushInteger n
  | .opcode ⟨.depthOfOffset, _, _⟩, x => ∃ n, x = .pushInteger n
  | _, _ => False

/-- Lines below each other, each indented by four blanks. -/
def indented (lines : List String) : String := String.join (lines.map fun l => "\n    " ++ l)

/-- The statements of a tree that become operations, in order. -/
def spoken (t : TProg) : List (String × Leaf) := (statements t).filter fun x => !silent x.2

/-- The formatter formats each of these statements on its own: at each of the four widths, the formatted document
consists of something before the first separator, the lines of each statement, indented, and something after the
last separator. -/
def FormatsEach (fmt : Rustfmt) (lines : Nat → String → List String) (stmts : List String) : Prop :=
  ∀ w ∈ [30, 40, 60, 80], (∀ x ∈ stmts, lines w x ≠ [] ∧ ∀ l ∈ lines w x, '\n' ∉ l.toList) ∧
    ∃ before after, fmt w stmts = .ok (before :: stmts.map (fun x => indented (lines w x)) ++ [after])

/-- The text recorded for a statement: its lines at each of the widths 30, 40, 60 and 80. -/
def recorded (lines : Nat → String → List String) (text : String) : List (Nat × String) :=
  [30, 40, 60, 80].map fun w => (w, "\n".intercalate (lines w text))

end BCash.Spec.Text
