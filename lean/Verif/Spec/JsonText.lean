import Verif.Model.JsonSerde

/-! # JSON texts: the grammar of RFC 8259 and the values of texts -/

namespace BCash
namespace Spec.Json

/-- White space. -/
def White (w : List Char) : Prop := ∀ c ∈ w, c ∈ [' ', '\t', '\n', '\r']

/-! ## Numbers -/

/-- A decimal digit. -/
def Digit (c : Char) : Prop := '0'.toNat ≤ c.toNat ∧ c.toNat ≤ '9'.toNat

/-- One or more digits. -/
def Digits (ds : List Char) : Prop := ds ≠ [] ∧ ∀ c ∈ ds, Digit c

/-- The number with these decimal digits. -/
def number (ds : List Char) : Nat := ds.foldl (fun n c => 10 * n + (c.toNat - '0'.toNat)) 0

/-- The integer part of a number: no leading zeros. -/
def IntPart (ds : List Char) : Prop := Digits ds ∧ (ds.head? = some '0' → ds = ['0'])

/-- An optional fraction. -/
def Frac (t : List Char) : Prop := t = [] ∨ ∃ ds, Digits ds ∧ t = '.' :: ds

/-- An optional exponent. -/
def Exp (t : List Char) : Prop :=
  t = [] ∨ ∃ e sign ds, (e = 'e' ∨ e = 'E') ∧ (sign = [] ∨ sign = ['+'] ∨ sign = ['-']) ∧ Digits ds ∧
    t = e :: (sign ++ ds)

/-- The text of a number: integers of the types `u64` and `i64` have their value, others (and `-0`, numbers
with a fraction or an exponent) are not integers for a reader. -/
inductive IsNum : List Char → SVal → Prop
  | nonneg {ds : List Char} (h : IntPart ds) (hn : number ds < 2 ^ 64) : IsNum ds (.num (number ds))
  | neg {ds : List Char} (h : IntPart ds) (hn : 0 < number ds ∧ number ds ≤ 2 ^ 63) :
      IsNum ('-' :: ds) (.num (-(number ds : Int)))
  | big {ds : List Char} (h : IntPart ds) (hn : 2 ^ 64 ≤ number ds) : IsNum ds .other
  | negBig {ds : List Char} (h : IntPart ds) (hn : number ds = 0 ∨ 2 ^ 63 < number ds) :
      IsNum ('-' :: ds) .other
  | float {sign ds frac exp : List Char} (hs : sign = [] ∨ sign = ['-']) (h : IntPart ds)
      (hf : Frac frac) (he : Exp exp) (hne : frac ≠ [] ∨ exp ≠ []) :
      IsNum (sign ++ ds ++ frac ++ exp) .other

/-! ## Strings -/

/-- A hexadecimal digit and its value. -/
inductive HexDigit : Char → Nat → Prop
  | dec {c : Char} (h : Digit c) : HexDigit c (c.toNat - '0'.toNat)
  | lower {c : Char} (h : 'a'.toNat ≤ c.toNat ∧ c.toNat ≤ 'f'.toNat) : HexDigit c (c.toNat - 'a'.toNat + 10)
  | upper {c : Char} (h : 'A'.toNat ≤ c.toNat ∧ c.toNat ≤ 'F'.toNat) : HexDigit c (c.toNat - 'A'.toNat + 10)

/-- The escape sequences of two characters: the second one, and the code of the character meant. -/
def escapes : List (Char × Nat) :=
  [('"', 0x22), ('\\', 0x5C), ('/', 0x2F), ('b', 0x08), ('f', 0x0C), ('n', 0x0A), ('r', 0x0D), ('t', 0x09)]

/-- A piece of a string and the code it stands for. -/
inductive Piece : List Char → Nat → Prop
  | char {c : Char} (h : 0x20 ≤ c.toNat) (hq : c ≠ '"') (hb : c ≠ '\\') : Piece [c] c.toNat
  | escape {c : Char} {u : Nat} (h : (c, u) ∈ escapes) : Piece ['\\', c] u
  | unicode {a b c d : Char} {x y z w : Nat} (ha : HexDigit a x) (hb : HexDigit b y) (hc : HexDigit c z)
      (hd : HexDigit d w) : Piece ['\\', 'u', a, b, c, d] (x * 16 ^ 3 + y * 16 ^ 2 + z * 16 + w)

/-- The pieces of a string and their codes. -/
inductive Pieces : List Char → List Nat → Prop
  | nil : Pieces [] []
  | cons {p t : List Char} {u : Nat} {us : List Nat} (h : Piece p u) (hs : Pieces t us) :
      Pieces (p ++ t) (u :: us)

/-- The characters that codes stand for (UTF-16): a high and a low surrogate together are one character; a
surrogate alone is none. -/
inductive Chars : List Nat → List Char → Prop
  | nil : Chars [] []
  | one {u : Nat} {c : Char} {us : List Nat} {cs : List Char} (h : c.toNat = u) (hs : Chars us cs) :
      Chars (u :: us) (c :: cs)
  | two {u v : Nat} {c : Char} {us : List Nat} {cs : List Char} (hu : 0xD800 ≤ u ∧ u < 0xDC00)
      (hv : 0xDC00 ≤ v ∧ v < 0xE000) (h : c.toNat = 0x10000 + (u - 0xD800) * 0x400 + (v - 0xDC00))
      (hs : Chars us cs) : Chars (u :: v :: us) (c :: cs)

/-- The text between the quotes of a string. -/
def IsString (t : List Char) (s : String) : Prop := ∃ us, Pieces t us ∧ Chars us s.toList

/-- A string with half of a surrogate pair. -/
def IsBroken (t : List Char) : Prop := ∃ us, Pieces t us ∧ ¬ ∃ cs, Chars us cs

/-- The text between the quotes of a key, which may be broken. -/
inductive IsKey : List Char → Option String → Prop
  | good {t : List Char} {s : String} (h : IsString t s) : IsKey t (some s)
  | broken {t : List Char} (h : IsBroken t) : IsKey t none

/-! ## Values -/

mutual
/-- The text of a value, without white space around it. -/
inductive IsVal : List Char → SVal → Prop
  | null : IsVal "null".toList .null
  | true : IsVal "true".toList (.bool Bool.true)
  | false : IsVal "false".toList (.bool Bool.false)
  | num {t : List Char} {v : SVal} (h : IsNum t v) : IsVal t v
  | str {t : List Char} {s : String} (h : IsString t s) : IsVal ('"' :: t ++ ['"']) (.str (utf8 s))
  | broken {t : List Char} (h : IsBroken t) : IsVal ('"' :: t ++ ['"']) .other
  | empty {w : List Char} (hw : White w) : IsVal ('[' :: w ++ [']']) (.seq [])
  | arr {t : List Char} {vs : List SVal} (h : IsElems t vs) : IsVal ('[' :: t ++ [']']) (.seq vs)
  | none {w : List Char} (hw : White w) : IsVal ('{' :: w ++ ['}']) (.map [])
  | obj {t : List Char} {kvs : List (String × SVal)}
      (h : IsMembers t (kvs.map fun p => (some p.1, p.2))) : IsVal ('{' :: t ++ ['}']) (.map kvs)
  | brokenObj {t : List Char} {kvs : List (Option String × SVal)} (h : IsMembers t kvs)
      (hb : ∃ p ∈ kvs, p.1 = Option.none) : IsVal ('{' :: t ++ ['}']) .other

/-- The elements of an array. -/
inductive IsElems : List Char → List SVal → Prop
  | one {w t w' : List Char} {v : SVal} (hw : White w) (h : IsVal t v) (hw' : White w') :
      IsElems (w ++ t ++ w') [v]
  | cons {w t w' ts : List Char} {v : SVal} {vs : List SVal} (hw : White w) (h : IsVal t v)
      (hw' : White w') (hs : IsElems ts vs) : IsElems (w ++ t ++ w' ++ ',' :: ts) (v :: vs)

/-- The entries of a map. -/
inductive IsMembers : List Char → List (Option String × SVal) → Prop
  | one {w k w₁ w₂ t w' : List Char} {key : Option String} {v : SVal} (hw : White w) (hk : IsKey k key)
      (h₁ : White w₁) (h₂ : White w₂) (h : IsVal t v) (hw' : White w') :
      IsMembers (w ++ '"' :: k ++ '"' :: w₁ ++ ':' :: w₂ ++ t ++ w') [(key, v)]
  | cons {w k w₁ w₂ t w' ts : List Char} {key : Option String} {v : SVal}
      {kvs : List (Option String × SVal)} (hw : White w) (hk : IsKey k key)
      (h₁ : White w₁) (h₂ : White w₂) (h : IsVal t v) (hw' : White w') (hs : IsMembers ts kvs) :
      IsMembers (w ++ '"' :: k ++ '"' :: w₁ ++ ':' :: w₂ ++ t ++ w' ++ ',' :: ts) ((key, v) :: kvs)
end

/-- A JSON text and its value. -/
def IsText (text : List Char) (v : SVal) : Prop :=
  ∃ w t w', White w ∧ IsVal t v ∧ White w' ∧ text = w ++ t ++ w'

end Spec.Json
end BCash
