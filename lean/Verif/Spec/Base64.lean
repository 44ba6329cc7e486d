import Verif.Model.Basic

/-! # Specification of base64 text (RFC 4648 section 4; independent of the code) -/

namespace BCash.Spec

/-- The character of a 6-bit value: A–Z, a–z, 0–9, `+`, `/`. -/
def base64Char (n : Nat) : Char :=
  if n < 26 then Char.ofNat (0x41 + n)
  else if n < 52 then Char.ofNat (0x61 + (n - 26))
  else if n < 62 then Char.ofNat (0x30 + (n - 52))
  else if n = 62 then '+' else '/'

/-- The four characters of a group of 24 bits. -/
def base64Group (g : Nat) : List Char :=
  [base64Char (g / 2 ^ 18), base64Char (g / 2 ^ 12 % 2 ^ 6), base64Char (g / 2 ^ 6 % 2 ^ 6), base64Char (g % 2 ^ 6)]

/-- Text of bytes: groups of three bytes; a last group of one or two bytes is filled with zero bits, and the
characters without any bits are replaced by `=`. -/
inductive IsBase64 : Bytes → List Char → Prop
  | nil : IsBase64 [] []
  | one (a : UInt8) : IsBase64 [a] ((base64Group (a.toNat * 2 ^ 16)).take 2 ++ ['=', '='])
  | two (a b : UInt8) : IsBase64 [a, b] ((base64Group (a.toNat * 2 ^ 16 + b.toNat * 2 ^ 8)).take 3 ++ ['='])
  | group (a b c : UInt8) (d : Bytes) (s : List Char) : IsBase64 d s →
      IsBase64 (a :: b :: c :: d) (base64Group (a.toNat * 2 ^ 16 + b.toNat * 2 ^ 8 + c.toNat) ++ s)

end BCash.Spec
