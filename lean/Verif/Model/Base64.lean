import Verif.Model.Basic

/-! # Standard base64 (RFC 4648 section 4, with padding)

`base64::encode`, `base64::decode` (crate base64 0.13) as used in serialize_json.rs:343, 368. The crate
is outside the repository; this is the standard's definition. -/

namespace BCash.Base64

/-- RFC 4648 table 1. -/
def alphabet : List Char :=
  "ABCDEFGHIJKLMNOPQRSTUVWXYZabcdefghijklmnopqrstuvwxyz0123456789+/".toList

/-- The character of a 6-bit value. -/
def char (n : Nat) : Char := alphabet.getD n '='

/-- The value of a character. -/
def val (c : Char) : Option Nat := alphabet.idxOf? c

/-- `base64::encode`, serialize_json.rs:343. -/
def encodeChars : Bytes → List Char
  | [] => []
  | [a] => [char (a.toNat / 4), char (a.toNat % 4 * 16), '=', '=']
  | [a, b] =>
    [char (a.toNat / 4), char (a.toNat % 4 * 16 + b.toNat / 16), char (b.toNat % 16 * 4), '=']
  | a :: b :: c :: rest =>
    char (a.toNat / 4) :: char (a.toNat % 4 * 16 + b.toNat / 16) ::
      char (b.toNat % 16 * 4 + c.toNat / 64) :: char (c.toNat % 64) :: encodeChars rest

/-- `base64::decode`, serialize_json.rs:368: groups of four characters, padding only at the end and
with zero spare bits. -/
def decodeChars : List Char → Option Bytes
  | [] => some []
  | w :: x :: y :: z :: rest =>
    if z = '=' then
      if rest ≠ [] then none
      else if y = '=' then
        (val w).bind fun w => (val x).bind fun x =>
          if x % 16 = 0 then some [UInt8.ofNat (w * 4 + x / 16)] else none
      else
        (val w).bind fun w => (val x).bind fun x => (val y).bind fun y =>
          if y % 4 = 0 then
            some [UInt8.ofNat (w * 4 + x / 16), UInt8.ofNat (x % 16 * 16 + y / 4)]
          else none
    else
      (val w).bind fun w => (val x).bind fun x => (val y).bind fun y => (val z).bind fun z =>
        (decodeChars rest).bind fun bytes =>
          some (UInt8.ofNat (w * 4 + x / 16) :: UInt8.ofNat (x % 16 * 16 + y / 4) ::
            UInt8.ofNat (y % 4 * 64 + z) :: bytes)
  | _ => none

/-- `base64::encode`. -/
def encode (d : Bytes) : String := String.ofList (encodeChars d)
/-- `base64::decode`. -/
def decode (s : String) : Option Bytes := decodeChars s.toList

end BCash.Base64
