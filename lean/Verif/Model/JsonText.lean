import Verif.Model.JsonSerde

/-! # JSON texts — `serde_json::to_string` and `serde_json::from_str` (external)

The two functions of the crate `serde_json` (version 1, default features) that `serialize_json.rs:105-113`
uses, as writer and reader of values of the serde data model. A text is a list of characters (`&str`).

Simplifications: `from_str` reads typed values directly from the text; here the text is read completely
first. Only the order in which errors are noticed differs. Values that no type here accepts are read as
`SVal.other`, because `serde_json` skips them where they belong to an unknown field. The limit of 128 nested
arrays and maps is left out: it concerns typed values only (skipped values are not limited), and the types
here are not nested so deeply. -/

namespace BCash
namespace JsonText

/-! ## Writing -/

/-- The character for a digit, at most 15. -/
def digitChar (n : Nat) : Char := Char.ofNat (if n < 10 then 48 + n else 87 + n)

/-- Decimal digits; the first argument bounds their number. -/
def digits : Nat → Nat → List Char
  | 0, _ => []
  | k + 1, n => if n < 10 then [digitChar n] else digits k (n / 10) ++ [digitChar (n % 10)]

/-- A number without leading zeros. -/
def decimal (n : Nat) : List Char := digits (n + 1) n

/-- An integer. -/
def integer : Int → List Char
  | .ofNat n => decimal n
  | .negSucc n => '-' :: decimal (n + 1)

/-- A character of a string. -/
def escape (c : Char) : List Char :=
  if c = '"' then ['\\', '"']
  else if c = '\\' then ['\\', '\\']
  else if c.toNat = 8 then ['\\', 'b']
  else if c.toNat = 9 then ['\\', 't']
  else if c.toNat = 10 then ['\\', 'n']
  else if c.toNat = 12 then ['\\', 'f']
  else if c.toNat = 13 then ['\\', 'r']
  else if c.toNat < 32 then ['\\', 'u', '0', '0', digitChar (c.toNat / 16), digitChar (c.toNat % 16)]
  else [c]

/-- A string. -/
def quoted (s : String) : List Char := '"' :: s.toList.flatMap escape ++ ['"']

/-- The elements of an array or map, with commas. -/
def commas : List (List Char) → List Char
  | [] => []
  | [t] => t
  | t :: ts => t ++ ',' :: commas ts

mutual
/-- `to_string`; nothing here writes `other`, and a `String` is always valid UTF-8. -/
def write : SVal → Option (List Char)
  | .null => some ['n', 'u', 'l', 'l']
  | .bool true => some ['t', 'r', 'u', 'e']
  | .bool false => some ['f', 'a', 'l', 's', 'e']
  | .num n => some (integer n)
  | .str s => (ofUtf8 s).map quoted
  | .bytes b => some ('[' :: commas (b.map fun x => decimal x.toNat) ++ [']'])
  | .seq vs => (writeElems vs).map fun ts => '[' :: commas ts ++ [']']
  | .map kvs => (writeMembers kvs).map fun ts => '{' :: commas ts ++ ['}']
  | .other => none

/-- The elements of an array. -/
def writeElems : List SVal → Option (List (List Char))
  | [] => some []
  | v :: vs => (write v).bind fun t => (writeElems vs).map fun ts => t :: ts

/-- The entries of a map. -/
def writeMembers : List (String × SVal) → Option (List (List Char))
  | [] => some []
  | (k, v) :: kvs => (write v).bind fun t => (writeMembers kvs).map fun ts => (quoted k ++ ':' :: t) :: ts
end

/-! ## Reading -/

/-- White space. -/
def isWs (c : Char) : Bool := c = ' ' || c = '\n' || c = '\t' || c = '\r'

/-- Skipping white space. -/
def skipWs (cs : List Char) : List Char := cs.dropWhile isWs

/-- The value of a hexadecimal digit. -/
def hexVal (c : Char) : Option Nat :=
  if '0'.toNat ≤ c.toNat ∧ c.toNat ≤ '9'.toNat then some (c.toNat - 48)
  else if 'a'.toNat ≤ c.toNat ∧ c.toNat ≤ 'f'.toNat then some (c.toNat - 87)
  else if 'A'.toNat ≤ c.toNat ∧ c.toNat ≤ 'F'.toNat then some (c.toNat - 55)
  else none

/-- Four hexadecimal digits. -/
def hex4 (a b c d : Char) : Option Nat :=
  (hexVal a).bind fun a => (hexVal b).bind fun b => (hexVal c).bind fun c => (hexVal d).map fun d =>
    ((a * 16 + b) * 16 + c) * 16 + d

/-- The character of an escape sequence of two characters. -/
def unescape (c : Char) : Option Char :=
  if c = '"' then some '"' else if c = '\\' then some '\\' else if c = '/' then some '/'
  else if c = 'b' then some (Char.ofNat 8) else if c = 'f' then some (Char.ofNat 12)
  else if c = 'n' then some '\n' else if c = 'r' then some '\r' else if c = 't' then some '\t' else none

/-- The rest of a string after the opening quote: the codes of its characters (surrogates are still
separate) and what follows the closing quote. -/
def readUnits : List Char → Option (List Nat × List Char)
  | [] => none
  | '"' :: r => some ([], r)
  | ['\\'] => none
  | '\\' :: 'u' :: a :: b :: c :: d :: r => (hex4 a b c d).bind fun u =>
      (readUnits r).map fun (us, r) => (u :: us, r)
  | '\\' :: e :: r => (unescape e).bind fun c => (readUnits r).map fun (us, r) => (c.toNat :: us, r)
  | c :: r => if c.toNat < 32 then none else (readUnits r).map fun (us, r) => (c.toNat :: us, r)

/-- Joining the surrogate pairs; `none` if there is half of a pair. -/
def joinUnits : List Nat → Option (List Char)
  | [] => some []
  | [u] => if 0xD800 ≤ u ∧ u ≤ 0xDFFF then none else some [Char.ofNat u]
  | u :: v :: us =>
    if 0xD800 ≤ u ∧ u ≤ 0xDBFF ∧ 0xDC00 ≤ v ∧ v ≤ 0xDFFF then
      (joinUnits us).map fun cs => Char.ofNat (0x10000 + (u - 0xD800) * 0x400 + (v - 0xDC00)) :: cs
    else if 0xD800 ≤ u ∧ u ≤ 0xDFFF then none
    else (joinUnits (v :: us)).map fun cs => Char.ofNat u :: cs

/-- A string after the opening quote; `none` inside for a string with half of a surrogate pair. -/
def readStr (cs : List Char) : Option (Option String × List Char) :=
  (readUnits cs).map fun (us, r) => ((joinUnits us).map String.ofList, r)

/-- A decimal digit. -/
def isDigit (c : Char) : Bool := '0'.toNat ≤ c.toNat ∧ c.toNat ≤ '9'.toNat

/-- The value of digits. -/
def value (ds : List Char) : Nat := ds.foldl (fun n c => n * 10 + (c.toNat - 48)) 0

/-- An optional fraction: whether there is one, and the rest. -/
def readFrac : List Char → Option (Bool × List Char)
  | '.' :: r => if (r.takeWhile isDigit).isEmpty then none else some (true, r.dropWhile isDigit)
  | r => some (false, r)

/-- Skipping a sign. -/
def skipSign : List Char → List Char
  | '+' :: r => r
  | '-' :: r => r
  | r => r

/-- An optional exponent: whether there is one, and the rest. -/
def readExp : List Char → Option (Bool × List Char)
  | [] => some (false, [])
  | c :: r =>
    if c = 'e' ∨ c = 'E' then
      let r := skipSign r
      if (r.takeWhile isDigit).isEmpty then none else some (true, r.dropWhile isDigit)
    else some (false, c :: r)

/-- An integer within the 64-bit types; others, and `-0`, are floating point numbers. -/
def intVal (negative : Bool) (n : Nat) : SVal :=
  if negative then (if 1 ≤ n ∧ n ≤ 2 ^ 63 then .num (-(n : Int)) else .other)
  else (if n < 2 ^ 64 then .num n else .other)

/-- A number. -/
def readNum (cs : List Char) : Option (SVal × List Char) :=
  let (negative, cs) := match cs with
    | '-' :: r => (true, r)
    | r => (false, r)
  let ds := cs.takeWhile isDigit
  if ds.isEmpty ∨ (ds.head? = some '0' ∧ 1 < ds.length) then none
  else
    (readFrac (cs.dropWhile isDigit)).bind fun (frac, r) =>
    (readExp r).map fun (exp, r) => (if frac || exp then .other else intVal negative (value ds), r)

/-- The entries of a map; a key with half of a surrogate pair spoils the map. -/
def mapVal (kvs : List (Option String × SVal)) : SVal :=
  match kvs.mapM (fun (k, v) => k.map fun k => (k, v)) with
  | some kvs => .map kvs
  | none => .other

mutual
/-- A value, after white space. The first argument bounds the recursion. -/
def readVal : Nat → List Char → Option (SVal × List Char)
  | 0, _ => none
  | n + 1, cs =>
    match skipWs cs with
    | 'n' :: 'u' :: 'l' :: 'l' :: r => some (.null, r)
    | 't' :: 'r' :: 'u' :: 'e' :: r => some (.bool true, r)
    | 'f' :: 'a' :: 'l' :: 's' :: 'e' :: r => some (.bool false, r)
    | '"' :: r => (readStr r).map fun (s, r) => ((s.map fun s => .str (utf8 s)).getD .other, r)
    | '[' :: r => match skipWs r with
      | ']' :: r => some (.seq [], r)
      | r => (readElems n r).map fun (vs, r) => (.seq vs, r)
    | '{' :: r => match skipWs r with
      | '}' :: r => some (.map [], r)
      | r => (readMembers n r).map fun (kvs, r) => (mapVal kvs, r)
    | r => readNum r

/-- The elements of an array, up to its end. -/
def readElems : Nat → List Char → Option (List SVal × List Char)
  | 0, _ => none
  | n + 1, cs => (readVal n cs).bind fun (v, r) =>
    match skipWs r with
    | ',' :: r => (readElems n r).map fun (vs, r) => (v :: vs, r)
    | ']' :: r => some ([v], r)
    | _ => none

/-- The entries of a map, up to its end. -/
def readMembers : Nat → List Char → Option (List (Option String × SVal) × List Char)
  | 0, _ => none
  | n + 1, cs =>
    match skipWs cs with
    | '"' :: r => (readStr r).bind fun (k, r) =>
      match skipWs r with
      | ':' :: r => (readVal n r).bind fun (v, r) =>
        match skipWs r with
        | ',' :: r => (readMembers n r).map fun (kvs, r) => ((k, v) :: kvs, r)
        | '}' :: r => some ([(k, v)], r)
        | _ => none
      | _ => none
    | _ => none
end

/-- `from_str`, up to the types: one value and nothing else. -/
def read (cs : List Char) : Option SVal :=
  (readVal (2 * cs.length + 1) cs).bind fun (v, r) => if (skipWs r).isEmpty then some v else none

end JsonText

/-- `serde_json::to_string`. -/
def Serde.toText {α : Type} (s : Serde α) (v : α) : Option (List Char) :=
  (s.write .json v).bind JsonText.write

/-- `serde_json::from_str`; the error is `none` if the text is not JSON. -/
def Serde.ofText {α : Type} (s : Serde α) (text : List Char) : Res (Option SerdeError) α :=
  match JsonText.read text with
  | none => .err none
  | some v => (s.read .json v).mapErr some

/-- `tx_to_json`, serialize_json.rs:105-108. -/
def txToText (b64 : Bytes → String) (tx : RichTx) : Option (List Char) :=
  Serde.jsonTx.toText (JsonTx.fromTx b64 tx)

/-- `json_to_tx`, serialize_json.rs:110-113. The second argument bounds the recursion of the import. -/
def textToTx (unb64 : String → Option Bytes) (fuel : Nat) (text : List Char) :
    Option (Res JsonError RichTx) :=
  match Serde.jsonTx.ofText text with
  | .ok j => j.makeTx unb64 fuel
  | .err _ => some (.err .serde)
  | .panic => some .panic

end BCash
