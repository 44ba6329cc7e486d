import Verif.Model.Basic

/-! # Specification of SLP messages (independent of the code)

Simple Ledger Protocol, token type 1 and NFT1: the script of output 0 is `OP_RETURN` followed by data
pushes only. Data pushes are the bytes 0x01..0x4b and OP_PUSHDATA1/2/4; OP_0, OP_1NEGATE and OP_1..OP_16
are not allowed (an empty field is written `4c 00`). Numbers are big-endian. -/

namespace BCash.Spec.Slp

/-- Big-endian value. -/
def beVal : Bytes → Nat := fun bs => bs.foldl (fun n b => 256 * n + b.toNat) 0

/-- ASCII text as bytes. -/
def ascii (s : String) : Bytes := s.toList.map fun c => UInt8.ofNat c.toNat

/-- Splits off `n` bytes. -/
def take? (n : Nat) (bs : Bytes) : Option (Bytes × Bytes) :=
  if n ≤ bs.length then some (bs.take n, bs.drop n) else none

/-- The first data push of a script. -/
def push? : Bytes → Option (Bytes × Bytes)
  | [] => none
  | op :: rest =>
    if 0x01 ≤ op.toNat ∧ op.toNat ≤ 0x4b then take? op.toNat rest
    else if op = 0x4c then (take? 1 rest).bind fun (l, rest) => take? (leVal l) rest
    else if op = 0x4d then (take? 2 rest).bind fun (l, rest) => take? (leVal l) rest
    else if op = 0x4e then (take? 4 rest).bind fun (l, rest) => take? (leVal l) rest
    else none

/-- The fields of a script of data pushes (each push takes at least one byte). -/
def fieldsLoop : Nat → Bytes → Option (List Bytes)
  | _, [] => some []
  | 0, _ => none
  | n + 1, bs => (push? bs).bind fun (d, rest) => (fieldsLoop n rest).map (d :: ·)

/-- The fields of a script of data pushes. -/
def fields (bs : Bytes) : Option (List Bytes) := fieldsLoop bs.length bs

inductive TokenType where
  | type1 | nft1Child | nft1Group
deriving DecidableEq, Repr

inductive Message where
  | genesis (type : TokenType) (ticker name url hash : Bytes) (decimals : Nat)
      (mintBatonVout : Option Nat) (quantity : Nat)
  | send (type : TokenType) (tokenId : Bytes) (amounts : List Nat)
deriving DecidableEq, Repr

/-- "token_type": 1 or 2 bytes. -/
def tokenType? (f : Bytes) : Option TokenType :=
  if f.length = 1 ∨ f.length = 2 then
    if beVal f = 1 then some .type1
    else if beVal f = 0x41 then some .nft1Child
    else if beVal f = 0x81 then some .nft1Group
    else none
  else none

/-- "initial_token_mint_quantity", "token_output_quantity": 8 bytes. -/
def quantity? (f : Bytes) : Option Nat := if f.length = 8 then some (beVal f) else none

/-- "mint_baton_vout": empty, or 1 byte in 0x02..0xff. -/
def baton? (f : Bytes) : Option (Option Nat) :=
  if f.length = 0 then some none
  else if f.length = 1 ∧ 2 ≤ beVal f then some (some (beVal f))
  else none

/-- "decimals": 1 byte in 0x00..0x09. -/
def decimals? (f : Bytes) : Option Nat :=
  if f.length = 1 ∧ beVal f ≤ 9 then some (beVal f) else none

/-- The fields of a GENESIS message after the transaction type. An NFT1 child has no decimals, no mint
baton and quantity 1. -/
def genesis? (type : TokenType) : List Bytes → Option Message
  | [ticker, name, url, hash, dec, baton, qty] =>
    (decimals? dec).bind fun dec => (baton? baton).bind fun baton => (quantity? qty).bind fun qty =>
      if (hash.length = 0 ∨ hash.length = 32) ∧
          (type = .nft1Child → dec = 0 ∧ baton = none ∧ qty = 1) then
        some (.genesis type ticker name url hash dec baton qty)
      else none
  | _ => none

/-- The fields of a SEND message after the transaction type: a token id and 1 to 19 quantities. -/
def send? (type : TokenType) : List Bytes → Option Message
  | id :: amounts =>
    if id.length = 32 ∧ 1 ≤ amounts.length ∧ amounts.length ≤ 19 then
      (amounts.mapM quantity?).map (.send type id)
    else none
  | _ => none

/-- Parses the script of an SLP output. "SLP\0" is the LOKAD id. -/
def parse (script : Bytes) : Option Message :=
  match script with
  | 0x6a :: rest =>
    (fields rest).bind fun fs => match fs with
      | lokad :: type :: kind :: fs =>
        if lokad = [0x53, 0x4c, 0x50, 0x00] then
          (tokenType? type).bind fun type =>
            if kind = ascii "GENESIS" then genesis? type fs
            else if kind = ascii "SEND" then send? type fs
            else none
        else none
      | _ => none
  | _ => none

end BCash.Spec.Slp
