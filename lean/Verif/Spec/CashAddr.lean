/-! # Cash addresses, as specified

An address string is `prefix:payload`. The payload is a sequence of 5-bit values written in a
32-letter alphabet: the bits of the version byte and the 20-byte hash, padded with zero bits, then
eight checksum values. The checksum is that of a BCH code over GF(32) = GF(2)[a]/(a^5 + a^3 + 1) with
generator x^8 + 19x^7 + 3x^6 + 25x^5 + 11x^4 + 25x^3 + 3x^2 + 19x + 1: the polynomial with leading
coefficient 1 followed by the low five bits of the prefix letters, a zero, and the payload, has
remainder 1. -/

namespace BCash.Spec

/-- The 32 letters. -/
def cashAlphabet : List UInt8 :=
  ['q', 'p', 'z', 'r', 'y', '9', 'x', '8', 'g', 'f', '2', 't', 'v', 'd', 'w', '0',
   's', '3', 'j', 'n', '5', '4', 'k', 'h', 'c', 'e', '6', 'm', 'u', 'a', '7', 'l'].map
    fun c => UInt8.ofNat c.toNat

/-- The letter of a 5-bit value. -/
def cashLetter (v : UInt8) : UInt8 := cashAlphabet.getD v.toNat 0

/-- Multiplication by `a` in GF(32). -/
def gfDouble (x : Nat) : Nat := if 2 * x < 32 then 2 * x else (2 * x) ^^^ 41

/-- Multiplication in GF(32). -/
def gfMul (x y : Nat) : Nat :=
  (if y.testBit 0 then x else 0) ^^^ (if y.testBit 1 then gfDouble x else 0) ^^^
  (if y.testBit 2 then gfDouble (gfDouble x) else 0) ^^^
  (if y.testBit 3 then gfDouble (gfDouble (gfDouble x)) else 0) ^^^
  (if y.testBit 4 then gfDouble (gfDouble (gfDouble (gfDouble x))) else 0)

/-- The generator without its leading coefficient, from x^7 down. -/
def cashGenerator : List Nat := [19, 3, 25, 11, 25, 3, 19, 1]

/-- `(r * x + v) mod generator` for a remainder `r` given by its coefficients from x^7 down. -/
def remStep (r : List Nat) (v : Nat) : List Nat :=
  match r with
  | [] => []
  | d :: rest => List.zipWith (· ^^^ ·) (rest ++ [v]) (cashGenerator.map (gfMul d))

/-- Remainder of the polynomial with coefficients `1, vs...`. -/
def cashRemainder (vs : List Nat) : List Nat := vs.foldl remStep [0, 0, 0, 0, 0, 0, 0, 1]

/-- What the checksum covers. -/
def cashCovered (pre vs : List UInt8) : List Nat :=
  pre.map (fun c => c.toNat % 32) ++ [0] ++ vs.map UInt8.toNat

/-- The checksum is valid. -/
def ChecksumOk (pre vs : List UInt8) : Prop :=
  cashRemainder (cashCovered pre vs) = [0, 0, 0, 0, 0, 0, 0, 1]

/-- The `w` low-order bits of `v`, most significant first. -/
def bitsOf : Nat → Nat → List Bool
  | 0, _ => []
  | w + 1, v => v.testBit w :: bitsOf w v

/-- The bits of a list of `w`-bit values. -/
def bitsAll (w : Nat) (vs : List UInt8) : List Bool := vs.flatMap fun v => bitsOf w v.toNat

/-- `s` is the address string of this prefix, version byte and hash. -/
def IsCashAddr (pre : List UInt8) (version : UInt8) (hash : List UInt8) (s : List UInt8) : Prop :=
  ∃ payload checksum : List UInt8,
    (∀ v ∈ payload ++ checksum, v.toNat < 32) ∧
    payload.length = 34 ∧ checksum.length = 8 ∧
    bitsAll 5 payload = bitsAll 8 (version :: hash) ++ [false, false] ∧
    ChecksumOk pre (payload ++ checksum) ∧
    s = pre ++ [0x3a] ++ (payload ++ checksum).map cashLetter

/-- Lower case of an ASCII letter. -/
def asciiLowerSpec (c : UInt8) : UInt8 :=
  if 'A'.toNat ≤ c.toNat ∧ c.toNat ≤ 'Z'.toNat then UInt8.ofNat (c.toNat + 32) else c

/-- The prefix and payload of an address string: before and after the first colon; the prefix is
"bitcoincash" if there is no colon. -/
inductive CashParts : List UInt8 → List UInt8 → List UInt8 → Prop
  | colon (pre payload) : (0x3a : UInt8) ∉ pre → CashParts (pre ++ [0x3a] ++ payload) pre payload
  | default_ (payload) : (0x3a : UInt8) ∉ payload →
      CashParts payload
        (['b', 'i', 't', 'c', 'o', 'i', 'n', 'c', 'a', 's', 'h'].map fun c => UInt8.ofNat c.toNat)
        payload

end BCash.Spec
