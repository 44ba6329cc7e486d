import Verif.Model.Integer

/-! # Byte arrays with provenance — `bitcoin-cash-base/src/byte_array.rs`

The default configuration (feature `simple-bytearray` off). `Arc`/`Cow` are erased. -/

namespace BCash

/-- `enum Function`, byte_array.rs:10-24. -/
inductive Function where
  | plain | sha1 | ripemd160 | sha256 | hash256 | hash160 | num2bin
  | ecdsaSign | schnorrSign | toDataSig | unexpectedSplit | reverse
deriving DecidableEq, Repr

/-- `Function::should_keep_intact`, byte_array.rs:75-83. -/
def Function.shouldKeepIntact : Function → Bool
  | .plain | .num2bin | .ecdsaSign | .schnorrSign | .toDataSig => false
  | _ => true

/-- `struct ByteArray`, byte_array.rs:38-47: bytes, optional name, function, optional preimage. -/
inductive ByteArray where
  | mk (data : Bytes) (name : Option String) (function : Function)
      (preimage : Option (List ByteArray))

namespace ByteArray

/-- `ByteArray::data` / `as_slice` / `Deref`, byte_array.rs:236-242, 610-615. -/
def data : ByteArray → Bytes
  | mk d _ _ _ => d

/-- `ByteArray::name`, byte_array.rs:216-219. -/
def name : ByteArray → Option String
  | mk _ n _ _ => n

/-- `ByteArray::function`, byte_array.rs:186-189. -/
def function : ByteArray → Function
  | mk _ _ f _ => f

/-- `ByteArray::preimage`, byte_array.rs:196-199. -/
def preimage : ByteArray → Option (List ByteArray)
  | mk _ _ _ p => p

/-- `ByteArray::len` (through `Deref<Target = [u8]>`, byte_array.rs:610-615). -/
def len (b : ByteArray) : Nat := b.data.length

/-- assignment to the `function` field. -/
def setFunction (b : ByteArray) (f : Function) : ByteArray :=
  match b with
  | mk d n _ p => mk d n f p

end ByteArray

/-- `enum ByteArrayError`, byte_array.rs:26-36. (`LeftoverBytes` carries the bytes.) -/
inductive ByteArrayError where
  | invalidSplit (splitIdx len : Nat)
  | invalidSlice (expected actual : Nat)
  | fromInteger (int nBytes : Int)
  | leftoverBytes (bytes : Bytes)
deriving DecidableEq, Repr

namespace ByteArray

/-- `ByteArray::new` / `from_slice`, byte_array.rs:90-98, 145-153. -/
def new (name : String) (data : Bytes) : ByteArray := mk data (some name) .plain none

/-- `ByteArray::new_unnamed` / `from_slice_unnamed` / `From<Vec<u8>>` / `Default`,
byte_array.rs:105-113, 160-168, 556-589. -/
def newUnnamed (data : Bytes) : ByteArray := mk data none .plain none

/-- `ByteArray::concat_named_option`, byte_array.rs:248-282. -/
def concatNamedOption (self other : ByteArray) (name : Option String) : ByteArray :=
  let newData := self.data ++ other.data
  if self.function = .plain ∧ other.function = .plain then
    let left := match self.preimage with
      | some ps => ps
      | none => [self]
    let right := match other.preimage with
      | some ps => ps
      | none => [other]
    mk newData name .plain (some (left ++ right))
  else mk newData name .plain (some [self, other])

/-- `ByteArray::concat`, byte_array.rs:299-301. -/
def concat (self other : ByteArray) : ByteArray := self.concatNamedOption other none

/-- `ByteArray::from_parts`, byte_array.rs:175-184. -/
def fromParts (parts : List ByteArray) : ByteArray :=
  match parts with
  | [] => newUnnamed []
  | p :: ps => ps.foldl concat p

/-- `ByteArray::named`, byte_array.rs:407-413. -/
def named (b : ByteArray) (name : String) : ByteArray :=
  match b with
  | mk d _ f p => mk d (some name) f p

/-- `ByteArray::named_option`, byte_array.rs:420-423. -/
def namedOption (b : ByteArray) (name : Option String) : ByteArray :=
  match b with
  | mk d _ f p => mk d name f p

/-- `ByteArray::apply_function`, byte_array.rs:392-400. -/
def applyFunction (b : ByteArray) (data : Bytes) (f : Function) : ByteArray :=
  mk data none f (some [b])

mutual
/-- `ByteArray::split`, byte_array.rs:311-372. -/
def split : ByteArray → Nat → Except ByteArrayError (ByteArray × ByteArray)
  | mk data _ function preimage, at_ =>
    if data.length < at_ then .error (.invalidSplit at_ data.length)
    else
      match preimage with
      | some ps =>
        if !function.shouldKeepIntact then
          match splitParts ps at_ true 0 with
          | .error e => .error e
          | .ok (l, r) =>
            .ok (mk (data.take at_) none .plain (some l), mk (data.drop at_) none .plain (some r))
        else
          .ok (mk (data.take at_) none .unexpectedSplit none,
               mk (data.drop at_) none .unexpectedSplit none)
      | none => .ok (mk (data.take at_) none .plain none, mk (data.drop at_) none .plain none)

/-- The loop over the recorded parts, byte_array.rs:328-349; `isLeft` and `len` are the loop
variables `is_left` and `len`; the two result lists are `left_preimage` and `right_preimage`. -/
def splitParts : List ByteArray → Nat → Bool → Nat →
    Except ByteArrayError (List ByteArray × List ByteArray)
  | [], _, _, _ => .ok ([], [])
  | part :: rest, at_, isLeft, len =>
    let partLen := part.data.length
    let isLeft := if len = at_ then false else isLeft
    if len + partLen > at_ && isLeft then
      match split part (at_ - len) with
      | .error e => .error e
      | .ok (subLeft, subRight) =>
        let keep := part.function.shouldKeepIntact
        let subLeft := if keep then subLeft.setFunction .unexpectedSplit else subLeft
        let subRight := if keep then subRight.setFunction .unexpectedSplit else subRight
        match splitParts rest at_ false (len + partLen) with
        | .error e => .error e
        | .ok (l, r) => .ok (subLeft :: l, subRight :: r)
    else if isLeft then
      match splitParts rest at_ isLeft (len + partLen) with
      | .error e => .error e
      | .ok (l, r) => .ok (part :: l, r)
    else
      match splitParts rest at_ isLeft (len + partLen) with
      | .error e => .error e
      | .ok (l, r) => .ok (l, part :: r)
end

/-- `PartialEq for ByteArray`, byte_array.rs:630-634 (compares `data` only). -/
def beq (a b : ByteArray) : Bool := decide (a.data = b.data)

/-- `ByteArray::from_int`, byte_array.rs:425-457. Both arguments are `Integer`s (given by their
`i32` value); `inner_n_bytes * 8 - 1` is `i32` arithmetic and overflows for `n ≥ 2^28`. -/
def fromInt (int nBytes : Int) : Res ByteArrayError ByteArray :=
  if nBytes ≤ 0 then .err (.fromInteger int nBytes)
  else if ¬ InI32 (nBytes * 8) then .panic
  else
    let maxBits := min (nBytes * 8 - 1) 31
    let maxNum : Int := 2 ^ maxBits.toNat - 1
    if int < -maxNum ∨ int > maxNum then .err (.fromInteger int nBytes)
    else
      let n := nBytes.toNat
      let bytes := leBytes 4 int.natAbs
      let bytes :=
        if bytes.length < n then bytes ++ List.replicate (n - bytes.length) 0
        else if bytes.length > n then bytes.take n
        else bytes
      let bytes :=
        if int < 0 then bytes.set (bytes.length - 1) (bytes.getD (bytes.length - 1) 0 ||| 0x80)
        else bytes
      .ok (mk bytes none .num2bin none)

end ByteArray
end BCash
