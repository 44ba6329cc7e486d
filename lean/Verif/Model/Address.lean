import Verif.Model.Hash

/-! # Cash addresses — `bitcoin-cash/src/address.rs`

Strings are byte strings (their UTF-8 encoding), as in Rust; `':'` and the alphabet are ASCII. -/

namespace BCash

/-- `CHARSET`, address.rs:9: "qpzry9x8gf2tvdw0s3jn54khce6mua7l". -/
def CHARSET : Bytes :=
  [0x71, 0x70, 0x7a, 0x72, 0x79, 0x39, 0x78, 0x38, 0x67, 0x66, 0x32, 0x74, 0x76, 0x64, 0x77, 0x30,
   0x73, 0x33, 0x6a, 0x6e, 0x35, 0x34, 0x6b, 0x68, 0x63, 0x65, 0x36, 0x6d, 0x75, 0x61, 0x37, 0x6c]

/-- `enum AddressType`, address.rs:19-23. -/
inductive AddressType where
  | P2PKH
  | P2SH
deriving DecidableEq, Repr

/-- `addr_type as u8`, address.rs:21-22, 353. -/
def AddressType.toByte : AddressType → UInt8
  | .P2PKH => 0
  | .P2SH => 8

/-- `enum Prefix`, address.rs:25-29. -/
inductive Prefix where
  | bitcoinCash
  | simpleLedger
deriving DecidableEq, Repr

/-- `Prefix::prefix_str`, address.rs:48-53: "bitcoincash", "simpleledger". -/
def Prefix.str : Prefix → Bytes
  | .bitcoinCash => [0x62, 0x69, 0x74, 0x63, 0x6f, 0x69, 0x6e, 0x63, 0x61, 0x73, 0x68]
  | .simpleLedger => [0x73, 0x69, 0x6d, 0x70, 0x6c, 0x65, 0x6c, 0x65, 0x64, 0x67, 0x65, 0x72]

/-- `Prefix::from_prefix_str`, address.rs:55-61. -/
def Prefix.fromStr (s : Bytes) : Option Prefix :=
  if s = Prefix.str .bitcoinCash then some .bitcoinCash
  else if s = Prefix.str .simpleLedger then some .simpleLedger
  else none

/-- `struct Address`, address.rs:11-17, with `AddressPrefix` (address.rs:31-35) inlined. -/
structure Address where
  addrType : AddressType
  hash : Hash160
  cashAddr : Bytes
  prefixStr : Bytes
  prefixKind : Option Prefix
deriving DecidableEq

/-- `_map_to_b32`, address.rs:249-251 (`none` = index out of bounds panic). -/
def mapToB32 : Bytes → Option Bytes
  | [] => some []
  | x :: xs => match CHARSET[x.toNat]?, mapToB32 xs with
    | some c, some cs => some (c :: cs)
    | _, _ => none

/-- `_map_from_b32`, address.rs:253-266; `i` is the running index. -/
def mapFromB32 (i : Nat) : Bytes → Except CashAddrError Bytes
  | [] => .ok []
  | x :: xs => match CHARSET.findIdx? (fun c => x == c) with
    | none => .error (.invalidBase32Letter i x)
    | some p => match mapFromB32 (i + 1) xs with
      | .error e => .error e
      | .ok ps => .ok (UInt8.ofNat p :: ps)

/-- the `while` loop of `_convert_bits`, address.rs:286-289, with one unit of fuel per iteration
(`bits` decreases by `to_bits > 0`, so `bits` units are enough): pushed values and remaining
`bits`. -/
def drainBits (toBits : Nat) : Nat → Nat → Nat → Bytes × Nat
  | 0, _, bits => ([], bits)
  | fuel + 1, acc, bits =>
    if bits ≥ toBits then
      let r := drainBits toBits fuel acc (bits - toBits)
      (UInt8.ofNat ((acc >>> (bits - toBits)) &&& (2 ^ toBits - 1)) :: r.1, r.2)
    else ([], bits)

/-- the `for` loop of `_convert_bits`, address.rs:279-290: pushed values and final `acc`, `bits`.
(`acc` is a `u32`, at most `max_acc < 2^12` for the conversions used, so shifts lose nothing.) -/
def convertLoop (fromBits toBits : Nat) : Bytes → Nat → Nat → Option (Bytes × Nat × Nat)
  | [], acc, bits => some ([], acc, bits)
  | value :: data, acc, bits =>
    if value.toNat >>> fromBits ≠ 0 then none
    else
      let acc := ((acc <<< fromBits) ||| value.toNat) &&& (2 ^ (fromBits + toBits - 1) - 1)
      let bits := bits + fromBits
      let (out, bits) := drainBits toBits bits acc bits
      match convertLoop fromBits toBits data acc bits with
      | none => none
      | some (outs, acc, bits) => some (out ++ outs, acc, bits)

/-- `_convert_bits`, address.rs:268-299. -/
def convertBits (data : Bytes) (fromBits toBits : Nat) (pad : Bool) : Option Bytes :=
  match convertLoop fromBits toBits data 0 0 with
  | none => none
  | some (ret, acc, bits) =>
    if pad then
      if bits ≠ 0 then
        some (ret ++ [UInt8.ofNat ((acc <<< (toBits - bits)) &&& (2 ^ toBits - 1))])
      else some ret
    else if bits ≥ fromBits ∨ (acc <<< (toBits - bits)) &&& (2 ^ toBits - 1) ≠ 0 then none
    else some ret

/-- One iteration of the loop of `_poly_mod`, address.rs:303-321. -/
def polyStep (c : UInt64) (value : UInt8) : UInt64 :=
  let c0 : UInt8 := (c >>> 35).toUInt8
  let c := ((c &&& 0x07ffffffff) <<< 5) ^^^ value.toUInt64
  let c := if c0 &&& 0x01 ≠ 0 then c ^^^ 0x98f2bc8e61 else c
  let c := if c0 &&& 0x02 ≠ 0 then c ^^^ 0x79b76d99e2 else c
  let c := if c0 &&& 0x04 ≠ 0 then c ^^^ 0xf33e5fb3c4 else c
  let c := if c0 &&& 0x08 ≠ 0 then c ^^^ 0xae2eabe2a8 else c
  if c0 &&& 0x10 ≠ 0 then c ^^^ 0x1e4f43e470 else c

/-- `_poly_mod`, address.rs:301-323. -/
def polyMod (values : Bytes) : UInt64 := values.foldl polyStep 1 ^^^ 1

/-- the values of the prefix, address.rs:329-331: low five bits of each byte, then 0. -/
def prefixValues (pre : Bytes) : Bytes := pre.map (· &&& 0x1f) ++ [0]

/-- `_calculate_checksum`, address.rs:325-338. -/
def calculateChecksum (pre payload : Bytes) : Bytes :=
  let poly := polyMod (prefixValues pre ++ payload ++ [0, 0, 0, 0, 0, 0, 0, 0])
  (List.range 8).map fun i => ((poly >>> (5 * (7 - UInt64.ofNat i))) &&& 0x1f).toUInt8

/-- `_verify_checksum`, address.rs:340-350. -/
def verifyChecksum (pre payload : Bytes) : Bool := polyMod (prefixValues pre ++ payload) == 0

/-- `_to_cash_addr`, address.rs:352-365 (`none` = panic). -/
def toCashAddr (pre : Bytes) (addrType : AddressType) (addrBytes : Bytes) : Option Bytes :=
  (convertBits (addrType.toByte :: addrBytes) 8 5 true).bind fun payload =>
    (mapToB32 (payload ++ calculateChecksum pre payload)).map fun s => pre ++ [0x3a] ++ s

/-- `str::to_ascii_lowercase`. -/
def asciiLower (c : UInt8) : UInt8 := if 65 ≤ c.toNat ∧ c.toNat ≤ 90 then c + 32 else c

/-- address.rs:372-380: prefix and payload, split at the first colon. -/
def splitPrefix (addr default_ : Bytes) : Bytes × Bytes :=
  match addr.findIdx? (· == 0x3a) with
  | some pos => (addr.take pos, addr.drop (pos + 1))
  | none => (default_, addr)

/-- `_from_cash_addr`, address.rs:367-397. `&converted[1..len - 6]` panics when `len < 7` and
`copy_from_slice` when the slice has not 20 bytes. -/
def fromCashAddrRaw (addr default_ : Bytes) :
    Res CashAddrError (Hash160 × AddressType × Bytes) :=
  let addr := addr.map asciiLower
  let (pre, payload) := splitPrefix addr default_
  (Res.ofExcept id (mapFromB32 0 payload)).bind fun decoded =>
    if !verifyChecksum pre decoded then .err .invalidChecksum
    else match convertBits decoded 5 8 true with
      | none => .panic
      | some converted =>
        if converted.length < 7 then .panic
        else
          let slice := (converted.take (converted.length - 6)).drop 1
          if h : slice.length = 20 then
            match converted with
            | [] => .panic
            | v :: _ =>
              if v = 0 then .ok (⟨slice, h⟩, .P2PKH, pre)
              else if v = 8 then .ok (⟨slice, h⟩, .P2SH, pre)
              else .err (.invalidAddressType v)
          else .panic

/-- `Address::from_hash`, address.rs:115-127, for a string prefix (`Into<AddressPrefix>`,
address.rs:96-103); `none` = panic. -/
def Address.fromHash (pre : Bytes) (addrType : AddressType) (hash : Hash160) : Option Address :=
  (toCashAddr pre addrType hash.1).map fun s => ⟨addrType, hash, s, pre, Prefix.fromStr pre⟩

/-- `Address::from_cash_addr`, address.rs:129-140. -/
def Address.fromCashAddr (s : Bytes) : Res Error Address :=
  (fromCashAddrRaw s (Prefix.str .bitcoinCash)).mapErr .invalidCashAddr |>.map
    fun (hash, t, pre) => ⟨t, hash, s, pre, Prefix.fromStr pre⟩

/-- `Address::from_redeem_script`, address.rs:142-151, for the HASH160 function `hash160`; the script is
given by its bytes (`redeem_script.ser_ops()`). -/
def Address.fromRedeemScript (hash160 : Bytes → Hash160) (pre : Bytes) (redeemBytes : Bytes) :
    Option Address :=
  Address.fromHash pre .P2SH (hash160 redeemBytes)

/-- `Address::from_pk`, address.rs:153-159. -/
def Address.fromPk (hash160 : Bytes → Hash160) (pre : Bytes) (pubkey : Pubkey) : Option Address :=
  Address.fromHash pre .P2PKH (hash160 pubkey.1)

/-- `Address::with_prefix`, address.rs:181-183. -/
def Address.withPrefix (a : Address) (pre : Bytes) : Option Address :=
  Address.fromHash pre a.addrType a.hash

/-- `AddressPrefix`, address.rs:31-35, given to `from_hash` as it is (`AddressPrefix::new`, address.rs:80-85). -/
def Address.fromHashPrefix (pre : Bytes) (kind : Option Prefix) (addrType : AddressType) (hash : Hash160) :
    Option Address :=
  (toCashAddr pre addrType hash.1).map fun s => ⟨addrType, hash, s, pre, kind⟩

/-- `Address::from_hash`, address.rs:115-127, for a `Prefix` (`Into<AddressPrefix>`, address.rs:70-77). -/
def Address.fromHashKind (kind : Prefix) (addrType : AddressType) (hash : Hash160) : Option Address :=
  Address.fromHashPrefix kind.str (some kind) addrType hash

/-- `struct SerAddress`, address.rs:210-215: what is written in a binary format. -/
structure SerAddress where
  addrType : AddressType
  hash : Bytes
  pre : Bytes
deriving DecidableEq

/-- `Serialize for Address` in a human-readable format, address.rs:222-223: the written string. -/
def Address.toHuman (a : Address) : Bytes := a.cashAddr

/-- `Serialize for Address` in a binary format, address.rs:225-229. -/
def Address.toSer (a : Address) : SerAddress := ⟨a.addrType, a.hash.1, a.prefixStr⟩

/-- `Deserialize for Address` from a human-readable format, address.rs:239-241. -/
def Address.ofHuman (s : Bytes) : Res Error Address := Address.fromCashAddr s

/-- `Deserialize for Address` from a binary format, address.rs:243-244; the array type makes serde reject
hashes of another length. -/
def Address.ofSer (s : SerAddress) : Res String Address :=
  if h : s.hash.length = 20 then
    match Address.fromHash s.pre s.addrType ⟨s.hash, h⟩ with
    | some a => .ok a
    | none => .panic
  else .err "invalid length"

end BCash
