import Verif.Model.Hash
import Verif.Model.Error

/-! # Elliptic curve signatures — `bitcoin-cash-ecc` and the trait `ECC` of `bitcoin-cash/src/ecc.rs`

The crates `secp256k1` (C) and `libsecp256k1` (Rust) are foreign code: their operations are the fields of
`Secp`, without any property. What is assumed of them is stated in `Spec/Ecdsa.lean`. Modelled here is
what `c_ecc.rs` and `rust_ecc.rs` do with them. -/

namespace BCash

/-- The outcomes of `Secp256k1::verify` that c_ecc.rs:42-49 tells apart. -/
inductive SecpError where
  | incorrectSignature
  | other
deriving DecidableEq, Repr

/-- The operations of the two foreign crates. -/
structure Secp where
  /-- `Signature`. -/
  Sig : Type
  /-- `PublicKey`. -/
  Pk : Type
  /-- The order of the group: secret keys are the numbers from 1 to `order - 1`. -/
  order : Nat
  /-- `PublicKey::from_secret_key`. -/
  derive : Nat → Pk
  /-- `Secp256k1::sign` of the C crate (secret key, 32-byte message). -/
  signC : Nat → Bytes → Sig
  /-- `secp256k1::sign` of the Rust crate. -/
  signRust : Nat → Bytes → Sig
  /-- `Signature::normalize_s`. -/
  normalizeS : Sig → Sig
  /-- `Signature::serialize_der`. -/
  serDer : Sig → Bytes
  /-- `Signature::from_der` / `parse_der`. -/
  fromDer : Bytes → Option Sig
  /-- `Signature::from_der_lax` / `parse_der_lax`. -/
  fromDerLax : Bytes → Option Sig
  /-- `PublicKey::from_slice` of the C crate: every format. -/
  parsePk : Bytes → Option Pk
  /-- `PublicKey::parse_slice(_, Some(PublicKeyFormat::Compressed))` of the Rust crate. -/
  parsePkCompressed : Bytes → Option Pk
  /-- `PublicKey::serialize` / `serialize_compressed`, a `[u8; 33]`. -/
  compress : Pk → Pubkey
  /-- `Secp256k1::verify` of the C crate. -/
  verifyC : Bytes → Sig → Pk → Except SecpError Unit
  /-- `secp256k1::verify` of the Rust crate. -/
  verifyRust : Bytes → Sig → Pk → Bool

/-- A big-endian number. -/
def beNat (b : Bytes) : Nat := b.foldl (fun n x => 256 * n + x.toNat) 0

/-- `SecretKey::from_slice` / `parse_slice`: 32 bytes, big-endian, from 1 to `order - 1`. -/
def Secp.parseSk (S : Secp) (b : Bytes) : Option Nat :=
  if b.length = 32 ∧ 0 < beNat b ∧ beNat b < S.order then some (beNat b) else none

/-- `Message::from_slice` / `parse_slice`: 32 bytes. -/
def parseMsg (b : Bytes) : Option Bytes := if b.length = 32 then some b else none

/-- `trait ECC`, ecc.rs:3-11 (`msg_array: impl Into<ByteArray>` already converted). -/
structure Ecc where
  sign : (secretKey : Bytes) → (msg : ByteArray) → Res Error ByteArray
  verify : (pubkey msg sig : Bytes) → Res Error Bool
  derivePubkey : (secretKey : Bytes) → Res Error Pubkey
  normalizeSig : (sig : Bytes) → Res Error Bytes

/-- `impl ECC for CECC`, c_ecc.rs:20-68. -/
def Secp.cEcc (S : Secp) : Ecc where
  sign secretKey msg :=
    match S.parseSk secretKey with
    | none => .err (.invalidSize 32 secretKey.length)
    | some sk =>
      match parseMsg msg.data with
      | none => .err (.invalidSize 32 msg.data.length)
      | some m => .ok (msg.applyFunction (S.serDer (S.signC sk m)) .ecdsaSign)
  verify pubkey msg sig :=
    match parseMsg msg with
    | none => .err (.invalidSize 32 msg.length)
    | some m =>
      match S.fromDer sig with
      | none => .err .invalidSignatureFormat
      | some s =>
        match S.parsePk pubkey with
        | none => .err .invalidPubkey
        | some p =>
          match S.verifyC m s p with
          | .ok () => .ok true
          | .error .incorrectSignature => .ok false
          -- `err => { err.map_err(|_| …)?; unreachable!() }`: for `Err`, `?` returns
          | .error .other => .err .invalidSignatureFormat
  derivePubkey secretKey :=
    match S.parseSk secretKey with
    | none => .err (.invalidSize 32 secretKey.length)
    | some sk => .ok (S.compress (S.derive sk))
  normalizeSig sig :=
    match S.fromDerLax sig with
    | none => .err .invalidSignatureFormat
    | some s => .ok (S.serDer (S.normalizeS s))

/-- `impl ECC for RustECC`, rust_ecc.rs:15-59. -/
def Secp.rustEcc (S : Secp) : Ecc where
  sign secretKey msg :=
    match S.parseSk secretKey with
    | none => .err (.invalidSize 32 secretKey.length)
    | some sk =>
      match parseMsg msg.data with
      | none => .err (.invalidSize 32 msg.data.length)
      | some m => .ok (msg.applyFunction (S.serDer (S.normalizeS (S.signRust sk m))) .ecdsaSign)
  verify pubkey msg sig :=
    match parseMsg msg with
    | none => .err (.invalidSize 32 msg.length)
    | some m =>
      match S.fromDer sig with
      | none => .err .invalidSignatureFormat
      | some s =>
        match S.parsePkCompressed pubkey with
        | none => .err .invalidPubkey
        | some p => .ok (S.verifyRust m s p)
  derivePubkey secretKey :=
    match S.parseSk secretKey with
    | none => .err (.invalidSize 32 secretKey.length)
    | some sk => .ok (S.compress (S.derive sk))
  normalizeSig sig :=
    match S.fromDerLax sig with
    | none => .err .invalidSignatureFormat
    | some s => .ok (S.serDer (S.normalizeS s))

end BCash
