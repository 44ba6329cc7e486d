import Verif.Model.Ecc

/-! # What is assumed of the secp256k1 crates

`Ecdsa S` says what ECDSA is and that the crates implement it. Every theorem that needs it has it as a
hypothesis (or a structure argument); `Props/Ecc.lean` gives an instance. -/

namespace BCash.Spec

/-- The crates implement ECDSA. -/
structure Ecdsa (S : Secp) where
  /-- The ECDSA equation: the signature is valid for the message and the public key. -/
  valid : Bytes → S.Sig → S.Pk → Bool
  /-- The signature is the one of the two equivalent ones that is preferred (low S). -/
  low : S.Sig → Bool
  signC_valid : ∀ k m, 0 < k → k < S.order → m.length = 32 → valid m (S.signC k m) (S.derive k) = true
  signC_low : ∀ k m, low (S.signC k m) = true
  signRust_valid : ∀ k m, 0 < k → k < S.order → m.length = 32 →
    valid m (S.signRust k m) (S.derive k) = true
  normalize_low : ∀ s, low (S.normalizeS s) = true
  normalize_of_low : ∀ s, low s = true → S.normalizeS s = s
  normalize_valid : ∀ m s p, valid m (S.normalizeS s) p = valid m s p
  /-- DER is read back, and the lax parser reads what the strict one reads. -/
  fromDer_serDer : ∀ s, S.fromDer (S.serDer s) = some s
  fromDerLax_of_fromDer : ∀ b s, S.fromDer b = some s → S.fromDerLax b = some s
  /-- Compressed public keys are read back; the compressed format is the one with 33 bytes. -/
  parsePk_compress : ∀ p, S.parsePk (S.compress p).1 = some p
  parsePkCompressed_eq : ∀ b, S.parsePkCompressed b = if b.length = 33 then S.parsePk b else none
  /-- The C crate rejects high-S signatures and has no other error (secp256k1 0.19). -/
  verifyC_eq : ∀ m s p, S.verifyC m s p =
    if low s = true ∧ valid m s p = true then .ok () else .error .incorrectSignature
  /-- The Rust crate decides the equation, at least for low-S signatures. -/
  verifyRust_eq : ∀ m s p, low s = true → S.verifyRust m s p = valid m s p
  /-- A DER signature is short enough to be pushed. -/
  serDer_length : ∀ s, (S.serDer s).length ≤ 72

/-- Secret keys: 32 bytes whose big-endian number is between 1 and the group order minus 1. -/
def SecretKey (S : Secp) (b : Bytes) : Prop := b.length = 32 ∧ 0 < beNat b ∧ beNat b < S.order

end BCash.Spec
