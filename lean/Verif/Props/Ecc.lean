import Verif.Spec.Ecdsa
import Verif.Props.Spend

/-! # C84 — signing and verifying -/

namespace BCash
open Spec

/-- Spec: the two implementations of the trait. -/
inductive Spec.Backend (S : Secp) : Ecc → Prop
  | c : Backend S S.cEcc
  | rust : Backend S S.rustEcc

theorem parseSk_some {S : Secp} {b : Bytes} (h : SecretKey S b) : S.parseSk b = some (beNat b) := by
  unfold Secp.parseSk; exact if_pos h

theorem parseSk_none {S : Secp} {b : Bytes} (h : ¬ SecretKey S b) : S.parseSk b = none := by
  unfold Secp.parseSk; exact if_neg h

theorem parseMsg_some {b : Bytes} (h : b.length = 32) : parseMsg b = some b := if_pos h
theorem parseMsg_none {b : Bytes} (h : ¬ b.length = 32) : parseMsg b = none := if_neg h

/-- The signature object behind a successful `sign`. -/
theorem sign_ok {S : Secp} (L : Ecdsa S) {E : Ecc} (hE : Backend S E) {sk : Bytes} {msg : ByteArray}
    (hk : SecretKey S sk) (hm : msg.data.length = 32) :
    ∃ s, E.sign sk msg = .ok (msg.applyFunction (S.serDer s) .ecdsaSign) ∧ L.low s = true ∧
      L.valid msg.data s (S.derive (beNat sk)) = true ∧
      E.derivePubkey sk = .ok (S.compress (S.derive (beNat sk))) := by
  cases hE with
  | c =>
    refine ⟨S.signC (beNat sk) msg.data, ?_, L.signC_low _ _, L.signC_valid _ _ hk.2.1 hk.2.2 hm, ?_⟩
    · simp only [Secp.cEcc, parseSk_some hk, parseMsg_some hm]
    · simp only [Secp.cEcc, parseSk_some hk]
  | rust =>
    refine ⟨S.normalizeS (S.signRust (beNat sk) msg.data), ?_, L.normalize_low _, ?_, ?_⟩
    · simp only [Secp.rustEcc, parseSk_some hk, parseMsg_some hm]
    · rw [L.normalize_valid]; exact L.signRust_valid _ _ hk.2.1 hk.2.2 hm
    · simp only [Secp.rustEcc, parseSk_some hk]

/-- Verification of a low-S signature object, for a compressed key. -/
theorem verify_low {S : Secp} (L : Ecdsa S) {E : Ecc} (hE : Backend S E) {pk msg sig : Bytes}
    {s : S.Sig} {p : S.Pk} (hm : msg.length = 32) (hs : S.fromDer sig = some s)
    (hp : S.parsePk pk = some p) (hl : pk.length = 33) (hlow : L.low s = true) :
    E.verify pk msg sig = .ok (L.valid msg s p) := by
  cases hE with
  | c =>
    simp only [Secp.cEcc, parseMsg_some hm, hs, hp, L.verifyC_eq, hlow, true_and]
    by_cases h : L.valid msg s p = true
    · rw [if_pos h, h]
    · rw [if_neg h]; simp at h; rw [h]
  | rust =>
    simp only [Secp.rustEcc, parseMsg_some hm, hs, L.parsePkCompressed_eq, if_pos hl, hp,
      L.verifyRust_eq _ _ _ hlow]

/-- **C84** (signing): signing a 32-byte message with a secret key succeeds; the signature verifies for
the message under the key's public key, with either implementation; it is in normal form, has at most
72 bytes, and records that it is a signature of this message. -/
theorem C84_sign_verify (S : Secp) (L : Ecdsa S) (E E' : Ecc) (hE : Backend S E) (hE' : Backend S E')
    (sk : Bytes) (msg : ByteArray) (hk : SecretKey S sk) (hm : msg.data.length = 32) :
    ∃ sig pk, E.sign sk msg = .ok sig ∧ E.derivePubkey sk = .ok pk ∧ E'.derivePubkey sk = .ok pk ∧
      E'.verify pk.1 msg.data sig.data = .ok true ∧ E'.normalizeSig sig.data = .ok sig.data ∧
      sig.data.length ≤ 72 ∧ sig.function = .ecdsaSign ∧ sig.preimage = some [msg] := by
  obtain ⟨s, h1, h2, h3, h4⟩ := sign_ok L hE hk hm
  obtain ⟨_, _, _, _, h4'⟩ := sign_ok L hE' hk hm
  refine ⟨_, _, h1, h4, h4', ?_, ?_, L.serDer_length s, rfl, rfl⟩
  · have := verify_low L hE' (pk := (S.compress (S.derive (beNat sk))).1) (sig := S.serDer s) hm
      (L.fromDer_serDer s) (L.parsePk_compress _) (S.compress _).2 h2
    rw [h3] at this
    exact this
  · have hd := L.fromDerLax_of_fromDer _ _ (L.fromDer_serDer s)
    have hn := L.normalize_of_low s h2
    cases hE' with
    | c =>
      show (match S.fromDerLax (S.serDer s) with
        | none => _ | some s => _) = _
      rw [hd]; dsimp only; rw [hn]; rfl
    | rust =>
      show (match S.fromDerLax (S.serDer s) with
        | none => _ | some s => _) = _
      rw [hd]; dsimp only; rw [hn]; rfl

/-- **C84** (refusals): without a secret key or without a 32-byte message, signing and deriving a public
key are errors that carry the size of what was given. -/
theorem C84_sign_errors (S : Secp) (E : Ecc) (hE : Backend S E) (sk : Bytes) (msg : ByteArray) :
    (¬ SecretKey S sk → E.sign sk msg = .err (.invalidSize 32 sk.length) ∧
      E.derivePubkey sk = .err (.invalidSize 32 sk.length)) ∧
    (SecretKey S sk → msg.data.length ≠ 32 →
      E.sign sk msg = .err (.invalidSize 32 msg.data.length)) := by
  constructor
  · intro h
    cases hE <;> simp only [Secp.cEcc, Secp.rustEcc, parseSk_none h, and_self]
  · intro h hm
    cases hE <;> simp only [Secp.cEcc, Secp.rustEcc, parseSk_some h, parseMsg_none hm]

/-- **C84** (verdicts): verification is an error exactly if the message does not have 32 bytes, the
signature is not DER or the public key cannot be read, in this order; otherwise it is a verdict, and for
low-S signatures the verdict is the ECDSA equation. It never panics. -/
theorem C84_verify (S : Secp) (L : Ecdsa S) (E : Ecc) (hE : Backend S E) (pk msg sig : Bytes)
    (hl : pk.length = 33) :
    (msg.length ≠ 32 → E.verify pk msg sig = .err (.invalidSize 32 msg.length)) ∧
    (msg.length = 32 → S.fromDer sig = none → E.verify pk msg sig = .err .invalidSignatureFormat) ∧
    (msg.length = 32 → S.fromDer sig ≠ none → S.parsePk pk = none →
      E.verify pk msg sig = .err .invalidPubkey) ∧
    (∀ s p, msg.length = 32 → S.fromDer sig = some s → S.parsePk pk = some p →
      (∃ v, E.verify pk msg sig = .ok v) ∧
      (L.low s = true → E.verify pk msg sig = .ok (L.valid msg s p))) := by
  refine ⟨fun hm => ?_, fun hm hs => ?_, fun hm hs hp => ?_, fun s p hm hs hp =>
    ⟨?_, verify_low L hE hm hs hp hl⟩⟩
  · cases hE <;> simp only [Secp.cEcc, Secp.rustEcc, parseMsg_none hm]
  · cases hE <;> simp only [Secp.cEcc, Secp.rustEcc, parseMsg_some hm, hs]
  · cases hsig : S.fromDer sig with
    | none => exact absurd hsig hs
    | some s =>
      cases hE with
      | c => simp only [Secp.cEcc, parseMsg_some hm, hsig, hp]
      | rust => simp only [Secp.rustEcc, parseMsg_some hm, hsig, L.parsePkCompressed_eq, if_pos hl, hp]
  · cases hE with
    | c =>
      simp only [Secp.cEcc, parseMsg_some hm, hs, hp, L.verifyC_eq]
      by_cases h : L.low s = true ∧ L.valid msg s p = true
      · rw [if_pos h]; exact ⟨_, rfl⟩
      · rw [if_neg h]; exact ⟨_, rfl⟩
    | rust =>
      simp only [Secp.rustEcc, parseMsg_some hm, hs, L.parsePkCompressed_eq, if_pos hl, hp]
      exact ⟨_, rfl⟩

/-- **C84** (normalisation): normalising is an error or gives a DER signature that is its own normal form
and is as valid as the original one: it verifies, with either implementation, exactly if the original
satisfies the ECDSA equation. -/
theorem C84_normalize (S : Secp) (L : Ecdsa S) (E E' : Ecc) (hE : Backend S E) (hE' : Backend S E')
    (sig : Bytes) :
    (S.fromDerLax sig = none → E.normalizeSig sig = .err .invalidSignatureFormat) ∧
    (∀ s, S.fromDerLax sig = some s → ∃ out, E.normalizeSig sig = .ok out ∧
      E'.normalizeSig out = .ok out ∧
      ∀ pk msg p, pk.length = 33 → S.parsePk pk = some p → msg.length = 32 →
        E'.verify pk msg out = .ok (L.valid msg s p)) := by
  constructor
  · intro h
    cases hE <;> simp only [Secp.cEcc, Secp.rustEcc, h]
  · intro s h
    refine ⟨S.serDer (S.normalizeS s), ?_, ?_, ?_⟩
    · cases hE <;> simp only [Secp.cEcc, Secp.rustEcc, h]
    · have hd := L.fromDerLax_of_fromDer _ _ (L.fromDer_serDer (S.normalizeS s))
      have hn := L.normalize_of_low _ (L.normalize_low s)
      cases hE' <;> simp only [Secp.cEcc, Secp.rustEcc, hd, hn]
    · intro pk msg p hl hp hm
      rw [verify_low L hE' hm (L.fromDer_serDer _) hp hl (L.normalize_low s), L.normalize_valid]

/-- **C84** (implementations agree): both implementations derive the same public keys and normal forms,
refuse the same secret keys and messages, and for 33-byte public keys and signatures in normal form give
the same verdicts and errors. Missing: public keys of other formats, see `C84_backends_fails`, and
high-S signatures, about which the Rust crate's verdict is not assumed. -/
theorem C84_backends_partial (S : Secp) (L : Ecdsa S) (sk pk msg sig : Bytes) :
    S.cEcc.derivePubkey sk = S.rustEcc.derivePubkey sk ∧
    S.cEcc.normalizeSig sig = S.rustEcc.normalizeSig sig ∧
    (∀ m : ByteArray, (∃ e, S.cEcc.sign sk m = .err e) → S.cEcc.sign sk m = S.rustEcc.sign sk m) ∧
    (∀ m : ByteArray, (∃ e, S.rustEcc.sign sk m = .err e) → S.cEcc.sign sk m = S.rustEcc.sign sk m) ∧
    (pk.length = 33 → S.cEcc.normalizeSig sig = .ok sig →
      S.cEcc.verify pk msg sig = S.rustEcc.verify pk msg sig) := by
  refine ⟨rfl, rfl, ?_, ?_, ?_⟩
  · rintro m ⟨e, h⟩
    simp only [Secp.cEcc, Secp.rustEcc] at h ⊢
    cases h1 : S.parseSk sk with
    | none => rfl
    | some k =>
      cases h2 : parseMsg m.data with
      | none => rfl
      | some mm => rw [h1, h2] at h; cases h
  · rintro m ⟨e, h⟩
    simp only [Secp.cEcc, Secp.rustEcc] at h ⊢
    cases h1 : S.parseSk sk with
    | none => rfl
    | some k =>
      cases h2 : parseMsg m.data with
      | none => rfl
      | some mm => rw [h1, h2] at h; cases h
  · intro hl hn
    by_cases hm : msg.length = 32
    · cases hs : S.fromDer sig with
      | none =>
        rw [(C84_verify S L _ .c pk msg sig hl).2.1 hm hs, (C84_verify S L _ .rust pk msg sig hl).2.1 hm hs]
      | some s =>
        have hlow : L.low s = true := by
          simp only [Secp.cEcc, L.fromDerLax_of_fromDer _ _ hs] at hn
          have hn' : S.serDer (S.normalizeS s) = sig := Res.ok.inj hn
          have := L.fromDer_serDer (S.normalizeS s)
          rw [hn', hs] at this
          rw [Option.some.inj this]
          exact L.normalize_low s
        cases hp : S.parsePk pk with
        | none =>
          rw [(C84_verify S L _ .c pk msg sig hl).2.2.1 hm (by rw [hs]; simp) hp,
            (C84_verify S L _ .rust pk msg sig hl).2.2.1 hm (by rw [hs]; simp) hp]
        | some p => rw [verify_low L .c hm hs hp hl hlow, verify_low L .rust hm hs hp hl hlow]
    · rw [(C84_verify S L _ .c pk msg sig hl).1 hm, (C84_verify S L _ .rust pk msg sig hl).1 hm]

/-! ## An instance -/

/-- A 32-byte message, or zeros. -/
def toyMsg (m : Bytes) : FixedBytes 32 := if h : m.length = 32 then ⟨m, h⟩ else ⟨List.replicate 32 0, by simp⟩

/-- A toy signature scheme with the assumed properties: a signature is the key, a mark for the high-S
form, and the message. -/
def toySecp : Secp where
  Sig := UInt8 × Bool × FixedBytes 32
  Pk := UInt8
  order := 200
  derive k := UInt8.ofNat k
  signC k m := (UInt8.ofNat k, false, toyMsg m)
  signRust k m := (UInt8.ofNat k, true, toyMsg m)
  normalizeS s := (s.1, false, s.2.2)
  serDer s := s.1 :: (if s.2.1 then 1 else 0) :: s.2.2.1
  fromDer
    | k :: h :: m => if hm : m.length = 32 then
        if h = 0 then some (k, false, ⟨m, hm⟩) else if h = 1 then some (k, true, ⟨m, hm⟩) else none
      else none
    | _ => none
  fromDerLax
    | k :: h :: m => if hm : m.length = 32 then
        if h = 0 then some (k, false, ⟨m, hm⟩) else if h = 1 then some (k, true, ⟨m, hm⟩) else none
      else none
    | _ => none
  parsePk b := if b.length = 33 ∨ b.length = 65 then b.head? else none
  parsePkCompressed b := if b.length = 33 then b.head? else none
  compress p := ⟨p :: List.replicate 32 0, by simp⟩
  verifyC m s p :=
    if s.2.1 = false ∧ s.1 = p ∧ s.2.2.1 = m then .ok () else .error .incorrectSignature
  verifyRust m s p := s.1 == p && s.2.2.1 == m

theorem toy_verifyC (m : Bytes) (k : UInt8) (h : Bool) (x : FixedBytes 32) (p : UInt8) :
    (if h = false ∧ k = p ∧ x.1 = m then .ok () else .error .incorrectSignature : Except SecpError Unit) =
    if (!h) = true ∧ (k == p && x.1 == m) = true then .ok () else .error .incorrectSignature := by
  simp

/-- The assumptions can be met. -/
def toyEcdsa : Ecdsa toySecp where
  valid m s p := s.1 == p && s.2.2.1 == m
  low s := !s.2.1
  signC_valid k m h1 h2 hm := by simp [toySecp, toyMsg, hm]
  signC_low k m := rfl
  signRust_valid k m h1 h2 hm := by simp [toySecp, toyMsg, hm]
  normalize_low s := rfl
  normalize_of_low s h := by
    rcases s with ⟨k, h', m⟩
    cases h' with
    | false => rfl
    | true => simp at h
  normalize_valid m s p := rfl
  fromDer_serDer s := by
    rcases s with ⟨k, h, m, hm⟩
    cases h
    · simp only [toySecp, hm]; rfl
    · simp only [toySecp, hm]; rfl
  fromDerLax_of_fromDer b s h := h
  parsePk_compress p := rfl
  parsePkCompressed_eq b := by
    simp only [toySecp]
    by_cases h : b.length = 33
    · rw [if_pos h, if_pos (Or.inl h), if_pos h]
    · rw [if_neg h, if_neg h]
  verifyC_eq m s p := toy_verifyC m s.1 s.2.1 s.2.2 p
  verifyRust_eq m s p h := rfl
  serDer_length s := by
    have := s.2.2.2
    show (s.1 :: (if s.2.1 then 1 else 0) :: s.2.2.1).length ≤ 72
    simp only [List.length_cons]; omega

/-- A secret key of the toy scheme. -/
def toyKey : Bytes := List.replicate 31 0 ++ [5]

/-- The hypotheses are met, and the conclusions are about a signature that verifies and one that does
not. -/
example : SecretKey toySecp toyKey ∧
    (toySecp.rustEcc.sign toyKey (.newUnnamed (List.replicate 32 7))).map (·.data) =
      .ok (5 :: 0 :: List.replicate 32 7) ∧
    toySecp.cEcc.verify (5 :: List.replicate 32 0) (List.replicate 32 7)
      (5 :: 0 :: List.replicate 32 7) = .ok true ∧
    toySecp.cEcc.verify (5 :: List.replicate 32 0) (List.replicate 32 7)
      (5 :: 1 :: List.replicate 32 7) = .ok false ∧
    toySecp.cEcc.normalizeSig (5 :: 1 :: List.replicate 32 7) = .ok (5 :: 0 :: List.replicate 32 7) ∧
    toySecp.rustEcc.verify (5 :: List.replicate 32 0) (List.replicate 32 8)
      (5 :: 0 :: List.replicate 32 7) = .ok false := by
  refine ⟨⟨rfl, ?_, ?_⟩, rfl, rfl, rfl, rfl, rfl⟩ <;> decide

/-- **C84** (refusals) the error for a 32-byte string that is no secret key (0, or the group order and
above) says that 32 bytes were expected and 32 were given. -/
theorem C84_key_error_fails (S : Secp) (E : Ecc) (hE : Backend S E) (msg : ByteArray) :
    ¬ SecretKey S (List.replicate 32 0) ∧ E.sign (List.replicate 32 0) msg = .err (.invalidSize 32 32) := by
  have h : ¬ SecretKey S (List.replicate 32 0) := fun h => absurd h.2.1 (by decide)
  exact ⟨h, ((C84_sign_errors S E hE _ msg).1 h).1⟩

/-- **C84** (implementations agree) fails for uncompressed public keys: where the C implementation gives
a verdict, the Rust implementation refuses every 65-byte public key. -/
theorem C84_backends_fails :
    (∀ (S : Secp) (_ : Ecdsa S) (pk msg sig : Bytes), pk.length ≠ 33 → msg.length = 32 →
      S.fromDer sig ≠ none → S.rustEcc.verify pk msg sig = .err .invalidPubkey) ∧
    (∃ (S : Secp) (_ : Ecdsa S) (pk msg sig : Bytes), pk.length = 65 ∧
      S.cEcc.verify pk msg sig = .ok true ∧ S.rustEcc.verify pk msg sig = .err .invalidPubkey) := by
  constructor
  · intro S L pk msg sig hl hm hs
    cases hsig : S.fromDer sig with
    | none => exact absurd hsig hs
    | some s => simp only [Secp.rustEcc, parseMsg_some hm, hsig, L.parsePkCompressed_eq, if_neg hl]
  · exact ⟨toySecp, toyEcdsa, 5 :: List.replicate 64 0, List.replicate 32 7, 5 :: 0 :: List.replicate 32 7,
      rfl, rfl, rfl⟩

variable {Dyn : Type}

/-- **C84** (spending): with scripts whose signatures are checked by either implementation, an input that
spends an output locked to the address of a secret key's public key, added with the P2PKH signatory for
this public key and flags with the fork id, and signed by `sign` with this secret key over the hash of the
preimage handed out for this input, is valid in the completed transaction. -/
theorem C84_spend (S : Secp) (L : Ecdsa S) (E E' : Ecc) (hE : Backend S E) (hE' : Backend S E')
    (c : Crypto) (hc : ∀ pk m sig, c.verify pk m sig = true ↔ E'.verify pk m sig = .ok true)
    (sz : Layout) (H : Bytes → Hash256) (hH : ∀ x, (H x).1 = c.hash256 x)
    (h160 : Bytes → Hash160) (h160c : ∀ x, (h160 x).1 = c.hash160 x)
    (b : TxBuilder Dyn) (u : UnsignedTx Dyn) (cs : List (SignCall Dyn)) (tx : UnhashedTx)
    (h : Completed sz H b u cs tx) (idx : Nat) (input : UnsignedTxInput)
    (sk : Bytes) (s : P2PKHSignatory) (hpk : E.derivePubkey sk = .ok s.pubkey)
    (pre : Bytes) (a : Address) (ha : Address.fromPk h160 pre s.pubkey = some a)
    (dc : Dyn → Option Bytes) (hadd : InputAdded b idx input a.toScript (s.signatory dc))
    (hf8 : s.sigHashFlags.toNat < 256) (hfork : s.sigHashFlags.toNat / 64 % 2 = 1)
    (p : TxPreimage) (bytes : Bytes) (hp : preimageAt u.txPreimages idx 0 = some p)
    (hb : Codec.txPreimage.ser p = some bytes) (msg sig : ByteArray) (hmsg : msg.data = (H bytes).1)
    (hsig : E.sign sk msg = .ok sig)
    (hcs : ∀ call ∈ cs, call.idx = idx → call = .signatory idx (s.signatory dc) sig.data ∨
      ∃ d, call = .dyn idx d ∧ dc d = some sig.data) :
    SpendOk c tx.wire idx input.value.toNat (scriptBytes a.toScript) := by
  have hk : SecretKey S sk := by
    by_contra hk
    rw [((C84_sign_errors S E hE sk msg).1 hk).1] at hsig
    cases hsig
  have hm : msg.data.length = 32 := by rw [hmsg]; exact (H bytes).2
  obtain ⟨sig', pk, h1, h2, _, h4, _, h6, _⟩ := C84_sign_verify S L E E' hE hE' sk msg hk hm
  rw [hsig] at h1; cases h1
  rw [hpk] at h2; cases h2
  refine C63_p2pkh_own_key c sz H hH h160 h160c b u cs tx h idx input s pre a ha dc hadd hf8 hfork
    sig.data (by omega) hcs ?_
  intro p' bytes' hp' hb'
  rw [hp] at hp'; cases hp'
  rw [hb] at hb'; cases hb'
  rw [← hH, ← hmsg]
  exact (hc _ _ _).2 h4

/-! ### An example of the last theorem -/

/-- Toy hashes, and signatures checked by the C implementation of the toy scheme. -/
def toyCrypto : Crypto where
  ripemd160 x := x.take 20
  sha1 x := x.take 20
  sha256 _ := List.replicate 32 7
  verify pk m sig := toySecp.cEcc.verify pk m sig == .ok true

def toySignatory : P2PKHSignatory := ⟨⟨5 :: List.replicate 32 0, rfl⟩, SigHashFlags.DEFAULT⟩

def toyAddress : Address := ⟨.P2PKH, ⟨List.replicate 20 7, rfl⟩, [], [], none⟩

/-- One input that spends an output of the key's address. -/
def toyBuilder : TxBuilder Bytes :=
  ((TxBuilder.newSimple : TxBuilder Bytes).addInput (exampleSpendInput 0) toyAddress.toScript
    (toySignatory.signatory some)).1.addOutput ⟨5000, toyAddress.toScript⟩

/-- The signature the Rust implementation makes for any preimage (the toy hash is constant). -/
def toySig : Bytes := 5 :: 0 :: List.replicate 32 7

def toyRun : Option (UnsignedTx Bytes × UnhashedTx) :=
  match toyBuilder.build ⟨1, 1⟩ exampleHash with
  | .ok u => (signAll u [.dyn 0 toySig]).bind fun u' => u'.completeTx.map fun tx => (u, tx)
  | _ => none

example : toyRun.map (fun r => r.2.outputs.length) = some 1 := by decide +kernel

example (u : UnsignedTx Bytes) (tx : UnhashedTx) (h : toyRun = some (u, tx)) :
    SpendOk toyCrypto tx.wire 0 10000 (scriptBytes toyAddress.toScript) := by
  have hpre : (match toyRun with
      | some (u, _) => (preimageAt u.txPreimages 0 0).any fun p => (Codec.txPreimage.ser p).isSome
      | none => false) = true := by decide +kernel
  have houts : (match toyRun with
      | some (u, _) => u.outputs.all fun o => (o.script.serOps.map List.length).any (· < 2 ^ 64)
      | none => false) = true := by decide +kernel
  rw [h] at hpre houts
  dsimp only at hpre houts
  have hC : Completed ⟨1, 1⟩ exampleHash toyBuilder u [.dyn 0 toySig] tx := by
    unfold toyRun at h
    split at h
    · next u0 hb =>
      obtain ⟨u', h1, h2⟩ := Option.bind_eq_some_iff.mp h
      obtain ⟨tx', h2, h3⟩ := Option.map_eq_some_iff.mp h2
      cases h3
      refine ⟨.addOutput _ (.addInput _ _ _ .newSimple), .inl hb, ⟨u', h1, h2⟩, fun o ho => ?_⟩
      rw [List.all_eq_true] at houts
      have := houts o ho
      cases hs : o.script.serOps with
      | none => rw [hs] at this; cases this
      | some bs =>
        rw [hs] at this
        simp only [Option.map_some, Option.any_some, decide_eq_true_eq] at this
        exact ⟨bs, hs, this⟩
    · cases h
  cases hp : preimageAt u.txPreimages 0 0 with
  | none => rw [hp] at hpre; cases hpre
  | some p =>
    rw [hp] at hpre
    simp only [Option.any_some, Option.isSome_iff_exists] at hpre
    obtain ⟨bytes, hb⟩ := hpre
    have hs : toySecp.rustEcc.sign toyKey (.newUnnamed (List.replicate 32 7)) =
        .ok ((ByteArray.newUnnamed (List.replicate 32 7)).applyFunction toySig .ecdsaSign) := rfl
    obtain ⟨str, hstr⟩ := Option.isSome_iff_exists.1 (show (toCashAddr [] .P2PKH
      (List.replicate 20 7)).isSome = true by decide +kernel)
    have ha : Address.fromPk (fun _ => ⟨List.replicate 20 7, rfl⟩) [] toySignatory.pubkey =
        some ⟨.P2PKH, ⟨List.replicate 20 7, rfl⟩, str, [], Prefix.fromStr []⟩ := by
      unfold Address.fromPk Address.fromHash
      rw [hstr]; rfl
    exact C84_spend toySecp toyEcdsa toySecp.rustEcc toySecp.cEcc .rust .c toyCrypto
      (fun pk m sig => by simp only [toyCrypto, beq_iff_eq]) ⟨1, 1⟩ exampleHash (fun _ => rfl)
      (fun _ => ⟨List.replicate 20 7, rfl⟩) (fun x => rfl) toyBuilder u _ tx hC 0
      (exampleSpendInput 0) toyKey toySignatory rfl []
      ⟨.P2PKH, ⟨List.replicate 20 7, rfl⟩, str, [], Prefix.fromStr []⟩ ha some
      ⟨TxBuilder.newSimple, rfl, ⟨[], rfl⟩⟩ (by decide) (by decide) p bytes hp hb _ _ rfl hs
      (by
        intro call hcall _
        simp only [List.mem_cons, List.not_mem_nil, or_false] at hcall
        exact .inr ⟨toySig, hcall, rfl⟩)

end BCash
