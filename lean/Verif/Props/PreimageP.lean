import Verif.Model.PreimageP
import Verif.Props.ReadBack
import Verif.Props.Preimage

/-! # C76, C77: digests and signature preimages record what was hashed -/

namespace BCash
open Spec

/-- Spec: double SHA-256. -/
def Spec.sha256d (P : HashPrims) (msg : Bytes) : Hash256 := P.sha256 (P.sha256 msg).1

/-! ## C76 -/

/-- The digest is always an array of the right length: no panic. -/
theorem digest_ok (P : HashPrims) (k : HashKind) (msg : ByteArray) :
    ∃ h : FixedP k.size, k.digest P msg = .ok h ∧
      h.1 = .mk (k.digestSlice P msg.data) none k.function (some [msg]) := by
  have hl : (msg.applyFunction (k.digestSlice P msg.data) k.function).data.length = k.size := by
    cases k
    · exact (P.sha1 msg.data).2
    · exact (P.ripemd160 msg.data).2
    · exact (P.sha256 msg.data).2
    · exact (P.sha256 (P.sha256 msg.data).1).2
    · exact (P.ripemd160 (P.sha256 msg.data).1).2
  refine ⟨⟨_, hl⟩, ?_, rfl⟩
  unfold HashKind.digest FixedP.fromByteArray
  rw [dif_pos hl]

/-- **C76** (digests): each of the five hash types computes its hash function (double SHA-256 for `Sha256d`,
RIPEMD-160 of SHA-256 for `Hash160`) of the bytes of the message, never panics, and records the function and
the message with its own provenance. -/
theorem C76_digest (P : HashPrims) (msg : ByteArray) :
    (∃ h, HashKind.sha1.digest P msg = .ok h ∧ h.1.data = (P.sha1 msg.data).1 ∧
      h.1.function = .sha1 ∧ h.1.preimage = some [msg] ∧ h.1.name = none) ∧
    (∃ h, HashKind.ripemd160.digest P msg = .ok h ∧ h.1.data = (P.ripemd160 msg.data).1 ∧
      h.1.function = .ripemd160 ∧ h.1.preimage = some [msg] ∧ h.1.name = none) ∧
    (∃ h, HashKind.sha256.digest P msg = .ok h ∧ h.1.data = (P.sha256 msg.data).1 ∧
      h.1.function = .sha256 ∧ h.1.preimage = some [msg] ∧ h.1.name = none) ∧
    (∃ h, HashKind.sha256d.digest P msg = .ok h ∧ h.1.data = (P.sha256 (P.sha256 msg.data).1).1 ∧
      h.1.function = .hash256 ∧ h.1.preimage = some [msg] ∧ h.1.name = none) ∧
    (∃ h, HashKind.hash160.digest P msg = .ok h ∧ h.1.data = (P.ripemd160 (P.sha256 msg.data).1).1 ∧
      h.1.function = .hash160 ∧ h.1.preimage = some [msg] ∧ h.1.name = none) := by
  refine ⟨?_, ?_, ?_, ?_, ?_⟩
  · obtain ⟨h, h1, h2⟩ := digest_ok P .sha1 msg
    exact ⟨h, h1, by rw [h2]; exact ⟨rfl, rfl, rfl, rfl⟩⟩
  · obtain ⟨h, h1, h2⟩ := digest_ok P .ripemd160 msg
    exact ⟨h, h1, by rw [h2]; exact ⟨rfl, rfl, rfl, rfl⟩⟩
  · obtain ⟨h, h1, h2⟩ := digest_ok P .sha256 msg
    exact ⟨h, h1, by rw [h2]; exact ⟨rfl, rfl, rfl, rfl⟩⟩
  · obtain ⟨h, h1, h2⟩ := digest_ok P .sha256d msg
    exact ⟨h, h1, by rw [h2]; exact ⟨rfl, rfl, rfl, rfl⟩⟩
  · obtain ⟨h, h1, h2⟩ := digest_ok P .hash160 msg
    exact ⟨h, h1, by rw [h2]; exact ⟨rfl, rfl, rfl, rfl⟩⟩

/-- **C76** (using digests): a digest under another name, as an array, and concatenated with anything is still
recorded as that digest. -/
theorem C76_used (P : HashPrims) (k : HashKind) (msg other : ByteArray) (name : String) :
    ∃ h, k.digest P msg = .ok h ∧
      (h.named name).1.data = h.1.data ∧ (h.named name).1.function = h.1.function ∧
      (h.named name).1.preimage = h.1.preimage ∧ (h.named name).1.name = some name ∧
      h.intoByteArray = h.1 ∧ (h.concat other).data = h.1.data ++ other.data ∧
      pieces (h.concat other) = h.1 :: pieces other ∧
      pieces ((h.named name).concat other) = (h.named name).1 :: pieces other := by
  obtain ⟨⟨b, hb⟩, h1, h2⟩ := digest_ok P k msg
  have hf : k.function ≠ .plain := by cases k <;> decide
  have h3 : b = .mk (k.digestSlice P msg.data) none k.function (some [msg]) := h2
  subst h3
  refine ⟨_, h1, rfl, rfl, rfl, rfl, rfl, ?_, ?_, ?_⟩
  · simp [FixedP.concat, FixedP.intoByteArray]
  · simp only [FixedP.concat, FixedP.intoByteArray]
    rw [ByteArray.concat, (C72_concat _ _ none).1, pieces_other _ _ _ _ hf]; rfl
  · simp only [FixedP.concat, FixedP.intoByteArray, FixedP.named, ByteArray.named]
    rw [ByteArray.concat, (C72_concat _ _ none).1, pieces_other _ _ _ _ hf]; rfl

/-- **C76** (transaction ids): the id of a hashed transaction is the double SHA-256 of its serialisation, and is
recorded as such; the transaction inside is the one that was hashed. -/
theorem C76_transaction_id (P : HashPrims) (opName : Opcode → String) (sz : Layout) (t : UnhashedTxP) (tx : TxP)
    (h : t.hashed P opName sz = some tx) :
    tx.unhashedTx = t ∧ (CodecP.unhashedTx opName sz).ser t = some tx.raw ∧
      tx.hash.1.data = (P.sha256 (P.sha256 tx.raw.data).1).1 ∧ tx.hash.1.function = .hash256 ∧
      tx.hash.1.preimage = some [tx.raw] := by
  unfold UnhashedTxP.hashed at h
  obtain ⟨raw, h1, h2⟩ := Option.bind_eq_some_iff.mp h
  obtain ⟨hh, h3, h4⟩ := digest_ok P .sha256d raw
  rw [h3] at h2
  simp only [Option.some.injEq] at h2
  rw [← h2]
  refine ⟨rfl, h1, ?_, ?_, ?_⟩
  · show hh.1.data = _; rw [h4]; rfl
  · show hh.1.function = _; rw [h4]; rfl
  · show hh.1.preimage = _; rw [h4]; rfl

/-- **C76** (transactions without provenance): hashing a transaction gives the double SHA-256 of its serialised
bytes (C14) together with the transaction and those bytes, or fails when serialisation does; provenance makes
no difference. -/
theorem C76_transaction_contents (P : HashPrims) (opName : Opcode → String) (sz : Layout) (t : UnhashedTxP) :
    (t.hashed P opName sz).map TxP.erase = t.erase.hashed sz (sha256d P) ∧
    (∀ (u : UnhashedTx) (tx : Tx), u.hashed sz (sha256d P) = some tx ↔
      tx.unhashedTx = u ∧ (Codec.unhashedTx sz).ser u = some tx.raw ∧
        tx.hash.1 = (P.sha256 (P.sha256 tx.raw).1).1) := by
  constructor
  · unfold UnhashedTxP.hashed UnhashedTx.hashed
    rw [← (Refines.unhashedTx opName sz).ser t]
    cases (CodecP.unhashedTx opName sz).ser t with
    | none => rfl
    | some raw =>
      obtain ⟨h, h1, h2⟩ := digest_ok P .sha256d raw
      simp only [Option.bind_some, h1, Option.map_some]
      refine congrArg some ?_
      unfold TxP.erase
      refine congrArg (Tx.mk _ · _) (Subtype.ext ?_)
      show h.1.data = _
      rw [h2]; rfl
  · intro u tx
    unfold UnhashedTx.hashed
    rw [Option.map_eq_some_iff]
    constructor
    · rintro ⟨raw, h1, rfl⟩
      exact ⟨rfl, h1, rfl⟩
    · rintro ⟨h1, h2, h3⟩
      refine ⟨_, h2, ?_⟩
      obtain ⟨u', h, raw⟩ := tx
      dsimp only at *
      subst h1
      refine congrArg (Tx.mk _ · _) (Subtype.ext h3.symm)

/-- Non-vacuity: a public key hash over a named key, with a toy hash function. -/
example : ∃ (P : HashPrims) (h : FixedP 20),
    HashKind.hash160.digest P ((ByteArray.new "a" [2]).concat (.new "b" [3])) = .ok h ∧
    h.1.data = List.replicate 20 5 ∧ (pieces (h.concat (.newUnnamed [1]))).map ByteArray.function =
      [.hash160, .plain] :=
  ⟨⟨fun _ => ⟨List.replicate 20 4, rfl⟩, fun _ => ⟨List.replicate 20 5, rfl⟩, fun _ => ⟨List.replicate 32 6, rfl⟩⟩,
    _, rfl, rfl, rfl⟩

/-! ## C77 -/

/-- Forgetting provenance. -/
def PreimageInputP.erase (i : PreimageInputP) : PreimageInput :=
  ⟨i.outpoint.erase, i.sequence, i.sigHashFlags, i.lockScript.map ScriptP.erase, i.value⟩
def PreimageTxP.erase (t : PreimageTxP) : PreimageTx :=
  ⟨t.version, t.inputs.map PreimageInputP.erase, t.outputs.map TxOutputP.erase, t.lockTime⟩

/-- Spec: the double hash of the array `a`, recorded as such under a name. -/
def Spec.IsHashOf (h : FixedP 32) (name : Option String) (a : ByteArray) : Prop :=
  h.1.name = name ∧ h.1.function = .hash256 ∧ h.1.preimage = some [a]

/-- Spec: what the hashes in the preimage of input `idx` with flags `f` of transaction `t` are recorded to be
made from. -/
structure Spec.Explains (opName : Opcode → String) (t : PreimageTxP) (idx : Nat) (f : Nat) (p : TxPreimageP) :
    Prop where
  outpoint : ∃ inp, t.inputs[idx]? = some inp ∧ p.outpoint = inp.outpoint
  scriptCode : ∃ inp lock, t.inputs[idx]? = some inp ∧ inp.lockScript = some lock ∧ p.scriptCode <:+ lock
  prevouts : if anyoneCanPay f then p.hashPrevouts.1 = .new "hashPrevouts" zero32
    else ∃ a, IsHashOf p.hashPrevouts (some "hashPrevouts") a ∧ a.name = some "prevouts" ∧
      filled a = (t.inputs.map fun i => outpointPieces i.outpoint).flatten
  sequences : if anyoneCanPay f ∨ baseType f = 2 ∨ baseType f = 3 then
      p.hashSequence.1 = .new "hashSequence" zero32
    else ∃ a, IsHashOf p.hashSequence (some "hashSequence") a ∧ a.name = some "sequences" ∧
      filled a = t.inputs.zipIdx.map fun i => .new ("sequence_" ++ toString i.2) (leBytes 4 i.1.sequence.toNat)
  outputs : if baseType f = 2 then p.hashOutputs.1 = .new "hashOutputs" zero32
    else if baseType f = 3 then
      match t.outputs[idx]? with
      | none => p.hashOutputs.1 = .new "hashOutputs" zero32
      | some o => ∃ a, IsHashOf p.hashOutputs none a ∧ OutputPieces opName o (filled a)
    else ∃ a oss, IsHashOf p.hashOutputs (some "hashOutputs") a ∧ a.name = some "outputs" ∧
      List.Forall₂ (OutputPieces opName) t.outputs oss ∧ filled a = oss.flatten

/-- Spec: the pieces of a serialised preimage. -/
def Spec.PreimagePieces (opName : Opcode → String) (p : TxPreimageP) (ps : List ByteArray) : Prop :=
  ∃ ss, ScriptPieces opName p.scriptCode ss ∧
    ps = [.new "version" (leBytes 4 p.version.toUInt32.toNat)] ++ filled (p.hashPrevouts.1.named "hash_prevouts") ++
      filled (p.hashSequence.1.named "hash_sequence") ++ outpointPieces p.outpoint ++ ss ++
      [.new "value" (leBytes 8 p.value.toNat), .new "sequence" (leBytes 4 p.sequence.toNat)] ++
      filled (p.hashOutputs.1.named "hash_outputs") ++
      [.new "lock_time" (leBytes 4 p.lockTime.toNat), .new "sig_hash_type" (leBytes 4 p.sigHashType.toNat)]

/-! ### The contents -/

theorem serNamed_data {α β : Type} {c : CodecP α} {c' : Codec β} {e : α → β} (h : Refines c c' e) (label : String)
    (vs : List α) : ∀ idx acc, (serNamed c label idx acc vs).map ByteArray.data =
      (c'.serMany (vs.map e)).map (acc.data ++ ·) := by
  induction vs with
  | nil => intro idx acc; simp [serNamed, Codec.serMany]
  | cons v vs ih =>
    intro idx acc
    rw [serNamed, List.map_cons, Codec.serMany, ← h.ser v]
    cases c.ser v with
    | none => rfl
    | some s =>
      simp only [Option.map_some, Option.bind_some]
      rw [ih]
      obtain ⟨d, n, f, pr⟩ := s
      cases c'.serMany (vs.map e) <;> simp [ByteArray.named]

theorem hashNamed_data (P : HashPrims) (items : Option ByteArray) (arg name : String) :
    (hashNamed P items arg name).map Refines.fixedE = (items.map ByteArray.data).map (sha256d P) := by
  cases items with
  | none => rfl
  | some b =>
    unfold hashNamed
    obtain ⟨h, h1, h2⟩ := digest_ok P .sha256d (b.named arg)
    simp only [Option.bind_some, h1]
    refine congrArg some (Subtype.ext ?_)
    show (h.1.named name).data = _
    rw [h2]
    obtain ⟨d, n, f, pr⟩ := b
    rfl

theorem erase_toScriptCodeFirst (s : ScriptP) :
    ScriptP.erase s.toScriptCodeFirst = (ScriptP.erase s).toScriptCodeFirst := by
  unfold ScriptP.toScriptCodeFirst Script.toScriptCodeFirst ScriptP.erase
  rw [List.findIdx?_map]
  have : ((fun op : Op Bytes => op.beq (.code .OP_CODESEPARATOR)) ∘ Op.map ByteArray.data) =
    fun op => (op.map ByteArray.data).beq (.code .OP_CODESEPARATOR) := rfl
  rw [this]
  cases List.findIdx? (fun op : Op ByteArray => (op.map ByteArray.data).beq (.code .OP_CODESEPARATOR)) s with
  | none => rfl
  | some idx => simp

theorem buildPreimageP_data (P : HashPrims) (opName : Opcode → String) (tx : PreimageTxP) (idx : Nat)
    (inp : PreimageInputP) (f : SigHashFlags) (hp hs ho : FixedP 32) :
    (buildPreimageP P opName tx idx inp f hp hs ho).map TxPreimageP.erase =
      buildPreimage (sha256d P) tx.erase idx inp.erase f (Refines.fixedE hp) (Refines.fixedE hs)
        (Refines.fixedE ho) := by
  unfold buildPreimageP buildPreimage
  dsimp only
  have hlen : tx.erase.outputs.length = tx.outputs.length := by simp [PreimageTxP.erase]
  have hout : ∀ X : Option (FixedP 32), ∀ Y : Option Hash256, X.map Refines.fixedE = Y →
      ∀ a b : FixedP 32,
      (X.bind fun hashOutputs => inp.lockScript.bind fun lockScript => inp.value.bind fun value =>
        some (
            { version := tx.version, hashPrevouts := a, hashSequence := b, outpoint := inp.outpoint,
              scriptCode := lockScript.toScriptCodeFirst, value := value, sequence := inp.sequence,
              hashOutputs := hashOutputs,
              lockTime := tx.lockTime, sigHashType := f } : TxPreimageP)).map TxPreimageP.erase =
      (Y.bind fun hashOutputs => inp.erase.lockScript.bind fun lockScript => inp.erase.value.bind fun value =>
        some (
            { version := tx.erase.version, hashPrevouts := Refines.fixedE a, hashSequence := Refines.fixedE b,
              outpoint := inp.erase.outpoint,
              scriptCode := lockScript.toScriptCodeFirst, value := value, sequence := inp.erase.sequence,
              hashOutputs := hashOutputs,
              lockTime := tx.erase.lockTime, sigHashType := f } : TxPreimage)) := by
    rintro X Y rfl a b
    cases X with
    | none => rfl
    | some h =>
      simp only [Option.map_some, Option.bind_some, PreimageInputP.erase]
      cases inp.lockScript with
      | none => rfl
      | some ls =>
        simp only [Option.map_some, Option.bind_some]
        cases inp.value with
        | none => rfl
        | some v =>
          simp only [Option.bind_some, Option.map_some, TxPreimageP.erase, erase_toScriptCodeFirst]
          rfl
  rw [hout _ _ rfl]
  have e1 : Refines.fixedE (if (!f.contains .ANYONECANPAY) = true then hp else zero32P.named "hashPrevouts") =
      if (!f.contains .ANYONECANPAY) = true then Refines.fixedE hp else Hash256.zero := by split <;> rfl
  have e2 : Refines.fixedE (if (!f.contains .ANYONECANPAY && f &&& SigHashFlags.MASK != .SINGLE &&
        f &&& SigHashFlags.MASK != .NONE) = true then hs else zero32P.named "hashSequence") =
      if (!f.contains .ANYONECANPAY && f &&& SigHashFlags.MASK != .SINGLE &&
        f &&& SigHashFlags.MASK != .NONE) = true then Refines.fixedE hs else Hash256.zero := by split <;> rfl
  rw [e1, e2]
  refine congrArg (Option.bind · _) ?_
  rw [hlen]
  split
  · rfl
  · split
    · have : tx.erase.outputs[idx]? = tx.outputs[idx]?.map TxOutputP.erase := by simp [PreimageTxP.erase]
      rw [this]
      cases tx.outputs[idx]? with
      | none => rfl
      | some o =>
        simp only [Option.bind_some, Option.map_some, ← (Refines.txOutput opName).ser o]
        cases (CodecP.txOutput opName).ser o with
        | none => rfl
        | some b =>
          obtain ⟨h, h1, h2⟩ := digest_ok P .sha256d b
          simp only [Option.bind_some, h1]
          refine congrArg some (Subtype.ext ?_)
          show h.1.data = _
          rw [h2]; rfl
    · rfl

theorem mapM_map {α β γ δ : Type} (f : α → Option β) (g : γ → Option δ) (e : α → γ) (e' : β → δ) (xs : List α)
    (h : ∀ x ∈ xs, (f x).map e' = g (e x)) : (xs.mapM f).map (List.map e') = (xs.map e).mapM g := by
  induction xs with
  | nil => rfl
  | cons x xs ih =>
    rw [List.map_cons, List.mapM_cons, List.mapM_cons, ← h x (by simp), ← ih (fun y hy => h y (by simp [hy]))]
    cases f x with
    | none => rfl
    | some y =>
      cases xs.mapM f with
      | none => rfl
      | some ys => rfl

/-- **C77** (contents): building preimages from arrays with provenance gives, up to provenance, the preimages
of C23 and C24 (or panics when it does). -/
theorem C77_contents (P : HashPrims) (opName : Opcode → String) (tx : PreimageTxP) :
    (buildPreimagesP P opName tx).map (List.map (List.map TxPreimageP.erase)) =
      buildPreimages (sha256d P) tx.erase := by
  unfold buildPreimagesP buildPreimages
  have e1 : (hashAllPrevoutsP P tx).map Refines.fixedE = hashAllPrevouts (sha256d P) tx.erase := by
    unfold hashAllPrevoutsP hashAllPrevouts
    rw [hashNamed_data, serNamed_data Refines.txOutpoint]
    have : (tx.inputs.map (·.outpoint)).map TxOutpointP.erase = tx.erase.inputs.map (·.outpoint) := by
      simp [PreimageTxP.erase, PreimageInputP.erase]
    rw [this]
    cases Codec.txOutpoint.serMany (tx.erase.inputs.map (·.outpoint)) <;> rfl
  have e2 : (hashAllSequencesP P tx).map Refines.fixedE = hashAllSequences (sha256d P) tx.erase := by
    unfold hashAllSequencesP hashAllSequences
    rw [hashNamed_data, serNamed_data Refines.u32]
    have : (tx.inputs.map (·.sequence)).map id = tx.erase.inputs.map (·.sequence) := by
      simp [PreimageTxP.erase, PreimageInputP.erase]
    rw [this]
    cases Codec.u32.serMany (tx.erase.inputs.map (·.sequence)) <;> rfl
  have e3 : (hashAllOutputsP P opName tx).map Refines.fixedE = hashAllOutputs (sha256d P) tx.erase := by
    unfold hashAllOutputsP hashAllOutputs serAllOutputs
    rw [hashNamed_data, serNamed_data (Refines.txOutput opName)]
    have : tx.outputs.map TxOutputP.erase = tx.erase.outputs := rfl
    rw [this]
    cases Codec.txOutput.serMany tx.erase.outputs <;> rfl
  rw [← e1, ← e2, ← e3]
  cases hashAllPrevoutsP P tx with
  | none => rfl
  | some hp =>
    cases hashAllSequencesP P tx with
    | none => rfl
    | some hs =>
      cases hashAllOutputsP P opName tx with
      | none => rfl
      | some ho =>
        simp only [Option.map_some, bind, Option.bind_some]
        have hz : tx.erase.inputs.zipIdx = tx.inputs.zipIdx.map (fun x => (x.1.erase, x.2)) := by
          simp [PreimageTxP.erase, List.zipIdx_map]
        rw [hz]
        refine mapM_map _ _ _ _ _ ?_
        rintro ⟨inp, idx⟩ _
        dsimp only
        have hf : inp.erase.sigHashFlags = inp.sigHashFlags.map id := by simp [PreimageInputP.erase]
        rw [hf]
        refine mapM_map _ _ _ _ _ ?_
        intro f _
        exact buildPreimageP_data P opName tx idx inp f hp hs ho

/-! ### Provenance -/

theorem serNamed_pieces {α : Type} {c : CodecP α} {Ok : α → Prop} {K W} (h : ReadsBack c Ok K W) (label : String)
    (vs : List α) (hv : ∀ v ∈ vs, Ok v) : ∀ idx acc, Whole acc → (∀ n, solid (renamed n acc) = solid acc) →
    ∃ b pss, serNamed c label idx acc vs = some b ∧ Whole b ∧ (∀ n, solid (renamed n b) = solid b) ∧
      List.Forall₂ (fun (v : α × Nat) ps => W (some (label ++ toString v.2)) v.1 ps) (vs.zipIdx idx) pss ∧
      solid b = solid acc ++ pss.flatten := by
  induction vs with
  | nil => intro idx acc h1 h2; exact ⟨acc, [], rfl, h1, h2, .nil, by simp⟩
  | cons v vs ih =>
    intro idx acc h1 h2
    obtain ⟨s, g1, g2, g3⟩ := h v (hv v (by simp))
    have hw := (g3 (some (label ++ toString idx))).1
    have hj := h1.concat (g2.renamed (some (label ++ toString idx))) none
    obtain ⟨b, pss, k1, k2, k3, k4, k5⟩ := ih (fun x hx => hv x (by simp [hx])) (idx + 1) _ hj.whole
      (fun n => by rw [solid_renamed hj n, hj.pieces])
    refine ⟨b, solid (renamed (some (label ++ toString idx)) s) :: pss, ?_, k2, k3, ?_, ?_⟩
    · rw [serNamed, g1]; exact k1
    · rw [List.zipIdx_cons]; exact .cons hw k4
    · rw [k5, hj.pieces, List.flatten_cons, List.append_assoc]

theorem solid_start : Whole (.newUnnamed []) ∧ (∀ n, solid (renamed n (.newUnnamed [])) = solid (.newUnnamed [])) ∧
    solid (.newUnnamed []) = [] := by
  refine ⟨.leaf _ _, ?_, rfl⟩
  intro n; cases n <;> rfl

theorem hashNamed_spec {α : Type} {c : CodecP α} {Ok : α → Prop} {K W} (h : ReadsBack c Ok K W) (P : HashPrims)
    (label arg name : String) (vs : List α) (hv : ∀ v ∈ vs, Ok v) :
    ∃ (x : FixedP 32) (a : ByteArray) (pss : List (List ByteArray)),
      hashNamed P (serNamed c label 0 (.newUnnamed []) vs) arg name = some x ∧
      IsHashOf x (some name) a ∧ a.name = some arg ∧
      List.Forall₂ (fun (v : α × Nat) ps => W (some (label ++ toString v.2)) v.1 ps) vs.zipIdx pss ∧
      filled a = pss.flatten := by
  obtain ⟨b, pss, k1, k2, k3, k4, k5⟩ := serNamed_pieces h label vs hv 0 _ solid_start.1 solid_start.2.1
  obtain ⟨x, h1, h2⟩ := digest_ok P .sha256d (b.named arg)
  refine ⟨x.named name, b.named arg, pss, ?_, ⟨?_, ?_, ?_⟩, ?_, k4, ?_⟩
  · unfold hashNamed; rw [k1]; simp only [Option.bind_some, h1]
  · show (x.1.named name).name = _; rw [h2]; rfl
  · show (x.1.named name).function = _; rw [h2]; rfl
  · show (x.1.named name).preimage = _; rw [h2]; rfl
  · obtain ⟨d, n, f, p⟩ := b; rfl
  · have := k3 (some arg)
    rw [k5, solid_start.2.2, List.nil_append] at this
    exact this

theorem forall2_eq_map {α β : Type} (f : α → β) {xs : List α} {ys : List β}
    (h : List.Forall₂ (fun x y => y = f x) xs ys) : ys = xs.map f := by
  induction h with
  | nil => rfl
  | cons h _ ih => rw [h, ih]; rfl

theorem forall2_zipIdx {α β : Type} {R : α → β → Prop} {xs : List α} : ∀ {n : Nat} {ys : List β},
    List.Forall₂ (fun (x : α × Nat) y => R x.1 y) (xs.zipIdx n) ys → List.Forall₂ R xs ys := by
  induction xs with
  | nil => intro n ys h; cases h; exact .nil
  | cons x xs ih =>
    intro n ys h
    rw [List.zipIdx_cons] at h
    cases h with
    | cons h1 h2 => exact .cons h1 (ih h2)

theorem toScriptCodeFirst_suffix (s : ScriptP) : s.toScriptCodeFirst <:+ s := by
  unfold ScriptP.toScriptCodeFirst
  split
  · exact List.drop_suffix _ _
  · exact List.suffix_rfl

/-- **C77** (entry point): the preimages of an existing transaction are built from it, whatever the provenance of
its parts, with C23. -/
theorem C77_transaction (P : HashPrims) (opName : Opcode → String) (t : UnhashedTxP) (flags : List SigHashFlags) :
    (buildPreimagesP P opName (t.toPreimageTx flags)).map (List.map (List.map TxPreimageP.erase)) =
      buildPreimages (sha256d P) (t.erase.toPreimageTx flags) := by
  rw [C77_contents]
  refine congrArg _ ?_
  simp only [UnhashedTxP.toPreimageTx, PreimageTxP.erase, UnhashedTx.toPreimageTx, UnhashedTxP.erase, List.map_map]
  rfl

/-- **C77** (provenance): in every preimage the hashes are recorded as hashes of the serialised outpoints,
sequence numbers and outputs (all, or only the one of the input), or as zero bytes, as the flags say, with
the names and provenance of everything in them; the outpoint and script code are those of the input. -/
theorem C77_explains (P : HashPrims) (opName : Opcode → String) (t : PreimageTxP)
    (hi : ∀ i ∈ t.inputs, OutpointOk i.outpoint) (ho : ∀ o ∈ t.outputs, ScriptOk o.script)
    (pss : List (List TxPreimageP)) (h : buildPreimagesP P opName t = some pss)
    (idx k : Nat) (inp : PreimageInputP) (f : SigHashFlags) (hin : t.inputs[idx]? = some inp)
    (hf : inp.sigHashFlags[k]? = some f) :
    ∃ ps p, pss[idx]? = some ps ∧ ps[k]? = some p ∧ Explains opName t idx f.toNat p := by
  obtain ⟨hp, a1, pss1, e1, e1', n1, u1, w1⟩ := hashNamed_spec readsBack_outpoint P "outpoint_" "prevouts"
    "hashPrevouts" (t.inputs.map (·.outpoint)) (by simpa using hi)
  obtain ⟨hs, a2, pss2, e2, e2', n2, u2, w2⟩ := hashNamed_spec readsBack_u32 P "sequence_" "sequences"
    "hashSequence" (t.inputs.map (·.sequence)) (by simp)
  obtain ⟨hO, a3, pss3, e3, e3', n3, u3, w3⟩ := hashNamed_spec (readsBack_output opName) P "output_" "outputs"
    "hashOutputs" t.outputs ho
  have f1 : filled a1 = (t.inputs.map fun i => outpointPieces i.outpoint).flatten := by
    rw [w1]
    have := forall2_eq_map outpointPieces (forall2_zipIdx (R := fun o ps => ps = outpointPieces o) u1)
    rw [this, List.map_map]; rfl
  have f2 : filled a2 = t.inputs.zipIdx.map fun i =>
      .new ("sequence_" ++ toString i.2) (leBytes 4 i.1.sequence.toNat) := by
    rw [w2]
    have := forall2_eq_map (fun v : UInt32 × Nat =>
      [ByteArray.mk (leBytes 4 v.1.toNat) (some ("sequence_" ++ toString v.2)) .plain none]) u2
    rw [this, List.zipIdx_map, List.map_map, ← List.flatMap_def]
    have : ∀ l : List (PreimageInputP × Nat), List.flatMap ((fun v : UInt32 × Nat =>
        [ByteArray.mk (leBytes 4 v.1.toNat) (some ("sequence_" ++ toString v.2)) .plain none]) ∘
        Prod.map (fun i : PreimageInputP => i.sequence) id) l = l.map fun i =>
      .new ("sequence_" ++ toString i.2) (leBytes 4 i.1.sequence.toNat) := by
      intro l; induction l with
      | nil => rfl
      | cons x l ih => rw [List.flatMap_cons, ih]; rfl
    exact this _
  have f3 := forall2_zipIdx (R := fun o ps => OutputPieces opName o ps) u3
  unfold buildPreimagesP hashAllPrevoutsP hashAllSequencesP hashAllOutputsP at h
  rw [e1, e2, e3] at h
  simp only [bind, Option.bind_some] at h
  obtain ⟨_, hm⟩ := mapM_some h
  obtain ⟨ps, g1, g2⟩ := hm idx (inp, idx) (by simp [List.getElem?_zipIdx, hin])
  obtain ⟨p, g3, g4⟩ := (mapM_some g2).2 k f hf
  refine ⟨ps, p, g1, g3, ?_⟩
  unfold buildPreimageP at g4
  dsimp only at g4
  obtain ⟨x, hx, g4⟩ := Option.bind_eq_some_iff.mp g4
  obtain ⟨lock, hlock, g4⟩ := Option.bind_eq_some_iff.mp g4
  obtain ⟨v, hval, g4⟩ := Option.bind_eq_some_iff.mp g4
  simp only [Option.some.injEq] at g4
  have hacp := contains_acp f
  have hsing := mask_single f
  have hnone := mask_none f
  subst g4
  simp only [bne, hacp, hsing, hnone] at hx ⊢
  refine ⟨⟨inp, hin, rfl⟩, ⟨inp, lock, hin, hlock, toScriptCodeFirst_suffix _⟩, ?_, ?_, ?_⟩
  · dsimp only
    cases anyoneCanPay f.toNat with
    | true => simp only [if_true, Bool.not_true, Bool.false_eq_true, if_false]; rfl
    | false =>
      simp only [Bool.not_false, Bool.false_eq_true, if_false, if_true]
      exact ⟨a1, e1', n1, f1⟩
  · dsimp only
    cases anyoneCanPay f.toNat with
    | true => simp only [true_or, if_true, Bool.not_true, Bool.false_eq_true, Bool.false_and, if_false]; rfl
    | false =>
      by_cases c3 : baseType f.toNat = 3
      · simp only [c3, or_true, if_true, decide_true, Bool.not_true, Bool.and_false, Bool.false_and,
          Bool.false_eq_true, if_false]; rfl
      · by_cases c2 : baseType f.toNat = 2
        · simp only [c2, true_or, or_true, if_true, decide_true, Bool.not_true, Bool.and_false, 
            Bool.false_eq_true, if_false]; rfl
        · simp only [c2, c3, or_false, Bool.false_eq_true, if_false, decide_false, Bool.not_false, Bool.and_self,
            if_true]
          exact ⟨a2, e2', n2, f2⟩
  · dsimp only
    by_cases c2 : baseType f.toNat = 2
    · simp only [c2, decide_true, Bool.not_true, Bool.and_false, Bool.false_eq_true, if_false,
        show ¬ (2 = 3) by decide, decide_false, Bool.false_and, if_true, Option.some.injEq] at hx ⊢
      rw [← hx]; rfl
    · by_cases c3 : baseType f.toNat = 3
      · simp only [c3, decide_true, Bool.not_true, Bool.false_and, Bool.false_eq_true, if_false, Bool.true_and,
          show ¬ (3 = 2) by decide, if_true] at hx ⊢
        cases hO : t.outputs[idx]? with
        | none =>
          have : ¬ idx < t.outputs.length := by
            rw [List.getElem?_eq_none_iff] at hO; omega
          simp only [this, decide_false, Bool.false_eq_true, if_false, Option.some.injEq] at hx
          simp only
          rw [← hx]; rfl
        | some o =>
          have hlt : idx < t.outputs.length := by
            obtain ⟨h1, _⟩ := List.getElem?_eq_some_iff.mp hO; exact h1
          have hmem : o ∈ t.outputs := List.mem_of_getElem? hO
          obtain ⟨s, r1, r2, r3⟩ := readsBack_output opName o (ho o hmem)
          obtain ⟨d, d1, d2⟩ := digest_ok P .sha256d s
          simp only [hlt, decide_true, if_true, hO, Option.bind_some, r1, d1] at hx
          have hx' : d = x := Option.some.inj hx
          simp only
          refine ⟨s, ⟨?_, ?_, ?_⟩, (r3 none).1⟩
          · rw [← hx', d2]; rfl
          · rw [← hx', d2]; rfl
          · rw [← hx', d2]; rfl
      · simp only [c2, c3, decide_false, Bool.not_false, Bool.and_self, if_true, Option.some.injEq, if_false] at hx ⊢
        rw [← hx]
        exact ⟨a3, pss3, e3', n3, f3, w3⟩

/-- **C77** (serialised preimages): the pieces of a serialised preimage are those of its fields in order, the
hashes with their provenance under the names of the fields. -/
theorem C77_written (opName : Opcode → String) (p : TxPreimageP)
    (h1 : Whole p.hashPrevouts.1) (h2 : Whole p.hashSequence.1) (h3 : Whole p.hashOutputs.1)
    (h4 : OutpointOk p.outpoint) (h5 : ScriptOk p.scriptCode) :
    ∃ s, (CodecP.txPreimage opName).ser p = some s ∧ PreimagePieces opName p (filled s) := by
  have h := readsBack_imap (readsBack_struct (readsBack_field "version" readsBack_i32
    (readsBack_field "hash_prevouts" (readsBack_fixed 32) (readsBack_field "hash_sequence" (readsBack_fixed 32)
    (readsBack_field "outpoint" readsBack_outpoint (readsBack_field "script_code" (readsBack_script opName)
    (readsBack_field "value" readsBack_u64 (readsBack_field "sequence" readsBack_u32
    (readsBack_field "hash_outputs" (readsBack_fixed 32) (readsBack_field "lock_time" readsBack_u32
    (readsBack_field "sig_hash_type" readsBack_u32 readsBack_nil)))))))))))
    (fun (a, b, c, d, e, f, g, h, i, j, _) => (⟨a, b, c, d, e, f, g, h, i, j⟩ : TxPreimageP))
    (fun p => (p.version, p.hashPrevouts, p.hashSequence, p.outpoint, p.scriptCode, p.value,
      p.sequence, p.hashOutputs, p.lockTime, p.sigHashType, ()))
  obtain ⟨s, g1, _, g3⟩ := h p ⟨trivial, h1, h2, h4, h5, trivial, trivial, h3, trivial, trivial, trivial⟩
  refine ⟨s, g1, ?_⟩
  obtain ⟨_, _, rfl, ⟨_, _, rfl, ⟨_, _, rfl, ⟨_, _, rfl, ⟨ss, _, hss, ⟨_, _, rfl, ⟨_, _, rfl, ⟨_, _, rfl, ⟨_, _, rfl,
    ⟨_, _, rfl, rfl, rfl⟩, rfl⟩, rfl⟩, rfl⟩, rfl⟩, rfl⟩, rfl⟩, rfl⟩, rfl⟩, h7⟩ := (g3 none).1
  refine ⟨ss, hss, ?_⟩
  refine (show filled s = solid (renamed none s) from rfl).trans (h7.trans ?_)
  simp only [List.append_assoc, List.cons_append, List.nil_append, List.append_nil]
  rfl

/-- Non-vacuity: one input spending an output of a recorded transaction, one output; signing all. -/
example : ∃ (P : HashPrims) (t : PreimageTxP) (p : TxPreimageP) (s : ByteArray),
    (∀ i ∈ t.inputs, OutpointOk i.outpoint) ∧ t.outputs.length = 1 ∧
    buildPreimagesP P (fun _ => "op") t = some [[p]] ∧ p.hashPrevouts.1.function = .hash256 ∧
    (p.hashPrevouts.1.preimage.map fun ps => ps.map fun a => (filled a).map fun x => (x.name, x.function)) =
      some [[(some "tx_hash", .hash256), (some "vout", .plain)]] ∧
    (CodecP.txPreimage (fun _ => "op")).ser p = some s ∧
    (filled s).map (fun x => (x.name, x.function)) = [(some "version", .plain), (some "hash_prevouts", .hash256),
      (some "hash_sequence", .hash256), (some "tx_hash", .hash256), (some "vout", .plain), (some "size", .plain),
      (some "op", .plain), (some "value", .plain), (some "sequence", .plain), (some "hash_outputs", .hash256),
      (some "lock_time", .plain), (some "sig_hash_type", .plain)] := by
  refine ⟨⟨fun _ => ⟨List.replicate 20 4, rfl⟩, fun _ => ⟨List.replicate 20 5, rfl⟩,
    fun _ => ⟨List.replicate 32 6, rfl⟩⟩,
    ⟨2, [⟨⟨⟨(ByteArray.new "tx" [1]).applyFunction (List.replicate 32 7) .hash256, rfl⟩, 1⟩, 5, [0x41],
      some [.code .OP_DUP], some 9⟩], [⟨7, [.code .OP_DUP]⟩], 0⟩, _, _, ?_, rfl, rfl, rfl, rfl, rfl, rfl⟩
  intro i hi
  simp only [List.mem_cons, List.not_mem_nil, or_false] at hi
  subst hi
  exact .other _ _ _ _ (by decide)

end BCash
