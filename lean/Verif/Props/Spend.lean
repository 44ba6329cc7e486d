import Verif.Props.Signing
import Verif.Props.Exec
import Verif.Spec.Spend

/-! # C63: a built, signed and completed transaction may spend its inputs -/

namespace BCash
variable {Dyn : Type}
open TxBuilder Spec

/-! ## Specification -/

/-- Spec: `b` was obtained from a builder whose call of `add_input` with these arguments returned
`idx`. -/
def Spec.InputAdded (b : TxBuilder Dyn) (idx : Nat) (input : UnsignedTxInput) (lock : Script)
    (s : Signatory Dyn) : Prop :=
  ∃ b0 : TxBuilder Dyn, (b0.addInput input lock s).2 = idx ∧
    (b0.addInput input lock s).1.inputs <+: b.inputs

/-- Spec: building (in either way), performing signing calls and completing. -/
structure Spec.Completed (sz : Layout) (H : Bytes → Hash256) (b : TxBuilder Dyn)
    (u : UnsignedTx Dyn) (cs : List (SignCall Dyn)) (tx : UnhashedTx) : Prop where
  reach : b.Reach
  built : b.build sz H = .ok u ∨ b.buildWithoutEstimation sz H = .ok u
  done : ∃ u', signAll u cs = some u' ∧ u'.completeTx = some tx
  /-- Output scripts have lengths a program can have. -/
  outputs : ∀ o ∈ u.outputs, o.script.Serialisable

/-- Spec: the operations a signatory returns for the given preimages. -/
def Spec.signatoryOps (s : Signatory Dyn) (preimages : List TxPreimage) (estimatedSize : Nat)
    (sigs : s.Sigs) (lock : Script) (outputs : List TxOutput) : Option Script :=
  match s.kind with
  | .one _ build => preimages.head?.bind fun p => build p (some estimatedSize) sigs lock outputs
  | .multiple _ build => build preimages (some estimatedSize) sigs lock outputs

/-! ## Code separators -/

namespace SpendProofs

theorem runFrom_noSep (envOf : Bytes → Vm.Env) (env : Vm.Env) (ts : List Token) (exec : List Bool)
    (s : Vm.State) (h : ∀ t ∈ ts, t ≠ .op 0xab) :
    Vm.runFrom envOf env ts exec s = Vm.run env ts exec s := by
  induction ts generalizing exec s with
  | nil => rfl
  | cons t ts ih =>
    have ih := fun exec s => ih exec s (fun t ht => h t (by simp [ht]))
    cases t with
    | push f d =>
      rw [Vm.runFrom.eq_def, Vm.run.eq_def]
      dsimp only
      rw [ih, ih]
    | op b =>
      have hb : b ≠ 0xab := fun hc => h (.op b) (by simp) (by rw [hc])
      rw [Vm.runFrom.eq_def, Vm.run.eq_def]
      dsimp only
      simp only [ih, if_neg hb]
      rcases s with ⟨_ | ⟨c, st⟩, alt⟩ <;> rcases exec with _ | ⟨e, es⟩ <;> rfl

theorem runsFrom_of_runs {envOf : Bytes → Vm.Env} {script : Bytes} {s : Vm.State}
    {r : Option Vm.State} {ts : List Token} (hv : ∀ t ∈ ts, t.Valid) (he : script = encodeTokens ts)
    (hn : ∀ t ∈ ts, t ≠ .op 0xab) (h : Vm.run (envOf script) ts [] s = r) :
    Vm.RunsFrom envOf script s r :=
  ⟨ts, hv, he, by rw [runFrom_noSep _ _ _ _ _ hn]; exact h⟩

theorem runsFrom_unique {envOf : Bytes → Vm.Env} {script : Bytes} {s : Vm.State}
    {r r' : Option Vm.State} (h : Vm.RunsFrom envOf script s r) (h' : Vm.RunsFrom envOf script s r') :
    r = r' := by
  obtain ⟨ts, hv, e, rfl⟩ := h
  obtain ⟨ts', hv', e', rfl⟩ := h'
  rw [ExecProofs.tokens_unique ts ts' hv hv' (by rw [← e, ← e'])]

theorem pushes_unique {script : Bytes} {items items' : List Bytes} (h : Vm.Pushes script items)
    (h' : Vm.Pushes script items') : items = items' := by
  obtain ⟨ts, hv, e, hi⟩ := h
  obtain ⟨ts', hv', e', hi'⟩ := h'
  have := ExecProofs.tokens_unique ts ts' (fun t h => (hv t h).1) (fun t h => (hv' t h).1)
    (by rw [← e, ← e'])
  subst this
  rw [hi] at hi'
  exact List.map_injective_iff.mpr (fun a b h => Option.some.inj h) hi'

/-! ## The completed transaction and the preimages handed out -/

theorem reach_signAll {u u' : UnsignedTx Dyn} {cs : List (SignCall Dyn)} (hu : u.Reach)
    (hs : signAll u cs = some u') : u'.Reach := by
  induction cs generalizing u with
  | nil => cases hs; exact hu
  | cons c cs ih =>
    obtain ⟨⟨u1, r⟩, h1, h2⟩ := Option.bind_eq_some_iff.mp hs
    exact ih (.sign c hu h1) h2

theorem built {sz : Layout} {H : Bytes → Hash256} {b : TxBuilder Dyn} {u : UnsignedTx Dyn}
    (h : b.build sz H = .ok u ∨ b.buildWithoutEstimation sz H = .ok u) :
    u.builder = b ∧ u.inputs = b.prefilled ∧
      buildPreimages H (b.toPreimageTx u.outputs) = some u.txPreimages := by
  rcases h with h | h
  · obtain ⟨known, inputs, st, pre, hk, hin, hle, hloop, inv, hest, hpre, hu⟩ := build_ok h
    rw [hu]
    exact ⟨rfl, rfl, hpre⟩
  · obtain ⟨pre, _, _, hpre, hu⟩ := without_ok h
    rw [hu]
    exact ⟨rfl, rfl, hpre⟩

theorem completed_wire {sz : Layout} {H : Bytes → Hash256} {b : TxBuilder Dyn} {u : UnsignedTx Dyn}
    {cs : List (SignCall Dyn)} {tx : UnhashedTx} (h : Spec.Completed sz H b u cs tx) :
    tx.version = b.version ∧ tx.lockTime = b.lockTime ∧ tx.outputs = u.outputs ∧
    tx.inputs.map (·.prevOut) = b.inputs.map (·.input.prevOut) ∧
    tx.inputs.map (·.sequence) = b.inputs.map (·.input.sequence) := by
  obtain ⟨u', hs, hc⟩ := h.done
  have hu : u.Reach := h.built.elim (.build h.reach) (.without h.reach)
  obtain ⟨h1, h2, h3, h4, h5, h6⟩ := (C40_complete u' (reach_signAll hu hs)).2 tx hc
  obtain ⟨g1, g2, _, _⟩ := signAll_same hs
  rw [g1, (built h.built).1] at h1 h2 h5 h6
  rw [g2] at h3
  exact ⟨h1, h2, h3, h5, h6⟩

/-- Preimages do not depend on unlocking scripts. -/
theorem sighash_congr (G : Bytes → Bytes) (t t' : WireTx) (idx : Nat) (i i' : WireInput) (value : Nat)
    (code : Bytes) (f : Nat) (hv : t.version = t'.version) (hl : t.lockTime = t'.lockTime)
    (ho : t.outputs = t'.outputs)
    (hp : t.inputs.map (fun i => (i.txid, i.vout)) = t'.inputs.map (fun i => (i.txid, i.vout)))
    (hq : t.inputs.map (·.sequence) = t'.inputs.map (·.sequence))
    (hi : i.txid = i'.txid ∧ i.vout = i'.vout ∧ i.sequence = i'.sequence) :
    sighashPreimage G t idx i value code f = sighashPreimage G t' idx i' value code f := by
  have e1 : (t.inputs.map fun i => i.txid ++ leBytes 4 i.vout) =
      t'.inputs.map fun i => i.txid ++ leBytes 4 i.vout := by
    have := congrArg (List.map fun (p : Bytes × Nat) => p.1 ++ leBytes 4 p.2) hp
    simpa [List.map_map, Function.comp_def] using this
  have e2 : (t.inputs.map fun i => leBytes 4 i.sequence) =
      t'.inputs.map fun i => leBytes 4 i.sequence := by
    have := congrArg (List.map (leBytes 4)) hq
    simpa [List.map_map, Function.comp_def] using this
  simp only [sighashPreimage, hv, hl, hi.1, hi.2.1, hi.2.2, Spec.hashPrevouts, Spec.hashSequence,
    Spec.hashOutputs, e1, e2, ho]

theorem completed_input {sz : Layout} {H : Bytes → Hash256} {b : TxBuilder Dyn} {u : UnsignedTx Dyn}
    {cs : List (SignCall Dyn)} {tx : UnhashedTx} (h : Spec.Completed sz H b u cs tx) {idx : Nat}
    {bi : TxBuilderInput Dyn} (hbi : b.inputs[idx]? = some bi) :
    ∃ t, tx.inputs[idx]? = some t ∧ t.prevOut = bi.input.prevOut ∧ t.sequence = bi.input.sequence := by
  obtain ⟨_, _, _, h1, h2⟩ := completed_wire h
  have e1 := congrArg (·[idx]?) h1
  have e2 := congrArg (·[idx]?) h2
  simp only [List.getElem?_map, hbi, Option.map_some] at e1 e2
  obtain ⟨t, ht, e1⟩ := Option.map_eq_some_iff.mp e1
  rw [ht] at e2
  exact ⟨t, ht, e1, Option.some.inj e2⟩

end SpendProofs
open SpendProofs

/-- **C63** (other script codes): the preimage handed out can be used for any part of the script: with another
script code put into it, it is what signatures are checked against when that code is in force. However
inputs are signed, a signature followed by the flag byte is then accepted exactly if it verifies for the
hash of the serialised preimage with that code. -/
theorem C63_other_script_codes (c : Crypto) (sz : Layout) (H : Bytes → Hash256)
    (hH : ∀ x, (H x).1 = c.hash256 x) (b : TxBuilder Dyn) (u : UnsignedTx Dyn)
    (cs : List (SignCall Dyn)) (tx : UnhashedTx) (h : Completed sz H b u cs tx) (idx k : Nat)
    (bi : TxBuilderInput Dyn) (f : SigHashFlags) (hbi : b.inputs[idx]? = some bi)
    (hf : bi.sigHashFlags[k]? = some f) (hf8 : f.toNat < 256) :
    ∃ p i, preimageAt u.txPreimages idx k = some p ∧
      IsScriptCode (bi.lockScript.getD []) p.scriptCode ∧ tx.wire.inputs[idx]? = some i ∧
      ∀ code : Script, code.Serialisable →
        ∃ bytes, Codec.txPreimage.ser { p with scriptCode := code } = some bytes ∧
          ∀ sig pubkey,
            checkTxSig c tx.wire idx i bi.input.value.toNat (scriptBytes code)
              (sig ++ [f.toUInt8]) pubkey = some true ↔
            f.toNat / 64 % 2 = 1 ∧ c.verify pubkey (c.hash256 bytes) sig = true := by
  obtain ⟨_, _, hpre⟩ := built h.built
  obtain ⟨ps, hps, _, hall⟩ := C23_preimage_spec H (b.toPreimageTx u.outputs) h.outputs (by
    intro i hi
    simp only [toPreimageTx, List.mem_map] at hi
    obtain ⟨x, _, rfl⟩ := hi
    exact ⟨by simp, by simp⟩)
  rw [hpre] at hps
  cases hps
  obtain ⟨p, hp1, hp2, hp3⟩ := (hall idx ⟨bi.input.prevOut, bi.input.sequence, bi.sigHashFlags,
    some (bi.lockScript.getD []), some bi.input.value⟩ (by simp [toPreimageTx, hbi])).2 k f
    (bi.lockScript.getD []) bi.input.value hf rfl rfl
  obtain ⟨t, ht, ht1, ht2⟩ := completed_input h hbi
  obtain ⟨w1, w2, w3, w4, w5⟩ := completed_wire h
  refine ⟨p, t.wire, hp1, hp2, by simp [UnhashedTx.wire, ht], fun code hcode => ?_⟩
  refine ⟨_, C14_preimage_wire_format { p with scriptCode := code } hcode, ?_⟩
  intro sig pubkey
  have hfl : f.toUInt8.toNat = f.toNat := by
    rw [UInt32.toNat_toUInt8]; omega
  have hw : p.wire = sighashPreimage c.hash256 tx.wire idx t.wire bi.input.value.toNat
      (scriptBytes p.scriptCode) f.toNat := by
    rw [hp3, show (fun b => (H b).1) = c.hash256 from funext hH]
    refine sighash_congr _ _ _ _ _ _ _ _ _ ?_ ?_ ?_ ?_ ?_ ?_
    · simp only [PreimageTx.wire, toPreimageTx, UnhashedTx.wire, w1]
    · simp only [PreimageTx.wire, toPreimageTx, UnhashedTx.wire, w2]
    · simp only [PreimageTx.wire, toPreimageTx, UnhashedTx.wire, w3]
    · have := congrArg (List.map fun (o : TxOutpoint) => (o.txHash.1, o.vout.toNat)) w4
      simp only [List.map_map, Function.comp_def] at this
      simp only [PreimageTx.wire, toPreimageTx, UnhashedTx.wire, List.map_map, Function.comp_def,
        PreimageInput.wire, TxInput.wire, this]
    · have := congrArg (List.map UInt32.toNat) w5
      simp only [List.map_map, Function.comp_def] at this
      simp only [PreimageTx.wire, toPreimageTx, UnhashedTx.wire, List.map_map, Function.comp_def,
        PreimageInput.wire, TxInput.wire, this]
    · simp only [PreimageInput.wire, TxInput.wire, ht1, ht2, and_self]
  have hw' : TxPreimage.wire { p with scriptCode := code } = sighashPreimage c.hash256 tx.wire idx t.wire
      bi.input.value.toNat (scriptBytes code) f.toNat := by
    have e1 : TxPreimage.wire { p with scriptCode := code } = { p.wire with scriptCode := scriptBytes code } := rfl
    rw [e1, hw]
    rfl
  rw [hw']
  unfold checkTxSig
  rw [List.getLast?_append, List.getLast?_singleton, Option.some_or]
  simp only [hfl, List.dropLast_concat]
  split
  · next hc => simp only [true_iff]; exact hc
  · next hc => simp only [reduceCtorEq, false_iff]; exact hc

/-- **C63** (signatures): the preimages handed out for signing are the ones the completed transaction
is checked against. However inputs are signed, for every input and each of its flag sets (with fork
id), a signature followed by the flag byte is accepted in the completed transaction for the script code
of the preimage exactly if it verifies for the hash of the serialised preimage. -/
theorem C63_preimages_are_checked (c : Crypto) (sz : Layout) (H : Bytes → Hash256)
    (hH : ∀ x, (H x).1 = c.hash256 x) (b : TxBuilder Dyn) (u : UnsignedTx Dyn)
    (cs : List (SignCall Dyn)) (tx : UnhashedTx) (h : Completed sz H b u cs tx) (idx k : Nat)
    (bi : TxBuilderInput Dyn) (f : SigHashFlags) (hbi : b.inputs[idx]? = some bi)
    (hf : bi.sigHashFlags[k]? = some f) (hf8 : f.toNat < 256)
    (hser : ∀ code, IsScriptCode (bi.lockScript.getD []) code → code.Serialisable) :
    ∃ p bytes i, preimageAt u.txPreimages idx k = some p ∧ Codec.txPreimage.ser p = some bytes ∧
      IsScriptCode (bi.lockScript.getD []) p.scriptCode ∧ tx.wire.inputs[idx]? = some i ∧
      ∀ sig pubkey,
        checkTxSig c tx.wire idx i bi.input.value.toNat (scriptBytes p.scriptCode)
          (sig ++ [f.toUInt8]) pubkey = some true ↔
        f.toNat / 64 % 2 = 1 ∧ c.verify pubkey (c.hash256 bytes) sig = true := by
  obtain ⟨p, i, h1, h2, h3, h4⟩ := C63_other_script_codes c sz H hH b u cs tx h idx k bi f hbi hf hf8
  obtain ⟨bytes, h5, h6⟩ := h4 p.scriptCode (hser _ h2)
  exact ⟨p, bytes, i, h1, h5, h2, h3, h6⟩


namespace SpendProofs

/-! ## Unlocking scripts -/

/-- An operation that pushes an item in the minimal form. -/
def MinimalPushOp (op : Op Bytes) : Prop :=
  op.WellFormed ∧ ∀ d, op ≠ .pushByteArray d false

theorem minimal_token (op : Op Bytes) (d : Bytes) (hw : MinimalPushOp op) (hd : Vm.item op = some d) :
    ∃ t : Token, t.Valid ∧ t.Minimal ∧ serializeOp op = .ok t.encode ∧ t.stackItem = some d := by
  cases op with
  | code c => cases hd
  | invalid b => cases hd
  | pushByteArray a m =>
    cases m with
    | false => exact absurd rfl (hw.2 a)
    | true =>
      simp only [Vm.item, Option.some.injEq] at hd
      subst hd
      exact ⟨pushToken a true, pushToken_valid a true hw.1, (stackItem_pushToken_min a).2,
        serializePushBytes_token a true hw.1, (stackItem_pushToken_min a).1⟩
  | pushBoolean b =>
    cases hd
    cases b
    · exact ⟨.op 0, .inl rfl, trivial, rfl, rfl⟩
    · exact ⟨.op 0x51, .inr (by decide), trivial, rfl, rfl⟩
  | pushInteger i =>
    cases hd
    have hw := hw.1
    have hl : (Vm.numBytes i).length < 2 ^ 32 := by
      have := NumProofs.numBytes_length_le4 i ⟨by simp only [Op.WellFormed, InScriptRange] at hw; omega,
        by simp only [Op.WellFormed, InScriptRange] at hw; omega⟩
      omega
    refine ⟨pushToken (Vm.numBytes i) true, pushToken_valid _ _ hl, (stackItem_pushToken_min _).2, ?_,
      (stackItem_pushToken_min _).1⟩
    rw [ExecProofs.serializeOp_pushInteger i hw]
    exact serializePushBytes_token _ _ hl

theorem pushes_of_ops (ops : List (Op Bytes)) (items : List Bytes) (hw : ∀ op ∈ ops, MinimalPushOp op)
    (hi : ops.map Vm.item = items.map some) :
    ∃ bs, serializeOps ops = .ok bs ∧ Vm.Pushes bs items := by
  suffices h : ∃ ts : List Token, (∀ t ∈ ts, t.Valid ∧ t.Minimal) ∧
      serializeOps ops = .ok (encodeTokens ts) ∧ ts.map Token.stackItem = items.map some by
    obtain ⟨ts, h1, h2, h3⟩ := h
    exact ⟨_, h2, ts, h1, rfl, h3⟩
  induction ops generalizing items with
  | nil =>
    cases items with
    | nil => exact ⟨[], by simp, rfl, rfl⟩
    | cons x xs => simp at hi
  | cons op ops ih =>
    cases items with
    | nil => simp at hi
    | cons x xs =>
      simp only [List.map_cons, List.cons.injEq] at hi
      obtain ⟨t, ht1, ht4, ht2, ht3⟩ := minimal_token op x (hw op (by simp)) hi.1
      obtain ⟨ts, h1, h2, h3⟩ := ih xs (fun o h => hw o (by simp [h])) hi.2
      refine ⟨t :: ts, by simpa using ⟨⟨ht1, ht4⟩, h1⟩, ?_, ?_⟩
      · simp [serializeOps, ht2, h2, encodeTokens]
      · simp [ht3, h3]

/-! ## The input signed by a call -/

theorem added_get {b : TxBuilder Dyn} {idx : Nat} {input : UnsignedTxInput} {lock : Script}
    {s : Signatory Dyn} (h : Spec.InputAdded b idx input lock s) :
    b.inputs[idx]? = some ⟨input, s.funcScript, s.sigHashFlagsVec, some lock, some s.isP2sh, none⟩ := by
  obtain ⟨b0, rfl, ⟨rest, hr⟩⟩ := h
  rw [← hr]
  simp [addInput]

theorem unlockScript_eq (s : Signatory Dyn) (ps : List TxPreimage) (n : Nat) (sigs : s.Sigs)
    (lock : Script) (outs : List TxOutput) :
    s.unlockScript ps (some n) sigs lock outs =
      (Spec.signatoryOps s ps n sigs lock outs).bind fun ops =>
        if s.isP2sh then lock.serOps.bind fun bytes => some (ops ++ [.pushByteArray bytes true])
        else some ops := by
  rcases s with ⟨_, _, kind, _, _⟩
  cases kind <;> rfl

/-- The unlocking script of an input added with a signatory and signed by calls that all compute the
same script. -/
theorem completed_script {sz : Layout} {H : Bytes → Hash256} {b : TxBuilder Dyn} {u : UnsignedTx Dyn}
    {cs : List (SignCall Dyn)} {tx : UnhashedTx} (h : Spec.Completed sz H b u cs tx) {idx : Nat}
    {input : UnsignedTxInput} {lock : Script} {s : Signatory Dyn} (ha : Spec.InputAdded b idx input lock s)
    {sigs : s.Sigs}
    (hcs : ∀ call ∈ cs, call.idx = idx → call = .signatory idx s sigs ∨
      ∃ d, call = .dyn idx d ∧ s.downcast d = some sigs) :
    ∃ t ps, tx.inputs[idx]? = some t ∧ u.txPreimages[idx]? = some ps ∧
      s.unlockScript ps (some u.estimatedSize) sigs lock u.outputs = some t.script := by
  obtain ⟨u', hs, hc⟩ := h.done
  have hg := added_get ha
  obtain ⟨g1, g2, g3⟩ := built h.built
  obtain ⟨t, ht, _, _⟩ := completed_input h hg
  have hun : u.inputs[idx]? = some none := by
    rw [g2]; simp [prefilled, hg]
  have hu : u.Reach := h.built.elim (.build h.reach) (.without h.reach)
  obtain ⟨_, _, _, h4, _, _⟩ := (C40_complete u' (reach_signAll hu hs)).2 tx hc
  have ht' : u'.inputs[idx]? = some (some t) := by rw [← h4]; simp [ht]
  obtain ⟨call, hm, hci, bi, ps, script, e1, e2, e3, e4⟩ := C39_signed_by_call u u' cs idx t hun hs ht'
  rw [g1, hg] at e1
  cases e1
  refine ⟨t, ps, ht, e2, ?_⟩
  rw [e4]
  refine Eq.trans ?_ e3
  rcases hcs call hm hci with rfl | ⟨d, rfl, hd⟩
  · rfl
  · simp only [SignCall.script, g1, hg, Option.bind_some, Signatory.funcScript, hd]
    rfl

theorem hash_token (h : Hash160) :
    serializeOp (.pushByteArray h.1 true) = .ok (Token.push .direct h.1).encode ∧
      (Token.push .direct h.1).Valid ∧ (Token.push .direct h.1).encode = 20 :: h.1 := by
  have hl : h.1.length = 20 := h.2
  have hp : pushToken h.1 true = .push .direct h.1 := by
    simp [pushToken, special, formOf, hl]
  refine ⟨?_, ⟨by omega, by omega⟩, by simp [Token.encode, hl]⟩
  rw [← hp]
  exact serializePushBytes_token h.1 true (by omega)

/-- How the locking script of a public key hash address runs. -/
theorem p2pkh_lock (a : Address) (ha : a.addrType = .P2PKH) :
    ∃ ts : List Token, (∀ t ∈ ts, t.Valid) ∧ (∀ t ∈ ts, t ≠ .op 0xab) ∧
      serializeOps a.toScript = .ok (encodeTokens ts) ∧ ¬ IsP2SH (encodeTokens ts) ∧
      (encodeTokens ts).length = 25 ∧
      ∀ env pk sg, Vm.run env ts [] ⟨[pk, sg], []⟩ =
        if env.hash160 pk = a.hash.1 then (env.checkSig sg pk).map fun b => ⟨[Vm.boolBytes b], []⟩
        else none := by
  obtain ⟨te, tv, tb⟩ := hash_token a.hash
  refine ⟨[.op 0x76, .op 0xa9, .push .direct a.hash.1, .op 0x88, .op 0xac], ?_, ?_, ?_, ?_, ?_, ?_⟩
  · intro t' h
    simp only [List.mem_cons, List.not_mem_nil, or_false] at h
    rcases h with rfl | rfl | rfl | rfl | rfl
    · exact .inr (by decide)
    · exact .inr (by decide)
    · exact tv
    · exact .inr (by decide)
    · exact .inr (by decide)
  · intro t' h
    simp only [List.mem_cons, List.not_mem_nil, or_false] at h
    rcases h with rfl | rfl | rfl | rfl | rfl <;> intro hc <;> cases hc
  · simp only [Address.toScript, ha, p2pkhScript, serializeOps, te, Res.bind_ok, encodeTokens]
    rfl
  · rintro ⟨h, _, he⟩
    simp [encodeTokens, Token.encode] at he
  · have hl : a.hash.1.length = 20 := a.hash.2
    simp [encodeTokens, Token.encode, hl]
  · intro env pk sg
    have e1 : Vm.run env [.op 0x76, .op 0xa9, .push .direct a.hash.1, .op 0x88, .op 0xac] []
        ⟨[pk, sg], []⟩ = Vm.run env [.op 0x88, .op 0xac] [] ⟨[a.hash.1, env.hash160 pk, pk, sg], []⟩ := rfl
    rw [e1]
    have e2 : ∀ x y st, Vm.run env [.op 0x88, .op 0xac] [] ⟨y :: x :: st, []⟩ =
        if x = y then Vm.run env [.op 0xac] [] ⟨st, []⟩ else none := by
      intro x y st
      by_cases hxy : x = y
      · subst hxy
        rw [if_pos rfl, Vm.run.eq_def]
        simp [Vm.step, Vm.main, Vm.bin, Vm.verify]
      · rw [if_neg hxy, Vm.run.eq_def]
        simp [Vm.step, Vm.main, Vm.bin, Vm.verify, hxy]
    rw [e2]
    congr 1
    rw [Vm.run.eq_def]
    simp only [Vm.step, Vm.main, Vm.bin]
    cases env.checkSig sg pk <;> rfl

/-- How the locking script of a script hash address runs. -/
theorem p2sh_lock (a : Address) (ha : a.addrType = .P2SH) :
    ∃ ts : List Token, (∀ t ∈ ts, t.Valid) ∧ (∀ t ∈ ts, t ≠ .op 0xab) ∧
      serializeOps a.toScript = .ok (encodeTokens ts) ∧ IsP2SH (encodeTokens ts) ∧
      ∀ env redeem st, Vm.run env ts [] ⟨redeem :: st, []⟩ =
        some ⟨Vm.boolBytes (env.hash160 redeem == a.hash.1) :: st, []⟩ := by
  obtain ⟨te, tv, tb⟩ := hash_token a.hash
  refine ⟨[.op 0xa9, .push .direct a.hash.1, .op 0x87], ?_, ?_, ?_, ?_, ?_⟩
  · intro t' h
    simp only [List.mem_cons, List.not_mem_nil, or_false] at h
    rcases h with rfl | rfl | rfl
    · exact .inr (by decide)
    · exact tv
    · exact .inr (by decide)
  · intro t' h
    simp only [List.mem_cons, List.not_mem_nil, or_false] at h
    rcases h with rfl | rfl | rfl <;> intro hc <;> cases hc
  · simp only [Address.toScript, ha, p2shScript, serializeOps, te, Res.bind_ok, encodeTokens]
    rfl
  · have hl : a.hash.1.length = 20 := a.hash.2
    exact ⟨a.hash.1, hl, by simp [encodeTokens, Token.encode, hl]⟩
  · intro env redeem st
    rfl

end SpendProofs

/-- **C63** (P2PKH): an input that spends an output locked to a P2PKH address, added with the P2PKH
signatory and signed (through either signing function, among any other signing calls) with a signature,
satisfies that output in the completed transaction exactly if the signatory's public key hashes to the
address, the flags include the fork id, and the signature verifies for the hash of the preimage the
unsigned transaction handed out for this input. -/
theorem C63_p2pkh (c : Crypto) (sz : Layout) (H : Bytes → Hash256)
    (hH : ∀ x, (H x).1 = c.hash256 x) (b : TxBuilder Dyn) (u : UnsignedTx Dyn)
    (cs : List (SignCall Dyn)) (tx : UnhashedTx) (h : Completed sz H b u cs tx) (idx : Nat)
    (input : UnsignedTxInput) (a : Address) (ha : a.addrType = .P2PKH) (s : P2PKHSignatory)
    (dc : Dyn → Option Bytes) (hadd : InputAdded b idx input a.toScript (s.signatory dc))
    (hf8 : s.sigHashFlags.toNat < 256) (sig : Bytes) (hsig : sig.length + 1 < 2 ^ 32)
    (hcs : ∀ call ∈ cs, call.idx = idx → call = .signatory idx (s.signatory dc) sig ∨
      ∃ d, call = .dyn idx d ∧ dc d = some sig) :
    ∃ p bytes, preimageAt u.txPreimages idx 0 = some p ∧ Codec.txPreimage.ser p = some bytes ∧
      (SpendOk c tx.wire idx input.value.toNat (scriptBytes a.toScript) ↔
        c.hash160 s.pubkey.1 = a.hash.1 ∧ s.sigHashFlags.toNat / 64 % 2 = 1 ∧
        c.verify s.pubkey.1 (c.hash256 bytes) sig = true) := by
  obtain ⟨ts, tv, tn, tser, tp, tl, trun⟩ := p2pkh_lock a ha
  have hlock : a.toScript.serOps = some (encodeTokens ts) := by
    simp [Script.serOps, tser]
  have hnosep : ∀ op ∈ a.toScript, op ≠ .code .OP_CODESEPARATOR := by
    simp [Address.toScript, ha, p2pkhScript]
  have hcode : ∀ code, IsScriptCode a.toScript code → code = a.toScript := by
    rintro code (⟨_, rfl⟩ | ⟨pre, he, _⟩)
    · rfl
    · exact absurd rfl (hnosep (.code .OP_CODESEPARATOR) (by rw [he]; simp))
  have hlen : a.toScript.Serialisable := ⟨_, hlock, by omega⟩
  obtain ⟨p, bytes, i, hp, hb, hpc, hi, hchk⟩ := C63_preimages_are_checked c sz H hH b u cs tx h idx 0 _
    s.sigHashFlags (added_get hadd) rfl hf8 (fun code hc => by
      rw [hcode code hc]; exact hlen)
  have hpc := hcode _ hpc
  rw [hpc] at hchk
  obtain ⟨t, ps, ht, _, hscript⟩ := completed_script h hadd hcs
  have hsc : t.script = s.buildScript sig := by
    cases ps with
    | nil => cases hscript
    | cons q qs => exact (Option.some.inj hscript).symm
  obtain ⟨ub, hub, hpush⟩ := pushes_of_ops (s.buildScript sig) [sig ++ [s.sigHashFlags.toUInt8], s.pubkey.1] (by
      intro op hop
      simp only [P2PKHSignatory.buildScript, List.mem_cons, List.not_mem_nil, or_false] at hop
      rcases hop with rfl | rfl
      · exact ⟨by simpa [Op.WellFormed] using hsig, by simp⟩
      · refine ⟨?_, by simp⟩
        simp only [Op.WellFormed]
        have := s.pubkey.2
        omega) rfl
  have hti : i = t.wire := by
    have : tx.wire.inputs[idx]? = some t.wire := by simp [UnhashedTx.wire, ht]
    rw [this] at hi
    exact (Option.some.inj hi).symm
  have hiscript : i.script = ub := by
    rw [hti]
    simp [TxInput.wire, hsc, scriptBytes, Script.serOps, hub]
  have hlb : scriptBytes a.toScript = encodeTokens ts := by simp [scriptBytes, hlock]
  rw [hlb] at hchk ⊢
  refine ⟨p, bytes, hp, hb, ?_⟩
  have hrun : Vm.RunsFrom (txEnv c tx.wire idx i input.value.toNat) (encodeTokens ts)
      ⟨[sig ++ [s.sigHashFlags.toUInt8], s.pubkey.1].reverse, []⟩ _ :=
    runsFrom_of_runs tv rfl tn (trun _ s.pubkey.1 (sig ++ [s.sigHashFlags.toUInt8]))
  rw [← hchk sig s.pubkey.1]
  constructor
  · rintro ⟨i', items, r, hi', hpu, hr, hns, _⟩
    rw [hi] at hi'
    cases hi'
    rw [hiscript] at hpu
    cases pushes_unique hpu hpush
    have := runsFrom_unique hr hrun
    subst this
    obtain ⟨top, alt, e, htop⟩ := hns tp
    split at e
    · next hh =>
      refine ⟨hh, ?_⟩
      obtain ⟨bb, hbb, e⟩ := Option.map_eq_some_iff.mp e
      injection e with e1 e2
      cases bb with
      | true => exact hbb
      | false =>
        injection e1 with e1
        rw [← e1] at htop
        exact absurd htop (by decide)
    · cases e
  · rintro ⟨h1, h2⟩
    refine ⟨i, _, _, hi, by rw [hiscript]; exact hpush, hrun, fun _ => ?_, fun hc => absurd hc tp⟩
    rw [if_pos (show (txEnv c tx.wire idx i input.value.toNat (encodeTokens ts)).hash160 s.pubkey.1 =
      a.hash.1 from h1)]
    refine ⟨[1], [], ?_, by decide⟩
    show Option.map _ (checkTxSig _ _ _ _ _ _ _ _) = _
    rw [h2]
    rfl


/-- **C63** (P2SH): an input that spends an output locked to a script-hash address, added with the redeem
script and a P2SH signatory and signed with signatures for which the signatory returns minimal pushes of
some items, satisfies that output in the completed transaction exactly if the redeem script hashes to the
address and, run on these items, leaves exactly one true item. -/
theorem C63_p2sh (c : Crypto) (sz : Layout) (H : Bytes → Hash256) (b : TxBuilder Dyn)
    (u : UnsignedTx Dyn) (cs : List (SignCall Dyn)) (tx : UnhashedTx) (h : Completed sz H b u cs tx)
    (idx : Nat) (input : UnsignedTxInput) (a : Address) (ha : a.addrType = .P2SH) (redeem : Script)
    (rbytes : Bytes) (hr : redeem.serOps = some rbytes) (hrl : rbytes.length < 2 ^ 32)
    (s : Signatory Dyn) (hs : s.isP2sh = true) (hadd : InputAdded b idx input redeem s) (sigs : s.Sigs)
    (hcs : ∀ call ∈ cs, call.idx = idx → call = .signatory idx s sigs ∨
      ∃ d, call = .dyn idx d ∧ s.downcast d = some sigs)
    (ps : List TxPreimage) (hps : u.txPreimages[idx]? = some ps) (ops : Script) (items : List Bytes)
    (hops : signatoryOps s ps u.estimatedSize sigs redeem u.outputs = some ops)
    (hmin : ∀ op ∈ ops, op.WellFormed ∧ ∀ d, op ≠ .pushByteArray d false)
    (hit : ops.map Vm.item = items.map some) :
    ∃ i, tx.wire.inputs[idx]? = some i ∧
      (SpendOk c tx.wire idx input.value.toNat (scriptBytes a.toScript) ↔
        c.hash160 rbytes = a.hash.1 ∧
        ∃ r, Vm.RunsFrom (txEnv c tx.wire idx i input.value.toNat) rbytes ⟨items.reverse, []⟩ r ∧
          Vm.Success r) := by
  obtain ⟨ts, tv, tn, tser, tp, trun⟩ := p2sh_lock a ha
  have hlb : scriptBytes a.toScript = encodeTokens ts := by
    simp [scriptBytes, Script.serOps, tser]
  obtain ⟨t, ps', ht, hps', hscript⟩ := completed_script h hadd hcs
  rw [hps] at hps'
  cases hps'
  have hsc : t.script = ops ++ [.pushByteArray rbytes true] := by
    rw [unlockScript_eq, hops, Option.bind_some, if_pos hs, hr] at hscript
    exact (Option.some.inj hscript).symm
  obtain ⟨ub, hub, hpush⟩ := pushes_of_ops t.script (items ++ [rbytes]) (by
    rw [hsc]
    intro op hop
    simp only [List.mem_append, List.mem_singleton] at hop
    rcases hop with hop | rfl
    · exact hmin op hop
    · exact ⟨hrl, by simp⟩) (by
    rw [hsc]
    simp [hit, Vm.item])
  refine ⟨t.wire, by simp [UnhashedTx.wire, ht], ?_⟩
  have hi : tx.wire.inputs[idx]? = some t.wire := by simp [UnhashedTx.wire, ht]
  have hiscript : t.wire.script = ub := by
    simp [TxInput.wire, scriptBytes, Script.serOps, hub]
  rw [hlb]
  have hrun : Vm.RunsFrom (txEnv c tx.wire idx t.wire input.value.toNat) (encodeTokens ts)
      ⟨(items ++ [rbytes]).reverse, []⟩ _ :=
    runsFrom_of_runs tv rfl tn (by
      rw [List.reverse_append, List.reverse_singleton, List.singleton_append, trun])
  constructor
  · rintro ⟨i', items', r, hi', hpu, hr', _, hsh⟩
    rw [hi] at hi'
    cases hi'
    rw [hiscript] at hpu
    cases pushes_unique hpu hpush
    obtain ⟨⟨top, st, alt, e, htop⟩, rest, red, r2, e2, hr2, hok⟩ := hsh tp
    have := runsFrom_unique hr' hrun
    rw [e] at this
    obtain ⟨rfl, e3⟩ := List.append_inj' e2 rfl
    cases e3
    refine ⟨?_, r2, hr2, hok⟩
    injection this with this
    injection this with this _
    injection this with this _
    rw [this] at htop
    by_contra hne
    rw [show ((txEnv c tx.wire idx t.wire input.value.toNat (encodeTokens ts)).hash160 rbytes == a.hash.1) =
      false from beq_eq_false_iff_ne.mpr hne] at htop
    exact absurd htop (by decide)
  · rintro ⟨h1, r, h2, h3⟩
    refine ⟨t.wire, _, _, hi, by rw [hiscript]; exact hpush, hrun, fun hc => absurd tp hc, fun _ => ?_⟩
    rw [show ((txEnv c tx.wire idx t.wire input.value.toNat (encodeTokens ts)).hash160 rbytes == a.hash.1) =
      true from beq_iff_eq.mpr h1]
    exact ⟨⟨_, _, _, rfl, by decide⟩, items, rbytes, r, rfl, h2, h3⟩


/-- **C63** (own key): for an address made from the signatory's public key and flags with the fork id, a
signature that verifies for the preimage handed out makes the completed input valid. -/
theorem C63_p2pkh_own_key (c : Crypto) (sz : Layout) (H : Bytes → Hash256)
    (hH : ∀ x, (H x).1 = c.hash256 x) (h160 : Bytes → Hash160) (h160c : ∀ x, (h160 x).1 = c.hash160 x)
    (b : TxBuilder Dyn) (u : UnsignedTx Dyn) (cs : List (SignCall Dyn)) (tx : UnhashedTx)
    (h : Completed sz H b u cs tx) (idx : Nat) (input : UnsignedTxInput) (s : P2PKHSignatory)
    (pre : Bytes) (a : Address) (ha : Address.fromPk h160 pre s.pubkey = some a)
    (dc : Dyn → Option Bytes) (hadd : InputAdded b idx input a.toScript (s.signatory dc))
    (hf8 : s.sigHashFlags.toNat < 256) (hfork : s.sigHashFlags.toNat / 64 % 2 = 1)
    (sig : Bytes) (hsig : sig.length + 1 < 2 ^ 32)
    (hcs : ∀ call ∈ cs, call.idx = idx → call = .signatory idx (s.signatory dc) sig ∨
      ∃ d, call = .dyn idx d ∧ dc d = some sig)
    (hok : ∀ p bytes, preimageAt u.txPreimages idx 0 = some p → Codec.txPreimage.ser p = some bytes →
      c.verify s.pubkey.1 (c.hash256 bytes) sig = true) :
    SpendOk c tx.wire idx input.value.toNat (scriptBytes a.toScript) := by
  obtain ⟨_, _, rfl⟩ := Option.map_eq_some_iff.mp ha
  obtain ⟨p, bytes, h1, h2, h3⟩ := C63_p2pkh c sz H hH b u cs tx h idx input _ rfl s dc hadd hf8 sig hsig hcs
  exact h3.mpr ⟨(h160c _).symm, hfork, hok p bytes h1 h2⟩

/-- **C63** (own script): for an address made from the redeem script, minimal pushes of items on which the
redeem script succeeds make the completed input valid, and only these. -/
theorem C63_p2sh_own_script (c : Crypto) (sz : Layout) (H : Bytes → Hash256)
    (h160 : Bytes → Hash160) (h160c : ∀ x, (h160 x).1 = c.hash160 x) (b : TxBuilder Dyn)
    (u : UnsignedTx Dyn) (cs : List (SignCall Dyn)) (tx : UnhashedTx) (h : Completed sz H b u cs tx)
    (idx : Nat) (input : UnsignedTxInput) (redeem : Script)
    (rbytes : Bytes) (hr : redeem.serOps = some rbytes) (hrl : rbytes.length < 2 ^ 32)
    (pre : Bytes) (a : Address) (ha : Address.fromRedeemScript h160 pre rbytes = some a)
    (s : Signatory Dyn) (hs : s.isP2sh = true) (hadd : InputAdded b idx input redeem s) (sigs : s.Sigs)
    (hcs : ∀ call ∈ cs, call.idx = idx → call = .signatory idx s sigs ∨
      ∃ d, call = .dyn idx d ∧ s.downcast d = some sigs)
    (ps : List TxPreimage) (hps : u.txPreimages[idx]? = some ps) (ops : Script) (items : List Bytes)
    (hops : signatoryOps s ps u.estimatedSize sigs redeem u.outputs = some ops)
    (hmin : ∀ op ∈ ops, op.WellFormed ∧ ∀ d, op ≠ .pushByteArray d false)
    (hit : ops.map Vm.item = items.map some) :
    ∃ i, tx.wire.inputs[idx]? = some i ∧
      (SpendOk c tx.wire idx input.value.toNat (scriptBytes a.toScript) ↔
        ∃ r, Vm.RunsFrom (txEnv c tx.wire idx i input.value.toNat) rbytes ⟨items.reverse, []⟩ r ∧
          Vm.Success r) := by
  obtain ⟨str, _, ha⟩ := Option.map_eq_some_iff.mp ha
  have hty : a.addrType = .P2SH := by rw [← ha]
  have hhash : a.hash = h160 rbytes := by rw [← ha]
  obtain ⟨i, h1, h2⟩ := C63_p2sh c sz H b u cs tx h idx input a hty redeem rbytes hr hrl s hs hadd sigs hcs ps hps
    ops items hops hmin hit
  rw [hhash, h160c] at h2
  exact ⟨i, h1, h2.trans ⟨fun q => q.2, fun q => ⟨rfl, q⟩⟩⟩

/-! ## Examples -/

/-- A toy cryptography: hashes are constant, the only valid signature is `[1, 2]`. -/
def exampleCrypto : Crypto where
  ripemd160 x := x.take 20
  sha1 x := x.take 20
  sha256 _ := List.replicate 32 7
  verify _ _ sig := sig == [1, 2]

def exampleHash (_ : Bytes) : Hash256 := ⟨List.replicate 32 7, rfl⟩

def exampleKeyAddress : Address :=
  ⟨.P2PKH, ⟨List.replicate 20 7, rfl⟩, [], [], none⟩

def exampleRedeem : Script := [.code .OP_ADD, .code .OP_5, .code .OP_NUMEQUAL]

def exampleScriptAddress : Address :=
  ⟨.P2SH, ⟨List.replicate 20 7, rfl⟩, [], [], none⟩

def exampleKeySignatory : P2PKHSignatory := ⟨exampleKey, SigHashFlags.DEFAULT⟩

/-- A signatory for `exampleRedeem` whose "signatures" are two numbers. -/
def exampleAddSignatory : Signatory Bytes where
  Sigs := Int × Int
  downcast d := match d with
    | [x, y] => some (x.toNat, y.toNat)
    | _ => none
  kind := .multiple [] fun _ _ sigs _ _ => some [.pushInteger sigs.1, .pushInteger sigs.2]
  placeholderSignatures := (0, 0)
  isP2sh := true

def exampleSpendInput (n : UInt32) : UnsignedTxInput := ⟨⟨Hash256.zero, n⟩, 0xffffffff, 10000⟩

/-- Two inputs (a key and a script), one output, change. -/
def exampleSpendBuilder : TxBuilder Bytes :=
  ((((newSimple : TxBuilder Bytes).addInput (exampleSpendInput 0) exampleKeyAddress.toScript
    (exampleKeySignatory.signatory some)).1.addInput (exampleSpendInput 1) exampleRedeem
    exampleAddSignatory).1.addOutput ⟨5000, exampleKeyAddress.toScript⟩).addLeftoverOutput
    exampleScriptAddress.toScript

theorem exampleSpend_second :
    InputAdded exampleSpendBuilder 1 (exampleSpendInput 1) exampleRedeem exampleAddSignatory :=
  ⟨((newSimple : TxBuilder Bytes).addInput (exampleSpendInput 0) exampleKeyAddress.toScript
    (exampleKeySignatory.signatory some)).1, rfl, ⟨[], rfl⟩⟩

/-- Building, signing with a valid key signature and the given numbers, completing. -/
def exampleSpendRun (cs : List (SignCall Bytes)) : Option (UnsignedTx Bytes × UnhashedTx) :=
  match exampleSpendBuilder.build ⟨1, 1⟩ exampleHash with
  | .ok u => (signAll u cs).bind fun u' => u'.completeTx.map fun tx => (u, tx)
  | _ => none

example : (exampleSpendRun [.dyn 1 [2, 3], .dyn 0 [1, 2]]).map (fun r => r.2.outputs.length) = some 2 := by
  decide +kernel

theorem exampleSpend_completed (cs : List (SignCall Bytes)) (u : UnsignedTx Bytes) (tx : UnhashedTx)
    (h : exampleSpendRun cs = some (u, tx)) :
    Completed ⟨1, 1⟩ exampleHash exampleSpendBuilder u cs tx := by
  unfold exampleSpendRun at h
  split at h
  · next u0 hb =>
    obtain ⟨u', h1, h2⟩ := Option.bind_eq_some_iff.mp h
    obtain ⟨tx', h2, h3⟩ := Option.map_eq_some_iff.mp h2
    cases h3
    refine ⟨.addLeftover _ (.addOutput _ (.addInput _ _ _ (.addInput _ _ _ .newSimple))), .inl hb,
      ⟨u', h1, h2⟩, ?_⟩
    have hall : ∀ r, exampleSpendBuilder.build ⟨1, 1⟩ exampleHash = .ok r →
        r.outputs.all (fun o => decide (∃ bs, o.script.serOps = some bs ∧ bs.length < 2 ^ 64)) = true := by
      intro r hr
      have : (match exampleSpendBuilder.build ⟨1, 1⟩ exampleHash with
        | .ok r => r.outputs.all fun o => (o.script.serOps.map List.length).any (· < 2 ^ 64)
        | _ => false) = true := by decide +kernel
      rw [hr] at this
      dsimp only at this
      rw [List.all_eq_true] at this ⊢
      intro o ho
      have := this o ho
      cases hs : o.script.serOps with
      | none => rw [hs] at this; cases this
      | some bs =>
        rw [hs] at this
        simp only [Option.map_some, Option.any_some, decide_eq_true_eq] at this
        simpa using this
    intro o ho
    have := hall _ hb
    rw [List.all_eq_true] at this
    simpa [Script.Serialisable] using this o ho
  · cases h

/-- With valid signatures both inputs are valid; with a wrong signature or wrong numbers they are not. -/
example (u : UnsignedTx Bytes) (tx : UnhashedTx)
    (h : exampleSpendRun [.dyn 1 [2, 3], .dyn 0 [1, 2]] = some (u, tx)) :
    SpendOk exampleCrypto tx.wire 0 10000 (scriptBytes exampleKeyAddress.toScript) ∧
    SpendOk exampleCrypto tx.wire 1 10000 (scriptBytes exampleScriptAddress.toScript) := by
  have hc := exampleSpend_completed _ _ _ h
  constructor
  · obtain ⟨p, bytes, h1, h2, h3⟩ := C63_p2pkh exampleCrypto ⟨1, 1⟩ exampleHash (fun _ => rfl) _ u _ tx hc 0
      (exampleSpendInput 0) exampleKeyAddress rfl exampleKeySignatory some
      ⟨newSimple, rfl, ⟨_, rfl⟩⟩ (by decide) [1, 2] (by decide) (by
        intro call hcall hidx
        simp only [List.mem_cons, List.not_mem_nil, or_false] at hcall
        rcases hcall with rfl | rfl
        · cases hidx
        · exact .inr ⟨_, rfl, rfl⟩)
    exact h3.mpr ⟨by decide, by decide, rfl⟩
  · obtain ⟨ps, hps⟩ : ∃ ps, u.txPreimages[1]? = some ps := by
      obtain ⟨t, ps, _, h, _⟩ := SpendProofs.completed_script hc (idx := 1) (input := exampleSpendInput 1)
        (lock := exampleRedeem) (s := exampleAddSignatory) exampleSpend_second
        (sigs := ((2 : Int), (3 : Int))) (by
        intro call hcall hidx
        simp only [List.mem_cons, List.not_mem_nil, or_false] at hcall
        rcases hcall with rfl | rfl
        · exact .inr ⟨_, rfl, rfl⟩
        · cases hidx)
      exact ⟨ps, h⟩
    obtain ⟨i, hi, h3⟩ := C63_p2sh exampleCrypto ⟨1, 1⟩ exampleHash _ u _ tx hc 1
      (exampleSpendInput 1) exampleScriptAddress rfl exampleRedeem [0x93, 0x55, 0x9c] rfl (by decide)
      exampleAddSignatory rfl exampleSpend_second ((2 : Int), (3 : Int)) (by
        intro call hcall hidx
        simp only [List.mem_cons, List.not_mem_nil, or_false] at hcall
        rcases hcall with rfl | rfl
        · exact .inr ⟨_, rfl, rfl⟩
        · cases hidx) ps hps [.pushInteger 2, .pushInteger 3] [[2], [3]] rfl (by
        intro op hop
        simp only [List.mem_cons, List.not_mem_nil, or_false] at hop
        rcases hop with rfl | rfl <;> exact ⟨by constructor <;> decide, by simp⟩) rfl
    refine h3.mpr ⟨by decide, some ⟨[[1]], []⟩, ⟨[.op 0x93, .op 0x55, .op 0x9c], ?_, rfl, rfl⟩, [1], [], rfl, by decide⟩
    intro t ht
    simp only [List.mem_cons, List.not_mem_nil, or_false] at ht
    rcases ht with rfl | rfl | rfl <;> exact .inr (by decide)

example (u : UnsignedTx Bytes) (tx : UnhashedTx)
    (h : exampleSpendRun [.dyn 1 [2, 3], .dyn 0 [1, 3]] = some (u, tx)) :
    ¬ SpendOk exampleCrypto tx.wire 0 10000 (scriptBytes exampleKeyAddress.toScript) := by
  obtain ⟨p, bytes, h1, h2, h3⟩ := C63_p2pkh exampleCrypto ⟨1, 1⟩ exampleHash (fun _ => rfl) _ u _ tx
    (exampleSpend_completed _ _ _ h) 0 (exampleSpendInput 0) exampleKeyAddress rfl exampleKeySignatory some
    ⟨newSimple, rfl, ⟨_, rfl⟩⟩ (by decide) [1, 3] (by decide) (by
      intro call hcall hidx
      simp only [List.mem_cons, List.not_mem_nil, or_false] at hcall
      rcases hcall with rfl | rfl
      · cases hidx
      · exact .inr ⟨_, rfl, rfl⟩)
  exact fun hc => absurd (h3.mp hc).2.2 (show ¬ false = true by decide)

/-- The preimage handed out for the first input is what its signature is checked against, with its own script code
(`C63_preimages_are_checked`) and with that of another script (`C63_other_script_codes`). -/
example (u : UnsignedTx Bytes) (tx : UnhashedTx)
    (h : exampleSpendRun [.dyn 1 [2, 3], .dyn 0 [1, 2]] = some (u, tx)) :
    ∃ p i, preimageAt u.txPreimages 0 0 = some p ∧ tx.wire.inputs[0]? = some i ∧
      (∃ code, checkTxSig exampleCrypto tx.wire 0 i 10000 (scriptBytes code) [1, 2, 0x41] exampleKey.1 = some true ∧
        p.scriptCode = code) ∧
      checkTxSig exampleCrypto tx.wire 0 i 10000 (scriptBytes exampleRedeem) [1, 2, 0x41] exampleKey.1 = some true := by
  have hc := exampleSpend_completed _ _ _ h
  obtain ⟨p, i, h1, -, h3, h4⟩ := C63_other_script_codes exampleCrypto ⟨1, 1⟩ exampleHash (fun _ => rfl) _ u _ tx hc
    0 0 _ SigHashFlags.DEFAULT rfl rfl (by decide)
  obtain ⟨bytes, -, h5⟩ := h4 exampleRedeem ⟨_, rfl, by decide⟩
  obtain ⟨p', bytes', i', g1, -, -, g3, g4⟩ := C63_preimages_are_checked exampleCrypto ⟨1, 1⟩ exampleHash (fun _ => rfl)
    _ u _ tx hc 0 0 _ SigHashFlags.DEFAULT rfl rfl (by decide) (by
      intro code hcode
      have : code = exampleKeyAddress.toScript := by
        rcases hcode with ⟨_, rfl⟩ | ⟨pre, hsplit, _⟩
        · rfl
        · have hm : (.code .OP_CODESEPARATOR : Op Bytes) ∈ exampleKeyAddress.toScript := by
            rw [show exampleKeyAddress.toScript = _ from hsplit]
            simp
          exact absurd hm (by decide)
      subst this
      exact ⟨_, rfl, by decide⟩)
  rw [h1] at g1; cases g1
  rw [h3] at g3; cases g3
  exact ⟨p, i, h1, h3, ⟨_, (g4 [1, 2] exampleKey.1).mpr ⟨by decide, rfl⟩, rfl⟩,
    (h5 [1, 2] exampleKey.1).mpr ⟨by decide, rfl⟩⟩

end BCash
