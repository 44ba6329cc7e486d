import Verif.Props.Ecc
import Verif.Props.Builder

/-! # C99 — building and paying always go through -/

namespace BCash
open Spec TxBuilder
variable {Dyn : Type}

/-! ## Building returns -/

/-- Spec: whatever leftover outputs are included and whatever they get, the placeholder scripts can be made and
the size of the transaction times the fee rate fits into 64 bits. -/
def Spec.Estimable (sz : Layout) (b : TxBuilder Dyn) : Prop :=
  ∀ outs : List TxOutput, (outs.map (·.script)).Sublist (b.outputs.map (·.script)) →
    ∃ ptx n, placeholderTx b outs = some ptx ∧ HasSize sz ptx n ∧ n * b.feePerKb.toNat < 2 ^ 64

theorem estimateSize_of {sz : Layout} {b : TxBuilder Dyn} {outs : List TxOutput} {ptx : UnhashedTx} {n : Nat}
    (h : placeholderTx b outs = some ptx) (hn : HasSize sz ptx n) : b.estimateSize sz outs = some n := by
  obtain ⟨ins, hin, rfl⟩ := Option.map_eq_some_iff.mp h
  obtain ⟨bytes, hb, rfl⟩ := hn
  unfold estimateSize
  rw [hin, Option.bind_some, hb]
  rfl

theorem buildStep_returns {sz : Layout} {b : TxBuilder Dyn} (hest : Estimable sz b) (st : BuildState)
    {idx : Nat} (hidx : idx < b.outputs.length) : ∃ st', buildStep sz b st idx = some st' := by
  unfold buildStep
  rw [List.getElem?_eq_getElem hidx]
  cases b.outputs[idx] with
  | knownValue o => exact ⟨_, rfl⟩
  | leftover lower upper p s =>
    dsimp only
    split
    · exact ⟨_, rfl⟩
    · obtain ⟨ptx, n, h1, h2, h3⟩ := hest
        (b.makeOutputs (setAmount st.amounts idx (some (min st.total upper.toNat)))) (scripts_sublist _ _ _)
      rw [estimateSize_of h1 h2, Option.bind_some, if_neg (by omega)]
      split
      · split <;> exact ⟨_, rfl⟩
      · exact ⟨_, rfl⟩

theorem buildLoop_returns {sz : Layout} {b : TxBuilder Dyn} (hest : Estimable sz b) (order : List (Nat × Int))
    (h : ∀ x ∈ order, x.1 < b.outputs.length) (st : BuildState) :
    ∃ st', buildLoop sz b st order = some st' := by
  induction order generalizing st with
  | nil => exact ⟨_, rfl⟩
  | cons x rest ih =>
    obtain ⟨st', h1⟩ := buildStep_returns hest st (h x (by simp))
    obtain ⟨st'', h2⟩ := ih (fun y hy => h y (by simp [hy])) st'
    exact ⟨st'', by rw [buildLoop, h1, Option.bind_some, h2]⟩

theorem order_lt (outs : List TxBuilderOutput) : ∀ x ∈ sortByKey (leftoverIndices 0 outs), x.1 < outs.length := by
  intro x hx
  have h := (sortByKey_perm _).mem_iff.mp hx
  have := leftoverIndices_mem h
  obtain ⟨_, _, _, _, _, h, _⟩ := this
  by_contra hc
  rw [List.getElem?_eq_none (by omega)] at h
  cases h

theorem mem_makeOutputs_script {b : TxBuilder Dyn} {amt : Nat → Option Nat} {o : TxOutput}
    (ho : o ∈ b.makeOutputs amt) : ∃ o' ∈ b.outputs, o'.script = o.script := by
  have := (scripts_sublist b.outputs amt 0).subset (List.mem_map_of_mem ho)
  exact List.mem_map.mp this

/-- **C99** (building returns): if the values fit into 64 bits, the placeholder scripts can be made, the fee can be
computed and the output scripts can be serialised, building gives a transaction or, exactly if the fixed outputs
exceed the inputs, the error with the missing amount; it does not panic. -/
theorem C99_build_returns (sz : Layout) (H : Bytes → Hash256) (b : TxBuilder Dyn)
    (hin : b.inputTotal < 2 ^ 64) (hfix : outputSum b.fixedOutputs < 2 ^ 64) (hest : Estimable sz b)
    (hs : ∀ o ∈ b.outputs, o.script.Serialisable) :
    (outputSum b.fixedOutputs ≤ b.inputTotal → ∃ u, b.build sz H = .ok u) ∧
    (b.inputTotal < outputSum b.fixedOutputs →
      b.build sz H = .err (.insufficientInputAmount (outputSum b.fixedOutputs - b.inputTotal))) := by
  refine ⟨fun hle => ?_, (C32_insufficient sz H b hin hfix).1⟩
  have h1 : b.knownOutputSum = some (outputSum b.fixedOutputs) := by
    unfold knownOutputSum sumU64
    rw [knownSum_fixed]
    exact if_pos hfix
  have h2 : b.inputSum = some b.inputTotal := by
    unfold inputSum sumU64
    rw [List.map_map]
    exact if_pos hin
  obtain ⟨st, h3⟩ := buildLoop_returns hest _ (order_lt b.outputs)
    ⟨b.inputTotal - outputSum b.fixedOutputs, fun _ => none, none⟩
  obtain ⟨ptx, n, e1, e2, _⟩ := hest (b.makeOutputs st.amounts) (scripts_sublist _ _ _)
  obtain ⟨ps, h5, _⟩ := C23_preimage_spec H (b.toPreimageTx (b.makeOutputs st.amounts)) (by
      intro o ho
      obtain ⟨o', h, e⟩ := mem_makeOutputs_script ho
      rw [← e]; exact hs o' h) (by
      intro i hi
      obtain ⟨j, _, rfl⟩ := List.mem_map.mp hi
      exact ⟨by simp, by simp⟩)
  cases he : st.estimated with
  | some m =>
    refine ⟨⟨b, b.makeOutputs st.amounts, ps, b.prefilled, m⟩, ?_⟩
    unfold build
    simp only [h1, h2, Res.ofOption, Res.bind_ok, h3, he, h5]
    rw [if_neg (by omega)]
  | none =>
    refine ⟨⟨b, b.makeOutputs st.amounts, ps, b.prefilled, n⟩, ?_⟩
    unfold build
    simp only [h1, h2, Res.ofOption, Res.bind_ok, h3, he, estimateSize_of e1 e2, h5]
    rw [if_neg (by omega)]

/-! ## Public key hash inputs -/

/-- Spec: a bound for the size of a transaction that spends `n` public key hash outputs and has outputs with (at
most) the given scripts. -/
def Spec.sizeBound (n : Nat) (scripts : List Script) : Nat :=
  26 + 149 * n + (scripts.map fun s => 17 + (scriptBytes s).length).sum

theorem varLen_le (n : Nat) : varLen n ≤ 9 := by
  unfold varLen encodeVarInt
  dsimp only
  repeat' split
  all_goals simp [leBytes_length]

theorem sumOpt_inputs (l : List Nat) (h : ∀ x ∈ l, x = 108) :
    sumOpt ((l.map some).map (·.map fun n => 40 + varLen n + n)) = some (149 * l.length) := by
  induction l with
  | nil => rfl
  | cons x xs ih =>
    have hx := h x (by simp)
    subst hx
    simp only [List.map_cons, Option.map_some, sumOpt, Option.bind_some]
    rw [ih (fun y hy => h y (by simp [hy]))]
    simp only [Option.bind_some, List.length_cons]
    rw [show varLen 108 = 1 from by decide]
    congr 1; omega

theorem sumOpt_outputs (scripts : List Script) (h : ∀ s ∈ scripts, s.Serialisable) :
    ∃ m, sumOpt ((scripts.map Script.len).map (·.map fun n => 8 + varLen n + n)) = some m ∧
      m ≤ (scripts.map fun s => 17 + (scriptBytes s).length).sum := by
  induction scripts with
  | nil => exact ⟨0, rfl, Nat.le_refl _⟩
  | cons s rest ih =>
    obtain ⟨m, h1, h2⟩ := ih (fun y hy => h y (by simp [hy]))
    obtain ⟨bs, hb, _⟩ := h s (by simp)
    have hl : s.len = some bs.length := by unfold Script.len; rw [hb]; rfl
    have hsb : scriptBytes s = bs := by unfold scriptBytes; rw [hb]; rfl
    refine ⟨8 + varLen bs.length + bs.length + m, ?_, ?_⟩
    · simp only [List.map_cons, hl, Option.map_some, sumOpt, Option.bind_some, h1]
    · simp only [List.map_cons, List.sum_cons, hsb]
      have := varLen_le bs.length
      omega

theorem sublist_sum_le {α : Type} {f : α → Nat} {l l' : List α} (h : l.Sublist l') :
    (l.map f).sum ≤ (l'.map f).sum := by
  induction h with
  | slnil => exact Nat.le_refl _
  | cons a _ ih => simp only [List.map_cons, List.sum_cons]; omega
  | cons_cons a _ ih => simp only [List.map_cons, List.sum_cons]; omega

/-- Builders with public key hash inputs only: estimates. -/
theorem p2pkh_estimable (sz : Layout) (dc : Dyn → Option Bytes) (b : TxBuilder Dyn)
    (hb : ∀ i ∈ b.inputs, P2PKHInput dc i) (hs : ∀ o ∈ b.outputs, o.script.Serialisable)
    (hfee : sizeBound b.inputs.length (b.outputs.map (·.script)) * b.feePerKb.toNat < 2 ^ 64) :
    Estimable sz b := by
  intro outs hsub
  obtain ⟨ins, hins⟩ := mapM_isSome (f := fun i => placeholderInput i outs) (l := b.inputs) fun i hi =>
    let ⟨t, h, _⟩ := p2pkh_placeholder (hb i hi) outs; ⟨t, h⟩
  obtain ⟨hlen, hall⟩ := mapM_some hins
  have h108 : ins.map (·.script.len) = (List.replicate ins.length 108).map some := by
    apply List.ext_getElem?
    intro j
    simp only [List.getElem?_map, List.getElem?_replicate]
    by_cases hj : j < ins.length
    · rw [if_pos hj, List.getElem?_eq_getElem hj]
      have hj' : j < b.inputs.length := by omega
      obtain ⟨t, h1, h2⟩ := hall j b.inputs[j] (List.getElem?_eq_getElem hj')
      rw [List.getElem?_eq_getElem hj] at h1
      cases h1
      obtain ⟨t', h3, h4⟩ := p2pkh_placeholder (hb _ (List.getElem_mem hj')) outs
      rw [h2] at h3
      cases h3
      simp [h4]
    · rw [if_neg hj, List.getElem?_eq_none (by omega)]; rfl
  have hso : ∀ s ∈ outs.map (·.script), s.Serialisable := by
    intro s h
    obtain ⟨o, ho, rfl⟩ := List.mem_map.mp (hsub.subset h)
    exact hs o ho
  obtain ⟨m, hm, hle⟩ := sumOpt_outputs _ hso
  have hsz := ser_tx_length sz ⟨b.version, ins, outs, b.lockTime⟩
  dsimp only at hsz
  rw [h108, show outs.map (·.script.len) = (outs.map (·.script)).map Script.len by simp,
    txSizeOf, sumOpt_inputs _ (fun x hx => (List.mem_replicate.mp hx).2), Option.bind_some, hm,
    Option.bind_some] at hsz
  obtain ⟨bytes, hbytes, hn⟩ := Option.map_eq_some_iff.mp hsz
  refine ⟨_, bytes.length, by unfold placeholderTx; rw [hins]; rfl, ⟨bytes, hbytes, rfl⟩, ?_⟩
  refine Nat.lt_of_le_of_lt (Nat.mul_le_mul_right _ ?_) hfee
  rw [hn]
  simp only [List.length_map, List.length_replicate]
  have h1 := varLen_le ins.length
  have h2 := varLen_le outs.length
  have h3 := sublist_sum_le (f := fun s : Script => 17 + (scriptBytes s).length) hsub
  unfold sizeBound
  rw [hlen]
  omega

/-! ## A wallet

What a client of the library does to pay from secret keys. -/

/-- Spec: an output to spend, locked to the address of the secret key's public key. -/
structure Spec.Coin where
  sk : Bytes
  input : UnsignedTxInput

/-- Spec: adding a coin: derive the public key, make the address, and add the input with the P2PKH signatory. -/
def Spec.addCoin (E : Ecc) (h160 : Bytes → Hash160) (pre : Bytes) (flags : SigHashFlags) (b : TxBuilder Bytes)
    (coin : Coin) : Res Error (TxBuilder Bytes) :=
  (E.derivePubkey coin.sk).bind fun pk =>
  (Res.ofOption (Address.fromPk h160 pre pk)).bind fun a =>
  .ok (b.addInput coin.input a.toScript (P2PKHSignatory.signatory ⟨pk, flags⟩ some)).1

/-- Spec: adding coins in order. -/
def Spec.addCoins (E : Ecc) (h160 : Bytes → Hash160) (pre : Bytes) (flags : SigHashFlags) :
    TxBuilder Bytes → List Coin → Res Error (TxBuilder Bytes)
  | b, [] => .ok b
  | b, coin :: rest => (addCoin E h160 pre flags b coin).bind fun b => addCoins E h160 pre flags b rest

/-- Spec: adding outputs in order. -/
def Spec.addOuts : TxBuilder Dyn → List TxBuilderOutput → TxBuilder Dyn
  | b, [] => b
  | b, .knownValue o :: rest => addOuts (b.addOutput o) rest
  | b, .leftover l u p s :: rest => addOuts (b.addLeftoverOutputBounded l u p s) rest

/-- Spec: signing an input: hash the serialised preimage, sign the hash, hand in the signature. -/
def Spec.signCoin (E : Ecc) (H : Bytes → Hash256) (u : UnsignedTx Bytes) (idx : Nat) (coin : Coin) :
    Res Error (UnsignedTx Bytes) :=
  (Res.ofOption (preimageAt u.txPreimages idx 0)).bind fun p =>
  (Res.ofOption (Codec.txPreimage.ser p)).bind fun bytes =>
  (E.sign coin.sk (.newUnnamed (H bytes).1)).bind fun sig =>
  match u.signInputDyn idx sig.data with
  | none => .panic
  | some (_, .error e) => .err e
  | some (u', .ok ()) => .ok u'

/-- Spec: signing all inputs from number `idx` on. -/
def Spec.signCoins (E : Ecc) (H : Bytes → Hash256) : UnsignedTx Bytes → Nat → List Coin →
    Res Error (UnsignedTx Bytes)
  | u, _, [] => .ok u
  | u, idx, coin :: rest => (signCoin E H u idx coin).bind fun u => signCoins E H u (idx + 1) rest

/-- Spec: paying: add coins and outputs, build, sign, complete. -/
def Spec.pay (sz : Layout) (H : Bytes → Hash256) (h160 : Bytes → Hash160) (E : Ecc) (pre : Bytes)
    (flags : SigHashFlags) (version : Int32) (lockTime : UInt32) (feePerKb : UInt64) (coins : List Coin)
    (outs : List TxBuilderOutput) : Res Error UnhashedTx :=
  (addCoins E h160 pre flags (newWithFee version lockTime feePerKb) coins).bind fun b =>
  ((addOuts b outs).build sz H).bind fun u =>
  (signCoins E H u 0 coins).bind fun u =>
  Res.ofOption u.completeTx

/-! ### Proofs -/

namespace PaymentProofs

/-- The builder input of a coin. -/
def IsInput (E : Ecc) (h160 : Bytes → Hash160) (pre : Bytes) (flags : SigHashFlags) (coin : Coin)
    (i : TxBuilderInput Bytes) : Prop :=
  ∃ pk a, E.derivePubkey coin.sk = .ok pk ∧ Address.fromPk h160 pre pk = some a ∧
    i = ⟨coin.input, (P2PKHSignatory.signatory ⟨pk, flags⟩ some : Signatory Bytes).funcScript, [flags],
      some a.toScript, some false, none⟩

theorem derive_ok {S : Secp} {E : Ecc} (hE : Backend S E) {sk : Bytes} (hk : SecretKey S sk) :
    E.derivePubkey sk = .ok (S.compress (S.derive (beNat sk))) := by
  cases hE <;> simp only [Secp.cEcc, Secp.rustEcc, parseSk_some hk]

theorem addCoins_ok {S : Secp} {E : Ecc} (hE : Backend S E) (h160 : Bytes → Hash160) (pre : Bytes)
    (flags : SigHashFlags) (coins : List Coin) (hk : ∀ coin ∈ coins, SecretKey S coin.sk)
    (b : TxBuilder Bytes) (hr : b.Reach) :
    ∃ b' is, addCoins E h160 pre flags b coins = .ok b' ∧ b'.Reach ∧ b'.inputs = b.inputs ++ is ∧
      b'.version = b.version ∧ b'.lockTime = b.lockTime ∧ b'.feePerKb = b.feePerKb ∧ b'.outputs = b.outputs ∧
      List.Forall₂ (IsInput E h160 pre flags) coins is := by
  induction coins generalizing b with
  | nil => exact ⟨b, [], rfl, hr, by simp, rfl, rfl, rfl, rfl, .nil⟩
  | cons coin rest ih =>
    have h1 := derive_ok hE (hk coin (by simp))
    obtain ⟨a, h2, _⟩ := C54_total pre .P2PKH (h160 (S.compress (S.derive (beNat coin.sk))).1)
    have h2' : Address.fromPk h160 pre (S.compress (S.derive (beNat coin.sk))) = some a := h2
    obtain ⟨b', is, e1, e2, e3, e4, e5, e6, e7, e8⟩ := ih (fun c hc => hk c (by simp [hc]))
      (b.addInput coin.input a.toScript
        (P2PKHSignatory.signatory ⟨S.compress (S.derive (beNat coin.sk)), flags⟩ some)).1 (.addInput _ _ _ hr)
    refine ⟨b', ⟨coin.input, (P2PKHSignatory.signatory ⟨S.compress (S.derive (beNat coin.sk)), flags⟩ some :
        Signatory Bytes).funcScript, [flags], some a.toScript, some false, none⟩ :: is,
      ?_, e2, ?_, e4, e5, e6, e7, .cons ⟨_, a, h1, h2', rfl⟩ e8⟩
    · rw [addCoins, addCoin, h1]
      simp only [Res.bind_ok, h2', Res.ofOption, e1]
    · rw [e3]
      simp only [addInput, List.append_assoc, List.singleton_append]
      rfl

theorem addOuts_ok (outs : List TxBuilderOutput) (b : TxBuilder Dyn) (hr : b.Reach) :
    (addOuts b outs).Reach ∧ (addOuts b outs).inputs = b.inputs ∧ (addOuts b outs).version = b.version ∧
    (addOuts b outs).lockTime = b.lockTime ∧ (addOuts b outs).feePerKb = b.feePerKb ∧
    (addOuts b outs).outputs = b.outputs ++ outs := by
  induction outs generalizing b with
  | nil => exact ⟨hr, rfl, rfl, rfl, rfl, by simp [addOuts]⟩
  | cons o rest ih =>
    cases o with
    | knownValue o =>
      obtain ⟨h1, h2, h3, h4, h5, h6⟩ := ih (b.addOutput o) (.addOutput o hr)
      exact ⟨h1, h2, h3, h4, h5, by rw [addOuts, h6]; simp [addOutput]⟩
    | leftover l u p s =>
      obtain ⟨h1, h2, h3, h4, h5, h6⟩ := ih (b.addLeftoverOutputBounded l u p s) (.addLeftoverBounded l u p s hr)
      exact ⟨h1, h2, h3, h4, h5, by rw [addOuts, h6]; simp [addLeftoverOutputBounded]⟩

/-- The signature made for input number `idx`. -/
def IsSig (E : Ecc) (H : Bytes → Hash256) (ps : List (List TxPreimage)) (idx : Nat) (coin : Coin)
    (sig : ByteArray) : Prop :=
  ∃ p bytes, preimageAt ps idx 0 = some p ∧ Codec.txPreimage.ser p = some bytes ∧
    E.sign coin.sk (.newUnnamed (H bytes).1) = .ok sig

theorem IsSig.unique {E : Ecc} {H : Bytes → Hash256} {ps : List (List TxPreimage)} {idx : Nat} {coin : Coin}
    {sig sig' : ByteArray} (h : IsSig E H ps idx coin sig) (h' : IsSig E H ps idx coin sig') : sig = sig' := by
  obtain ⟨p, bytes, h1, h2, h3⟩ := h
  obtain ⟨p', bytes', h1', h2', h3'⟩ := h'
  rw [h1] at h1'; cases h1'
  rw [h2] at h2'; cases h2'
  rw [h3] at h3'; cases h3'; rfl

theorem signCoins_ok {S : Secp} (L : Ecdsa S) {E : Ecc} (hE : Backend S E) (H : Bytes → Hash256)
    (h160 : Bytes → Hash160) (pre : Bytes) (flags : SigHashFlags) (coins : List Coin)
    (hk : ∀ coin ∈ coins, SecretKey S coin.sk) (u : UnsignedTx Bytes) (k : Nat)
    (hi : ∀ j coin, coins[j]? = some coin → ∃ i, u.builder.inputs[k + j]? = some i ∧
      IsInput E h160 pre flags coin i)
    (hp : ∀ j, j < coins.length → ∃ p bytes, preimageAt u.txPreimages (k + j) 0 = some p ∧
      Codec.txPreimage.ser p = some bytes)
    (hu : ∀ j, j < coins.length → u.inputs[k + j]? = some none) :
    ∃ u' cs, signCoins E H u k coins = .ok u' ∧ signAll u cs = some u' ∧
      (∀ j, j < coins.length → ∃ t, u'.inputs[k + j]? = some (some t)) ∧
      ∀ call ∈ cs, ∃ j coin sig, coins[j]? = some coin ∧ call = .dyn (k + j) sig.data ∧
        IsSig E H u.txPreimages (k + j) coin sig ∧ sig.data.length ≤ 72 := by
  induction coins generalizing u k with
  | nil => exact ⟨u, [], rfl, rfl, fun j h => absurd h (by simp), fun c hc => by cases hc⟩
  | cons coin rest ih =>
    obtain ⟨p, bytes, hp1, hp2⟩ := hp 0 (by simp)
    obtain ⟨sig, pk, hs1, hs2, _, _, _, hs6, _⟩ := C84_sign_verify S L E E hE hE coin.sk
      (.newUnnamed (H bytes).1) (hk coin (by simp)) (H bytes).2
    obtain ⟨i, hi1, pk', a, hi2, hi3, hi4⟩ := hi 0 coin rfl
    rw [Nat.add_zero] at hp1 hi1
    have hu0 : u.inputs[k]? = some none := hu 0 (by simp)
    obtain ⟨ps, hps, hp0⟩ := Option.bind_eq_some_iff.mp hp1
    have hnew : (SignCall.dyn k sig.data : SignCall Bytes).newInput u =
        some (UnsignedTx.signedInputOf i (P2PKHSignatory.buildScript ⟨pk', flags⟩ sig.data)) := by
      unfold SignCall.newInput
      simp only [SignCall.idx, hi1, hps, Option.bind_some, SignCall.script]
      rw [hi4]
      cases ps with
      | nil => cases hp0
      | cons q qs => rfl
    obtain ⟨u1, hrun⟩ : ∃ u1, (SignCall.dyn k sig.data : SignCall Bytes).run u = some (u1, .ok ()) := by
      rw [SignCall.run_unsigned (c := SignCall.dyn k sig.data) hu0, hnew]
      exact ⟨_, rfl⟩
    obtain ⟨g1, g2, g3, g4, g5, g6, g7, g8⟩ := C39_one_input u _ _ _ hrun
    have hone : signCoin E H u k coin = .ok u1 := by
      unfold signCoin
      simp only [hp1, Res.ofOption, Res.bind_ok, hp2, hs1]
      have : u.signInputDyn k sig.data = some (u1, .ok ()) := hrun
      rw [this]
    obtain ⟨u', cs, f1, f2, f3, f4⟩ := ih (fun c hc => hk c (by simp [hc])) u1 (k + 1)
      (by
        intro j c hj
        obtain ⟨x, h1, h2⟩ := hi (j + 1) c (by simpa using hj)
        exact ⟨x, by rw [g5, show k + 1 + j = k + (j + 1) by omega]; exact h1, h2⟩)
      (by
        intro j hj
        obtain ⟨p', b', h1, h2⟩ := hp (j + 1) (by simpa using hj)
        exact ⟨p', b', by rw [g6, show k + 1 + j = k + (j + 1) by omega]; exact h1, h2⟩)
      (by
        intro j hj
        rw [g1 (k + 1 + j) (by simp only [SignCall.idx]; omega), show k + 1 + j = k + (j + 1) by omega]
        exact hu (j + 1) (by simpa using hj))
    refine ⟨u', .dyn k sig.data :: cs, ?_, ?_, ?_, ?_⟩
    · rw [signCoins, hone, Res.bind_ok, f1]
    · rw [signAll, hrun, Option.bind_some]
      exact f2
    · intro j hj
      cases j with
      | zero =>
        obtain ⟨t, ht⟩ := g2
        exact ⟨t, C39_signed_once u1 u' cs k t ht f2⟩
      | succ j =>
        obtain ⟨t, ht⟩ := f3 j (by simpa using hj)
        exact ⟨t, by rw [← ht]; congr 1; omega⟩
    · intro call hcall
      rcases List.mem_cons.mp hcall with rfl | hcall
      · exact ⟨0, coin, sig, rfl, rfl, ⟨p, bytes, hp1, hp2, hs1⟩, hs6⟩
      · obtain ⟨j, c, sg, h1, h2, h3, h4⟩ := f4 call hcall
        refine ⟨j + 1, c, sg, by simpa using h1, ?_, ?_, h4⟩
        · rw [h2]; congr 1; omega
        · rw [g6] at h3
          rw [show k + (j + 1) = k + 1 + j by omega]
          exact h3

theorem p2pkh_bytes (a : Address) (ha : a.addrType = .P2PKH) :
    a.toScript.serOps = some ([0x76, 0xa9, 20] ++ a.hash.1 ++ [0x88, 0xac]) := by
  have hl : a.hash.1.length = 20 := a.hash.2
  obtain ⟨te, _, tb⟩ := SpendProofs.hash_token a.hash
  unfold Script.serOps
  simp only [Address.toScript, ha, p2pkhScript, serializeOps, te, Res.bind_ok, tb]
  rfl

theorem isInput_p2pkh {E : Ecc} {h160 : Bytes → Hash160} {pre : Bytes} {flags : SigHashFlags} {coin : Coin}
    {i : TxBuilderInput Bytes} (h : IsInput E h160 pre flags coin i) : P2PKHInput some i := by
  obtain ⟨pk, a, _, _, rfl⟩ := h
  exact ⟨coin.input, a.toScript, ⟨pk, flags⟩, rfl⟩

theorem forall₂_get {α β : Type} {R : α → β → Prop} {l : List α} {l' : List β} (h : List.Forall₂ R l l')
    {j : Nat} {x : α} (hx : l[j]? = some x) : ∃ y, l'[j]? = some y ∧ R x y := by
  induction h generalizing j with
  | nil => cases hx
  | cons h1 _ ih =>
    cases j with
    | zero => cases hx; exact ⟨_, rfl, h1⟩
    | succ j => exact ih hx

theorem forall₂_get' {α β : Type} {R : α → β → Prop} {l : List α} {l' : List β} (h : List.Forall₂ R l l')
    {j : Nat} {y : β} (hy : l'[j]? = some y) : ∃ x, l[j]? = some x ∧ R x y := by
  induction h generalizing j with
  | nil => cases hy
  | cons h1 _ ih =>
    cases j with
    | zero => cases hy; exact ⟨_, rfl, h1⟩
    | succ j => exact ih hy

theorem forall₂_map {α β γ : Type} {R : α → β → Prop} {l : List α} {l' : List β} (h : List.Forall₂ R l l')
    (f : α → γ) (g : β → γ) (hfg : ∀ x y, R x y → f x = g y) : l.map f = l'.map g := by
  induction h with
  | nil => rfl
  | cons h1 _ ih => rw [List.map_cons, List.map_cons, hfg _ _ h1, ih]

end PaymentProofs
open PaymentProofs

/-- Spec: the outputs with given values. -/
def Spec.fixedOf (outs : List TxBuilderOutput) : List TxOutput :=
  outs.filterMap fun
    | .knownValue o => some o
    | .leftover .. => none

/-- Spec: the locking script of a public key: DUP HASH160 <hash> EQUALVERIFY CHECKSIG. -/
def Spec.p2pkhLock (c : Crypto) (pk : Pubkey) : Bytes := [0x76, 0xa9, 20] ++ c.hash160 pk.1 ++ [0x88, 0xac]

theorem sizeBound_outputs (n : Nat) (scripts : List Script) : scripts.length ≤ sizeBound n scripts := by
  have : scripts.length ≤ (scripts.map fun s => 17 + (scriptBytes s).length).sum := by
    induction scripts with
    | nil => exact Nat.le_refl _
    | cons s rest ih => simp only [List.map_cons, List.sum_cons, List.length_cons]; omega
  unfold sizeBound
  omega

/-- **C99** (paying): from any coins whose secret keys are known, worth less than 2^64 together, to any fixed
outputs they can pay and any leftover outputs, at any fee rate at which the fee for the largest such transaction
fits into 64 bits, paying goes through. The transaction has a wire form; it has the given version and lock time,
spends exactly the coins, in order, and pays the fixed outputs and some of the leftover outputs, in order; it
spends no more than the coins are worth, and if it has a leftover output it pays the fee rate for its actual size;
and every input is valid for the output it spends. -/
theorem C99_payment (S : Secp) (L : Ecdsa S) (E E' : Ecc) (hE : Backend S E) (hE' : Backend S E')
    (c : Crypto) (hc : ∀ pk m sig, c.verify pk m sig = true ↔ E'.verify pk m sig = .ok true)
    (sz : Layout) (H : Bytes → Hash256) (hH : ∀ x, (H x).1 = c.hash256 x)
    (h160 : Bytes → Hash160) (h160c : ∀ x, (h160 x).1 = c.hash160 x)
    (pre : Bytes) (flags : SigHashFlags) (hf8 : flags.toNat < 256) (hfork : flags.toNat / 64 % 2 = 1)
    (version : Int32) (lockTime : UInt32) (fee : UInt64) (coins : List Coin) (outs : List TxBuilderOutput)
    (hk : ∀ coin ∈ coins, SecretKey S coin.sk)
    (hin : (coins.map (·.input.value.toNat)).sum < 2 ^ 64)
    (hfix : outputSum (fixedOf outs) ≤ (coins.map (·.input.value.toNat)).sum)
    (hs : ∀ o ∈ outs, o.script.Serialisable)
    (hfee : sizeBound coins.length (outs.map (·.script)) * max 1 fee.toNat < 2 ^ 64) :
    ∃ tx bytes, pay sz H h160 E pre flags version lockTime fee coins outs = .ok tx ∧
      (Codec.unhashedTx sz).ser tx = some bytes ∧ bytes = tx.wire.encode ∧
      tx.version = version ∧ tx.lockTime = lockTime ∧
      tx.inputs.map (·.prevOut) = coins.map (·.input.prevOut) ∧
      tx.inputs.map (·.sequence) = coins.map (·.input.sequence) ∧
      (fixedOf outs).Sublist tx.outputs ∧ (tx.outputs.map (·.script)).Sublist (outs.map (·.script)) ∧
      outputSum tx.outputs ≤ (coins.map (·.input.value.toNat)).sum ∧
      ((fixedOf outs).length < tx.outputs.length →
        outputSum tx.outputs + bytes.length * fee.toNat / 1000 ≤ (coins.map (·.input.value.toNat)).sum) ∧
      ∀ (idx : Nat) (coin : Coin) (pk : Pubkey), coins[idx]? = some coin → E.derivePubkey coin.sk = .ok pk →
        SpendOk c tx.wire idx coin.input.value.toNat (p2pkhLock c pk) := by
  obtain ⟨b0, is, a1, a2, a3, a4, a5, a6, a7, a8⟩ := addCoins_ok hE h160 pre flags coins hk
    (newWithFee version lockTime fee) (.newWithFee version lockTime fee)
  obtain ⟨b1, b2, b3, b4, b5, b6⟩ := addOuts_ok outs b0 a2
  generalize hb : addOuts b0 outs = b at *
  rw [a3] at b2
  rw [a7] at b6
  simp only [newWithFee, List.nil_append] at b2 b6 a4 a5 a6
  rw [a4] at b3; rw [a5] at b4; rw [a6] at b5
  have hlen : b.inputs.length = coins.length := by rw [b2, a8.length_eq]
  have hvals : b.inputTotal = (coins.map (·.input.value.toNat)).sum := by
    unfold TxBuilder.inputTotal
    rw [b2, forall₂_map a8 (·.input.value.toNat) (·.input.value.toNat)
      (by rintro x y ⟨pk, a, _, _, rfl⟩; rfl)]
  have hfixed : b.fixedOutputs = fixedOf outs := by
    unfold TxBuilder.fixedOutputs fixedOf
    rw [b6]
    rfl
  have hpk : ∀ i ∈ b.inputs, P2PKHInput some i := by
    intro i hi
    rw [b2] at hi
    obtain ⟨j, hj, rfl⟩ := List.getElem_of_mem hi
    obtain ⟨x, _, h⟩ := forall₂_get' a8 (List.getElem?_eq_getElem hj)
    exact isInput_p2pkh h
  have hmax : sizeBound coins.length (outs.map (·.script)) < 2 ^ 64 := by
    refine Nat.lt_of_le_of_lt ?_ hfee
    exact Nat.le_mul_of_pos_right _ (by omega)
  have hs' : ∀ o ∈ b.outputs, o.script.Serialisable := by rw [b6]; exact hs
  have hest : Estimable sz b := by
    refine p2pkh_estimable sz some b hpk hs' ?_
    rw [hlen, b6, b5]
    exact Nat.lt_of_le_of_lt (Nat.mul_le_mul_left _ (Nat.le_max_right _ _)) hfee
  obtain ⟨u, hu⟩ := (C99_build_returns sz H b (by rw [hvals]; exact hin) (by rw [hfixed]; omega) hest hs').1
    (by rw [hfixed, hvals]; exact hfix)
  have hord := C35_order sz H b u hu
  have hcons := C32_conservation sz H b u hu
  rw [hfixed, b6] at hord
  rw [hvals] at hcons
  obtain ⟨v1, v2, v3⟩ := SpendProofs.built (.inl hu)
  have houts : ∀ o ∈ u.outputs, o.script.Serialisable := by
    intro o ho
    obtain ⟨o', h1, h2⟩ := List.mem_map.mp (hord.2.subset (List.mem_map_of_mem ho))
    rw [← h2]
    exact hs o' h1
  obtain ⟨ps, w1, w2, w3⟩ := C23_preimage_spec H (b.toPreimageTx u.outputs) houts (by
    intro i hi
    obtain ⟨j, _, rfl⟩ := List.mem_map.mp hi
    exact ⟨by simp, by simp⟩)
  rw [v3] at w1
  cases w1
  have hinput : ∀ j coin, coins[j]? = some coin → ∃ i, u.builder.inputs[0 + j]? = some i ∧
      IsInput E h160 pre flags coin i := by
    intro j coin hj
    obtain ⟨i, h1, h2⟩ := forall₂_get a8 hj
    exact ⟨i, by rw [v1, b2, Nat.zero_add]; exact h1, h2⟩
  have hpre : ∀ j, j < coins.length → ∃ p bytes, preimageAt u.txPreimages (0 + j) 0 = some p ∧
      Codec.txPreimage.ser p = some bytes := by
    intro j hj
    obtain ⟨i, h1, pk, a, h2, h3, rfl⟩ := hinput j _ (List.getElem?_eq_getElem hj)
    rw [v1] at h1
    have h4 : (b.toPreimageTx u.outputs).inputs[0 + j]? = some ⟨coins[j].input.prevOut,
        coins[j].input.sequence, [flags], some a.toScript, some coins[j].input.value⟩ := by
      simp only [toPreimageTx, List.getElem?_map, h1, Option.map_some, Option.getD_some]
    obtain ⟨p, h5, h6, _⟩ := (w3 _ _ h4).2 0 flags a.toScript _ rfl rfl rfl
    have hty : a.addrType = .P2PKH := by
      obtain ⟨_, _, rfl⟩ := Option.map_eq_some_iff.mp h3; rfl
    have hcode : p.scriptCode = a.toScript := by
      have hno : ∀ op ∈ a.toScript, op ≠ .code .OP_CODESEPARATOR := by
        simp only [Address.toScript, hty, p2pkhScript]
        intro op hop
        simp only [List.mem_cons, List.not_mem_nil, or_false] at hop
        rcases hop with rfl | rfl | rfl | rfl | rfl <;> simp
      rcases h6 with ⟨_, h6⟩ | ⟨q, h6, _⟩
      · exact h6
      · exact absurd rfl (hno _ (by rw [h6]; simp))
    refine ⟨p, _, h5, C14_preimage_wire_format p ?_⟩
    rw [hcode]
    refine ⟨_, p2pkh_bytes a hty, ?_⟩
    have := a.hash.2
    simp only [List.length_append, List.length_cons, List.length_nil]
    omega
  have hnone : ∀ j, j < coins.length → u.inputs[0 + j]? = some none := by
    intro j hj
    obtain ⟨i, h1, pk, a, h2, h3, rfl⟩ := hinput j _ (List.getElem?_eq_getElem hj)
    rw [v1] at h1
    rw [v2]
    simp only [prefilled, List.getElem?_map, h1, Option.map_some]
    rfl
  obtain ⟨u', cs, s1, s2, s3, s4⟩ := signCoins_ok L hE H h160 pre flags coins hk u 0 hinput hpre hnone
  have hreach : u.Reach := .build b1 hu
  have hreach' := SpendProofs.reach_signAll hreach s2
  obtain ⟨g1, g2, g3, g4⟩ := signAll_same s2
  have hall : ∀ o ∈ u'.inputs, o ≠ none := by
    intro o ho
    obtain ⟨j, hj, rfl⟩ := List.getElem_of_mem ho
    have hl : u'.inputs.length = coins.length := by
      have h1 := hreach'.good.length
      rw [g1, v1] at h1
      omega
    obtain ⟨t, ht⟩ := s3 j (by omega)
    rw [Nat.zero_add, List.getElem?_eq_getElem hj] at ht
    rw [Option.some.inj ht]
    simp
  obtain ⟨tx, htx⟩ := (C40_complete u' hreach').1.mpr hall
  have hC : Completed sz H b u cs tx := ⟨b1, .inl hu, ⟨u', s2, htx⟩, houts⟩
  obtain ⟨x1, x2, x3, x4, x5⟩ := SpendProofs.completed_wire hC
  obtain ⟨n, ⟨bytes, hbytes, rfl⟩, _, hpaid⟩ := C37_p2pkh sz H some b u u' cs tx hpk hu (by
    intro call hcall
    obtain ⟨j, coin, sig, _, h2, _, h4⟩ := s4 call hcall
    exact ⟨_, _, _, h2, rfl, h4⟩) s2 htx
  rw [hfixed, b5, hvals] at hpaid
  have hwire : bytes = tx.wire.encode := by
    have h := C14_wire_format sz tx ⟨?_, ?_⟩ ⟨?_, ?_⟩
    · rw [hbytes] at h; exact Option.some.inj h
    · have h1 := congrArg List.length x4
      simp only [List.length_map] at h1
      unfold sizeBound at hmax
      omega
    · intro t ht
      obtain ⟨j, hj, rfl⟩ := List.getElem_of_mem ht
      have hm := ((C40_complete u' hreach').2 tx htx).2.2.2.1
      have hjl : j < coins.length := by
        have h1 := congrArg List.length x4
        simp only [List.length_map] at h1
        omega
      have ht' : u'.inputs[j]? = some (some tx.inputs[j]) := by
        rw [← hm, List.getElem?_map, List.getElem?_eq_getElem hj]; rfl
      have hn := hnone j hjl
      rw [Nat.zero_add] at hn
      obtain ⟨call, hcall, hidx, bi, ps', script, q1, q2, q3, q4⟩ :=
        C39_signed_by_call u u' cs j _ hn s2 ht'
      obtain ⟨j', coin, sig, _, h2, _, h4⟩ := s4 call hcall
      obtain ⟨i, h5, pk, a, _, _, rfl⟩ := hinput j _ (List.getElem?_eq_getElem hjl)
      rw [Nat.zero_add] at h5
      rw [q1] at h5
      cases h5
      rw [h2] at hidx q3
      simp only [SignCall.idx] at hidx
      rw [hidx] at q3
      simp only [SignCall.script, q1, Option.bind_some] at q3
      have hsc : script = P2PKHSignatory.buildScript ⟨pk, flags⟩ sig.data := by
        cases ps' with
        | nil => cases q3
        | cons p ps' => cases q3; rfl
      rw [q4]
      obtain ⟨m, hm1, hm2, _⟩ := p2pkhUnlock_len ⟨pk, flags⟩ sig.data h4
      obtain ⟨bs, hbs, rfl⟩ := Option.map_eq_some_iff.mp hm1
      exact ⟨bs, by rw [← hbs, ← hsc]; rfl, by omega⟩
    · have h1 := hord.2.length_le
      simp only [List.length_map] at h1
      have h2 := sizeBound_outputs coins.length (outs.map (·.script))
      simp only [List.length_map] at h2
      rw [x3]
      omega
    · rw [x3]; exact houts
  refine ⟨tx, bytes, ?_, hbytes, hwire, x1.trans b3, x2.trans b4, ?_, ?_, ?_, ?_, ?_, ?_, ?_⟩
  · unfold pay
    rw [a1, Res.bind_ok, hb, hu, Res.bind_ok, s1, Res.bind_ok, htx]
    rfl
  · rw [x4, b2]
    exact (forall₂_map a8 _ _ (by rintro x y ⟨pk, a, _, _, rfl⟩; rfl)).symm
  · rw [x5, b2]
    exact (forall₂_map a8 _ _ (by rintro x y ⟨pk, a, _, _, rfl⟩; rfl)).symm
  · rw [x3]; exact hord.1
  · rw [x3]; exact hord.2
  · rw [x3]; exact hcons
  · rw [x3] at hpaid ⊢; exact hpaid
  · intro idx coin pk hcoin hd
    obtain ⟨i, h1, pk', a, h2, h3, rfl⟩ := hinput idx coin hcoin
    rw [hd] at h2
    cases h2
    have hidx : idx < coins.length := by
      by_contra hge
      rw [List.getElem?_eq_none (by omega)] at hcoin
      cases hcoin
    obtain ⟨p, pb, hp1, hp2⟩ := hpre idx hidx
    rw [Nat.zero_add] at hp1 h1
    rw [v1] at h1
    have hty : a.addrType = .P2PKH ∧ a.hash = h160 pk.1 := by
      obtain ⟨_, _, rfl⟩ := Option.map_eq_some_iff.mp h3; exact ⟨rfl, rfl⟩
    have hlock : scriptBytes a.toScript = p2pkhLock c pk := by
      unfold scriptBytes p2pkhLock
      rw [p2pkh_bytes a hty.1, Option.getD_some, hty.2, h160c]
    rw [← hlock]
    obtain ⟨sig, _, hs1, _⟩ := C84_sign_verify S L E E hE hE coin.sk (.newUnnamed (H pb).1)
      (hk coin (List.mem_of_getElem? hcoin)) (H pb).2
    refine C84_spend S L E E' hE hE' c hc sz H hH h160 h160c b u cs tx hC idx coin.input coin.sk ⟨pk, flags⟩ hd pre a
      h3 some ?_ hf8 hfork p pb hp1 hp2 (.newUnnamed (H pb).1) sig rfl hs1 ?_
    · refine ⟨{ b with inputs := b.inputs.take idx }, ?_, ?_⟩
      · simp only [addInput, List.length_take]
        omega
      · simp only [addInput]
        refine ⟨b.inputs.drop (idx + 1), ?_⟩
        have hlt : idx < b.inputs.length := by omega
        rw [List.getElem?_eq_getElem hlt] at h1
        have h1' := Option.some.inj h1
        calc _ = b.inputs.take idx ++ b.inputs[idx] :: b.inputs.drop (idx + 1) := by
              rw [h1', List.append_assoc]; rfl
          _ = b.inputs := by rw [← List.drop_eq_getElem_cons hlt, List.take_append_drop]
    · intro call hcall hidx'
      obtain ⟨j, coin', sig', h4, h5, h6, _⟩ := s4 call hcall
      rw [h5] at hidx'
      simp only [SignCall.idx] at hidx'
      rw [hidx'] at h5 h6
      rw [show j = idx by omega, hcoin] at h4
      cases h4
      have := h6.unique ⟨p, pb, hp1, hp2, hs1⟩
      exact .inr ⟨sig'.data, h5, by rw [this]⟩

/-- **C99** (not enough): if the coins cannot pay the fixed outputs, paying is refused with the missing amount, and
nothing is signed. -/
theorem C99_insufficient (S : Secp) (E : Ecc) (hE : Backend S E) (sz : Layout) (H : Bytes → Hash256)
    (h160 : Bytes → Hash160) (pre : Bytes) (flags : SigHashFlags)
    (version : Int32) (lockTime : UInt32) (fee : UInt64) (coins : List Coin) (outs : List TxBuilderOutput)
    (hk : ∀ coin ∈ coins, SecretKey S coin.sk) (hfix : outputSum (fixedOf outs) < 2 ^ 64)
    (hless : (coins.map (·.input.value.toNat)).sum < outputSum (fixedOf outs)) :
    pay sz H h160 E pre flags version lockTime fee coins outs =
      .err (.insufficientInputAmount
        (outputSum (fixedOf outs) - (coins.map (·.input.value.toNat)).sum)) := by
  obtain ⟨b0, is, a1, a2, a3, a4, a5, a6, a7, a8⟩ := addCoins_ok hE h160 pre flags coins hk
    (newWithFee version lockTime fee) (.newWithFee version lockTime fee)
  obtain ⟨b1, b2, b3, b4, b5, b6⟩ := addOuts_ok outs b0 a2
  unfold pay
  rw [a1, Res.bind_ok]
  generalize addOuts b0 outs = b at *
  rw [a3] at b2
  rw [a7] at b6
  simp only [newWithFee, List.nil_append] at b2 b6
  have hvals : b.inputTotal = (coins.map (·.input.value.toNat)).sum := by
    unfold TxBuilder.inputTotal
    rw [b2, forall₂_map a8 (·.input.value.toNat) (·.input.value.toNat)
      (by rintro x y ⟨pk, a, _, _, rfl⟩; rfl)]
  have hfixed : b.fixedOutputs = fixedOf outs := by
    unfold TxBuilder.fixedOutputs fixedOf
    rw [b6]
    rfl
  rw [(C32_insufficient sz H b (by rw [hvals]; omega) (by rw [hfixed]; exact hfix)).1
    (by rw [hfixed, hvals]; exact hless), hfixed, hvals]
  rfl

/-- **C99** (no key): if one of the given secret keys is none, paying is refused. -/
theorem C99_no_key (S : Secp) (E : Ecc) (hE : Backend S E) (sz : Layout) (H : Bytes → Hash256)
    (h160 : Bytes → Hash160) (pre : Bytes) (flags : SigHashFlags)
    (version : Int32) (lockTime : UInt32) (fee : UInt64) (coins rest : List Coin) (coin : Coin)
    (outs : List TxBuilderOutput) (hk : ∀ coin ∈ coins, SecretKey S coin.sk) (hno : ¬ SecretKey S coin.sk) :
    pay sz H h160 E pre flags version lockTime fee (coins ++ coin :: rest) outs =
      .err (.invalidSize 32 coin.sk.length) := by
  have h : ∀ b : TxBuilder Bytes, b.Reach → addCoins E h160 pre flags b (coins ++ coin :: rest) =
      .err (.invalidSize 32 coin.sk.length) := by
    induction coins with
    | nil =>
      intro b _
      rw [List.nil_append, addCoins, addCoin, ((C84_sign_errors S E hE coin.sk (.newUnnamed [])).1 hno).2]
      rfl
    | cons x xs ih =>
      intro b hb
      obtain ⟨b', is, a1, a2, _⟩ := addCoins_ok hE h160 pre flags [x] (by
        intro y hy
        rw [List.mem_singleton] at hy
        rw [hy]; exact hk x (by simp)) b hb
      rw [addCoins] at a1
      rw [List.cons_append, addCoins]
      cases hx : addCoin E h160 pre flags b x with
      | ok b1 =>
        rw [hx, Res.bind_ok, addCoins] at a1
        cases a1
        rw [Res.bind_ok]
        exact ih (fun y hy => hk y (by simp [hy])) b' a2
      | err e => rw [hx] at a1; cases a1
      | panic => rw [hx] at a1; cases a1
  unfold pay
  rw [h _ (.newWithFee version lockTime fee)]
  rfl

/-- **C99** (building returns) fails without its conditions: amounts of 2^64 and more are a panic. -/
theorem C99_amounts_fails (sz : Layout) (H : Bytes → Hash256) (b : TxBuilder Dyn)
    (h : 2 ^ 64 ≤ b.inputTotal ∨ 2 ^ 64 ≤ outputSum b.fixedOutputs) : b.build sz H = .panic := by
  unfold build
  by_cases hf : outputSum b.fixedOutputs < 2 ^ 64
  · have h2 : b.inputSum = none := by
      unfold inputSum sumU64
      rw [List.map_map]
      exact if_neg (by
        have : (b.inputs.map (·.input.value.toNat)).sum = b.inputTotal := rfl
        simp only [Function.comp_def]
        omega)
    have h1 : b.knownOutputSum = some (outputSum b.fixedOutputs) := by
      unfold knownOutputSum sumU64
      rw [knownSum_fixed]
      exact if_pos hf
    rw [h1, h2]
    rfl
  · have h1 : b.knownOutputSum = none := by
      unfold knownOutputSum sumU64
      rw [knownSum_fixed]
      exact if_neg hf
    rw [h1]
    rfl

/-- **C99** (building returns) fails without its conditions: with a leftover output, a fee rate at which the fee
(for 1000 times the size) does not fit into 64 bits is a panic and not an error, although the rate may be set. -/
theorem C99_fee_fails (sz : Layout) (H : Bytes → Hash256) :
    (∃ u, (((fromTx ⟨1, [⟨⟨.zero, 0⟩, [.code .OP_1], 0, none, some 1000, none, none⟩], [], 0⟩ :
      TxBuilder Unit).addLeftoverOutput [.code .OP_1]).setFeePerKb 1000).build sz H = .ok u) ∧
    (((fromTx ⟨1, [⟨⟨.zero, 0⟩, [.code .OP_1], 0, none, some 1000, none, none⟩], [], 0⟩ :
      TxBuilder Unit).addLeftoverOutput [.code .OP_1]).setFeePerKb
        (UInt64.ofNat (2 ^ 64 - 1))).build sz H = .panic :=
  ⟨⟨_, rfl⟩, rfl⟩

/-! ### Examples -/

/-- Two coins of the toy scheme and their keys. -/
def toyCoins : List Coin :=
  [⟨toyKey, exampleSpendInput 0⟩, ⟨List.replicate 31 0 ++ [9], exampleSpendInput 1⟩]

/-- A payment and change. -/
def toyOuts : List TxBuilderOutput :=
  [.knownValue ⟨12000, toyAddress.toScript⟩, .leftover 546 18446744073709551615 0 toyAddress.toScript]

example : ∃ tx bytes, pay ⟨1, 1⟩ exampleHash (fun _ => ⟨List.replicate 20 7, rfl⟩) toySecp.rustEcc
      (Prefix.str .bitcoinCash) SigHashFlags.DEFAULT 1 0 1000 toyCoins toyOuts = .ok tx ∧
    (Codec.unhashedTx ⟨1, 1⟩).ser tx = some bytes ∧
    SpendOk toyCrypto tx.wire 1 (exampleSpendInput 1).value.toNat (p2pkhLock toyCrypto ⟨9 :: List.replicate 32 0, rfl⟩) := by
  obtain ⟨tx, bytes, h1, h2, _, _, _, _, _, _, _, _, _, h3⟩ := C99_payment toySecp toyEcdsa toySecp.rustEcc
    toySecp.cEcc .rust .c toyCrypto (fun pk m sig => by simp only [toyCrypto, beq_iff_eq]) ⟨1, 1⟩ exampleHash
    (fun _ => rfl) (fun _ => ⟨List.replicate 20 7, rfl⟩) (fun x => rfl) (Prefix.str .bitcoinCash)
    SigHashFlags.DEFAULT (by decide) (by decide) 1 0 1000 toyCoins toyOuts (by
      intro coin hcoin
      simp only [toyCoins, List.mem_cons, List.not_mem_nil, or_false] at hcoin
      rcases hcoin with rfl | rfl
      · exact ⟨rfl, by decide, by decide⟩
      · exact ⟨rfl, by decide, by decide⟩)
    (by decide) (by decide) (by
      intro o ho
      simp only [toyOuts, List.mem_cons, List.not_mem_nil, or_false] at ho
      rcases ho with rfl | rfl
      · exact ⟨_, p2pkh_bytes toyAddress rfl, by decide⟩
      · exact ⟨_, p2pkh_bytes toyAddress rfl, by decide⟩)
    (by decide +kernel)
  have hd : toySecp.rustEcc.derivePubkey (List.replicate 31 0 ++ [9]) =
      .ok ⟨9 :: List.replicate 32 0, rfl⟩ := rfl
  exact ⟨tx, bytes, h1, h2, h3 1 ⟨List.replicate 31 0 ++ [9], exampleSpendInput 1⟩ _ rfl hd⟩

/-- What is paid: 12000, and the change after a fee of 376. -/
example : (match pay ⟨1, 1⟩ exampleHash (fun _ => ⟨List.replicate 20 7, rfl⟩) toySecp.rustEcc
      (Prefix.str .bitcoinCash) SigHashFlags.DEFAULT 1 0 1000 toyCoins toyOuts with
    | .ok tx => tx.outputs.map (·.value)
    | _ => []) = [12000, 7624] := by decide +kernel

theorem toyCoins_keys : ∀ coin ∈ toyCoins, SecretKey toySecp coin.sk := by
  intro coin hcoin
  simp only [toyCoins, List.mem_cons, List.not_mem_nil, or_false] at hcoin
  rcases hcoin with rfl | rfl
  · exact ⟨rfl, by decide, by decide⟩
  · exact ⟨rfl, by decide, by decide⟩

/-- `C99_insufficient`: 10000 are missing to pay 30000 from two coins of 10000. -/
example : pay ⟨1, 1⟩ exampleHash (fun _ => ⟨List.replicate 20 7, rfl⟩) toySecp.rustEcc (Prefix.str .bitcoinCash)
      SigHashFlags.DEFAULT 1 0 1000 toyCoins [.knownValue ⟨30000, toyAddress.toScript⟩] =
    .err (.insufficientInputAmount 10000) :=
  C99_insufficient toySecp toySecp.rustEcc .rust ⟨1, 1⟩ exampleHash _ _ _ 1 0 1000 toyCoins
    [.knownValue ⟨30000, toyAddress.toScript⟩] toyCoins_keys (by decide) (by decide)

/-- `C99_no_key`: a third coin with a key of 31 bytes. -/
example : pay ⟨1, 1⟩ exampleHash (fun _ => ⟨List.replicate 20 7, rfl⟩) toySecp.rustEcc (Prefix.str .bitcoinCash)
      SigHashFlags.DEFAULT 1 0 1000 (toyCoins ++ [⟨List.replicate 31 1, exampleSpendInput 2⟩]) toyOuts =
    .err (.invalidSize 32 31) :=
  C99_no_key toySecp toySecp.rustEcc .rust ⟨1, 1⟩ exampleHash _ _ _ 1 0 1000 toyCoins []
    ⟨List.replicate 31 1, exampleSpendInput 2⟩ toyOuts toyCoins_keys (fun h => absurd h.1 (by decide))

/-- `C99_build_returns`: the builder of `Props/Signing` builds. -/
example : ∃ u, exampleP2PKH.build ⟨1, 1⟩ exampleHash = .ok u := by
  have hs : ∀ o ∈ exampleP2PKH.outputs, o.script.Serialisable := by
    intro o ho
    rcases List.mem_cons.mp ho with rfl | ho
    · exact ⟨_, rfl, by decide⟩
    · rcases List.mem_singleton.mp ho with rfl
      exact ⟨_, rfl, by decide⟩
  exact (C99_build_returns ⟨1, 1⟩ exampleHash exampleP2PKH (by decide) (by decide)
    (p2pkh_estimable ⟨1, 1⟩ some exampleP2PKH exampleP2PKH_inputs hs (by decide +kernel)) hs).1 (by decide)

end BCash
