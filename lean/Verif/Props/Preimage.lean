import Verif.Props.Codec
import Verif.Spec.Sighash

/-! # C23, C24: signature preimages -/

namespace BCash
open Codec Spec

/-- `code` is the part of `lock` after its first code separator, or all of it if there is none. -/
def IsScriptCode (lock code : Script) : Prop :=
  ((∀ op ∈ lock, op ≠ .code .OP_CODESEPARATOR) ∧ code = lock) ∨
  ∃ pre, lock = pre ++ .code .OP_CODESEPARATOR :: code ∧ ∀ op ∈ pre, op ≠ .code .OP_CODESEPARATOR

theorem isScriptCode_first (s : Script) : IsScriptCode s s.toScriptCodeFirst := by
  by_cases h : ∀ op ∈ s, op ≠ .code .OP_CODESEPARATOR
  · exact .inl ⟨h, (C25_script_code_first s).1 h⟩
  · right
    have : ∃ pre post, s = pre ++ .code .OP_CODESEPARATOR :: post ∧
        ∀ op ∈ pre, op ≠ .code .OP_CODESEPARATOR := by
      induction s with
      | nil => exact absurd (by simp) h
      | cons op ops ih =>
        by_cases ho : op = .code .OP_CODESEPARATOR
        · exact ⟨[], ops, by simp [ho], by simp⟩
        · have : ¬ ∀ op ∈ ops, op ≠ .code .OP_CODESEPARATOR := by
            intro hc
            apply h
            intro x hx
            simp only [List.mem_cons] at hx
            rcases hx with rfl | hx
            · exact ho
            · exact hc x hx
          obtain ⟨pre, post, rfl, hp⟩ := ih this
          refine ⟨op :: pre, post, rfl, ?_⟩
          intro x hx
          simp only [List.mem_cons] at hx
          rcases hx with rfl | hx
          · exact ho
          · exact hp x hx
    obtain ⟨pre, post, h1, h2⟩ := this
    have := (C25_script_code_first s).2 pre post h1 h2
    exact ⟨pre, by rw [this]; exact h1, h2⟩

/-! ## Flags as numbers -/

theorem contains_acp (f : SigHashFlags) :
    SigHashFlags.contains f .ANYONECANPAY = anyoneCanPay f.toNat := by
  have h : (f &&& SigHashFlags.ANYONECANPAY).toNat = (f.toNat.testBit 7).toNat * 2 ^ 7 := by
    rw [UInt32.toNat_and]
    show f.toNat &&& 2 ^ 7 = _
    apply Nat.eq_of_testBit_eq
    intro i
    rw [Nat.testBit_and, Nat.testBit_two_pow]
    by_cases hi : 7 = i
    · subst hi
      cases f.toNat.testBit 7 <;> first | rfl | decide
    · cases f.toNat.testBit 7
      · simp [hi]
      · rw [Bool.toNat_true, Nat.one_mul, Nat.testBit_two_pow]; simp [hi]
  have ht : f.toNat.testBit 7 = decide (f.toNat / 128 % 2 = 1) := by
    rw [Nat.testBit_eq_decide_div_mod_eq]
  unfold SigHashFlags.contains anyoneCanPay
  rw [← ht]
  cases hb : f.toNat.testBit 7
  · rw [hb] at h
    rw [beq_eq_false_iff_ne]
    intro he
    rw [he] at h
    exact absurd h (by decide)
  · rw [hb] at h
    rw [beq_iff_eq]
    exact UInt32.toNat_inj.mp (by rw [h]; rfl)

theorem mask_eq (f : SigHashFlags) : (f &&& SigHashFlags.MASK).toNat = baseType f.toNat := by
  rw [UInt32.toNat_and]
  exact Nat.and_two_pow_sub_one_eq_mod f.toNat 5

theorem mask_single (f : SigHashFlags) :
    ((f &&& SigHashFlags.MASK) == SigHashFlags.SINGLE) = decide (baseType f.toNat = 3) := by
  rw [← mask_eq]
  by_cases h : (f &&& SigHashFlags.MASK) = SigHashFlags.SINGLE
  · rw [h]; rfl
  · have : (f &&& SigHashFlags.MASK).toNat ≠ 3 := fun hc => h (UInt32.toNat_inj.mp hc)
    rw [beq_eq_false_iff_ne.mpr h, decide_eq_false this]

theorem mask_none (f : SigHashFlags) :
    ((f &&& SigHashFlags.MASK) == SigHashFlags.NONE) = decide (baseType f.toNat = 2) := by
  rw [← mask_eq]
  by_cases h : (f &&& SigHashFlags.MASK) = SigHashFlags.NONE
  · rw [h]; rfl
  · have : (f &&& SigHashFlags.MASK).toNat ≠ 2 := fun hc => h (UInt32.toNat_inj.mp hc)
    rw [beq_eq_false_iff_ne.mpr h, decide_eq_false this]

/-! ## The result list -/

theorem mapM_some {α β : Type} {f : α → Option β} {l : List α} {r : List β}
    (h : l.mapM f = some r) :
    l.length = r.length ∧ ∀ (i : Nat) (a : α), l[i]? = some a → ∃ b, r[i]? = some b ∧ f a = some b := by
  induction l generalizing r with
  | nil =>
    simp only [List.mapM_nil] at h
    cases h
    simp
  | cons x xs ih =>
    rw [List.mapM_cons] at h
    obtain ⟨b, hb, h⟩ := Option.bind_eq_some_iff.mp h
    obtain ⟨bs, hbs, h⟩ := Option.bind_eq_some_iff.mp h
    cases h
    obtain ⟨hl, hi⟩ := ih hbs
    refine ⟨by simp [hl], fun i a ha => ?_⟩
    cases i with
    | zero => simp at ha; subst ha; exact ⟨b, by simp, hb⟩
    | succ i => simp at ha; obtain ⟨y, h1, h2⟩ := hi i a ha; exact ⟨y, by simpa using h1, h2⟩

theorem mapM_isSome {α β : Type} {f : α → Option β} {l : List α}
    (h : ∀ a ∈ l, ∃ b, f a = some b) : ∃ r, l.mapM f = some r := by
  induction l with
  | nil => exact ⟨[], rfl⟩
  | cons x xs ih =>
    obtain ⟨b, hb⟩ := h x (by simp)
    obtain ⟨bs, hbs⟩ := ih (fun a ha => h a (by simp [ha]))
    exact ⟨b :: bs, by rw [List.mapM_cons, hb, hbs]; rfl⟩

/-- The preimage for input `idx` and its `k`-th flag set. -/
def preimageAt (ps : List (List TxPreimage)) (idx k : Nat) : Option TxPreimage :=
  (ps[idx]?).bind fun l => l[k]?

theorem buildPreimages_at {H : Bytes → Hash256} {tx : PreimageTx} {ps : List (List TxPreimage)}
    (h : buildPreimages H tx = some ps) :
    ∃ hp hs ho, hashAllPrevouts H tx = some hp ∧ hashAllSequences H tx = some hs ∧
      hashAllOutputs H tx = some ho ∧ ps.length = tx.inputs.length ∧
      (∀ (idx : Nat) (l : List TxPreimage) (inp : PreimageInput), ps[idx]? = some l →
        tx.inputs[idx]? = some inp → l.length = inp.sigHashFlags.length) ∧
      ∀ (idx k : Nat) (inp : PreimageInput) (f : SigHashFlags), tx.inputs[idx]? = some inp →
        inp.sigHashFlags[k]? = some f →
        ∃ p, preimageAt ps idx k = some p ∧ buildPreimage H tx idx inp f hp hs ho = some p := by
  unfold buildPreimages at h
  obtain ⟨hp, h1, h⟩ := Option.bind_eq_some_iff.mp h
  obtain ⟨hs, h2, h⟩ := Option.bind_eq_some_iff.mp h
  obtain ⟨ho, h3, h⟩ := Option.bind_eq_some_iff.mp h
  obtain ⟨hl, hi⟩ := mapM_some h
  refine ⟨hp, hs, ho, h1, h2, h3, by simpa using hl.symm, ?_, ?_⟩
  · intro idx l inp hps hinp
    obtain ⟨l', h4, h5⟩ := hi idx (inp, idx) (by simp [List.getElem?_zipIdx, hinp])
    rw [hps] at h4
    cases h4
    exact (mapM_some h5).1.symm
  · intro idx k inp f hinp hf
    obtain ⟨l', h4, h5⟩ := hi idx (inp, idx) (by simp [List.getElem?_zipIdx, hinp])
    obtain ⟨p, h6, h7⟩ := (mapM_some h5).2 k f hf
    exact ⟨p, by simp [preimageAt, h4, h6], h7⟩

/-! ## C23 -/

/-- The transaction being signed, as plain data (unlocking scripts are not part of preimages). -/
def PreimageInput.wire (i : PreimageInput) : WireInput :=
  ⟨i.outpoint.txHash.1, i.outpoint.vout.toNat, [], i.sequence.toNat⟩
def PreimageTx.wire (t : PreimageTx) : WireTx :=
  ⟨t.version.toInt, t.inputs.map PreimageInput.wire, t.outputs.map TxOutput.wire, t.lockTime.toNat⟩

theorem ser_outpoint (o : TxOutpoint) :
    Codec.txOutpoint.ser o = some (o.txHash.1 ++ leBytes 4 o.vout.toNat) := rfl

theorem hashAllPrevouts_eq (H : Bytes → Hash256) (t : PreimageTx) :
    hashAllPrevouts H t =
      some (H (t.wire.inputs.map fun i => i.txid ++ leBytes 4 i.vout).flatten) := by
  unfold hashAllPrevouts
  rw [serMany_map (f := fun o => o.txHash.1 ++ leBytes 4 o.vout.toNat) _ (fun v _ => ser_outpoint v)]
  simp only [Option.map_some, PreimageTx.wire, List.map_map]
  rfl

theorem hashAllSequences_eq (H : Bytes → Hash256) (t : PreimageTx) :
    hashAllSequences H t = some (H (t.wire.inputs.map fun i => leBytes 4 i.sequence).flatten) := by
  unfold hashAllSequences
  rw [serMany_map (f := fun o => leBytes 4 o.toNat) _ (fun v _ => ser_u32 v)]
  simp only [Option.map_some, PreimageTx.wire, List.map_map]
  rfl

theorem hashAllOutputs_eq (H : Bytes → Hash256) (t : PreimageTx)
    (h : ∀ o ∈ t.outputs, o.script.Serialisable) :
    hashAllOutputs H t = some (H (t.wire.outputs.map WireOutput.encode).flatten) := by
  unfold hashAllOutputs serAllOutputs
  rw [serMany_map _ (fun v hv => ser_output v (h v hv))]
  simp only [Option.map_some, PreimageTx.wire, List.map_map]
  rfl

theorem buildPreimage_spec (H : Bytes → Hash256) (t : PreimageTx) (idx : Nat) (inp : PreimageInput)
    (f : SigHashFlags) (lock : Script) (value : UInt64) (hp hs ho : Hash256)
    (hout : ∀ o ∈ t.outputs, o.script.Serialisable)
    (hl : inp.lockScript = some lock) (hv : inp.value = some value)
    (h1 : hashAllPrevouts H t = some hp) (h2 : hashAllSequences H t = some hs)
    (h3 : hashAllOutputs H t = some ho) :
    ∃ p, buildPreimage H t idx inp f hp hs ho = some p ∧ IsScriptCode lock p.scriptCode ∧
      p.wire = sighashPreimage (fun b => (H b).1) t.wire idx inp.wire value.toNat
        (scriptBytes p.scriptCode) f.toNat := by
  rw [hashAllPrevouts_eq] at h1
  rw [hashAllSequences_eq] at h2
  rw [hashAllOutputs_eq H t hout] at h3
  cases h1; cases h2; cases h3
  have hbo : ∀ o, t.outputs[idx]? = some o →
      ((t.outputs[idx]?).bind fun o => (Codec.txOutput.ser o).map H) = some (H o.wire.encode) := by
    intro o ho
    rw [ho, Option.bind_some, ser_output o (hout o (List.mem_of_getElem? ho))]
    rfl
  have hwo : t.wire.outputs[idx]? = (t.outputs[idx]?).map TxOutput.wire := by
    simp [PreimageTx.wire]
  unfold buildPreimage
  simp only [contains_acp, mask_single, mask_none, bne]
  by_cases hnone : baseType f.toNat = 2
  · have hns : baseType f.toNat ≠ 3 := by omega
    simp only [hnone, hl, hv, decide_true, Bool.not_true, Bool.and_false, Bool.false_eq_true,
      if_false, Bool.and_true]
    refine ⟨_, rfl, isScriptCode_first lock, ?_⟩
    simp only [TxPreimage.wire, sighashPreimage, Spec.hashPrevouts, Spec.hashSequence,
      Spec.hashOutputs, hnone, PreimageInput.wire]
    cases anyoneCanPay f.toNat <;> rfl
  · by_cases hsingle : baseType f.toNat = 3
    · cases ho : t.outputs[idx]? with
      | none =>
        have hlen : ¬ idx < t.outputs.length := by
          rw [List.getElem?_eq_none_iff] at ho; omega
        simp only [hsingle, hl, hv, decide_true, Bool.not_true, Bool.and_false, Bool.false_eq_true,
          if_false, Bool.and_true, Bool.false_and, hlen, decide_false]
        refine ⟨_, rfl, isScriptCode_first lock, ?_⟩
        simp only [TxPreimage.wire, sighashPreimage, Spec.hashPrevouts, Spec.hashSequence,
          Spec.hashOutputs, hsingle, PreimageInput.wire, hwo, ho]
        cases anyoneCanPay f.toNat <;> rfl
      | some o =>
        have hlen : idx < t.outputs.length := by
          rw [List.getElem?_eq_some_iff] at ho; exact ho.1
        have hb := hbo o ho
        simp only [ho] at hb
        simp only [hsingle, hl, hv, decide_true, Bool.not_true, Bool.and_false, Bool.false_eq_true,
          if_false, Bool.and_true, Bool.false_and, hlen, if_true, ho, hb]
        refine ⟨_, rfl, isScriptCode_first lock, ?_⟩
        simp only [TxPreimage.wire, sighashPreimage, Spec.hashPrevouts, Spec.hashSequence,
          Spec.hashOutputs, hsingle, PreimageInput.wire, hwo, ho]
        cases anyoneCanPay f.toNat <;> rfl
    · simp only [hsingle, hnone, hl, hv, decide_false, Bool.not_false, Bool.and_true, if_true]
      refine ⟨_, rfl, isScriptCode_first lock, ?_⟩
      simp only [TxPreimage.wire, sighashPreimage, Spec.hashPrevouts, Spec.hashSequence,
        Spec.hashOutputs, hsingle, hnone, PreimageInput.wire, if_false]
      cases anyoneCanPay f.toNat <;> rfl

/-- **C23**: whenever the values and locking scripts of all inputs are known and the output scripts
can be serialised, building the preimages succeeds with one list per input and one preimage per flag
set, and each preimage is the one specified by BIP143: all ten fields, for every flag combination.
With `C14_preimage_wire_format` its bytes are the BIP143 bytes. -/
theorem C23_preimage_spec (H : Bytes → Hash256) (t : PreimageTx)
    (hout : ∀ o ∈ t.outputs, o.script.Serialisable)
    (hin : ∀ i ∈ t.inputs, i.lockScript ≠ none ∧ i.value ≠ none) :
    ∃ ps, buildPreimages H t = some ps ∧ ps.length = t.inputs.length ∧
      ∀ (idx : Nat) (inp : PreimageInput), t.inputs[idx]? = some inp →
        (∃ l, ps[idx]? = some l ∧ l.length = inp.sigHashFlags.length) ∧
        ∀ (k : Nat) (f : SigHashFlags) (lock : Script) (value : UInt64),
          inp.sigHashFlags[k]? = some f → inp.lockScript = some lock → inp.value = some value →
          ∃ p, preimageAt ps idx k = some p ∧ IsScriptCode lock p.scriptCode ∧
            p.wire = sighashPreimage (fun b => (H b).1) t.wire idx inp.wire value.toNat
              (scriptBytes p.scriptCode) f.toNat := by
  have e1 := hashAllPrevouts_eq H t
  have e2 := hashAllSequences_eq H t
  have e3 := hashAllOutputs_eq H t hout
  have ex : ∃ ps, buildPreimages H t = some ps := by
    unfold buildPreimages
    simp only [e1, e2, e3, bind, Option.bind_some]
    refine mapM_isSome ?_
    rintro ⟨inp, idx⟩ hmem
    have hm : inp ∈ t.inputs := by
      have := List.mem_zipIdx hmem
      obtain ⟨_, _, h⟩ := this
      rw [h]; exact List.getElem_mem _
    obtain ⟨hl, hv⟩ := hin inp hm
    refine mapM_isSome ?_
    intro f _
    obtain ⟨lock, hl⟩ := Option.ne_none_iff_exists'.mp hl
    obtain ⟨value, hv⟩ := Option.ne_none_iff_exists'.mp hv
    obtain ⟨p, hp, _⟩ := buildPreimage_spec H t idx inp f lock value _ _ _ hout hl hv e1 e2 e3
    exact ⟨p, hp⟩
  obtain ⟨ps, hps⟩ := ex
  obtain ⟨hp, hs, ho, h1, h2, h3, h4, h5, h6⟩ := buildPreimages_at hps
  refine ⟨ps, hps, h4, fun idx inp hinp => ⟨?_, ?_⟩⟩
  · have : idx < ps.length := by
      rw [h4]; exact (List.getElem?_eq_some_iff.mp hinp).1
    exact ⟨ps[idx], by simp [this], h5 idx _ inp (by simp [this]) hinp⟩
  · intro k f lock value hf hl hv
    obtain ⟨p, h7, h8⟩ := h6 idx k inp f hinp hf
    obtain ⟨p', h9, h10, h11⟩ := buildPreimage_spec H t idx inp f lock value _ _ _ hout hl hv h1 h2 h3
    rw [h8] at h9
    cases h9
    exact ⟨p, h7, h10, h11⟩

/-- A transaction with two inputs and one output meeting the hypotheses: input 1 signed with SINGLE
has no matching output. -/
def examplePreimageTx : PreimageTx where
  version := 1
  inputs := [⟨⟨.zero, 1⟩, 5, [.DEFAULT, 0xc3], some [.code .OP_1], some 10⟩,
             ⟨⟨.zero, 2⟩, 6, [0x43], some [.code .OP_CODESEPARATOR, .code .OP_2], some 11⟩]
  outputs := [⟨20, [.code .OP_DUP]⟩]
  lockTime := 3

example : (∀ o ∈ examplePreimageTx.outputs, o.script.Serialisable) ∧
    (∀ i ∈ examplePreimageTx.inputs, i.lockScript ≠ none ∧ i.value ≠ none) := by
  constructor
  · intro o ho
    simp only [examplePreimageTx, List.mem_singleton] at ho
    subst ho
    exact ⟨[0x76], by decide, by decide⟩
  · intro i hi
    simp only [examplePreimageTx, List.mem_cons, List.not_mem_nil, or_false] at hi
    rcases hi with rfl | rfl <;> simp

/-- Unlocking scripts are not part of preimages. -/
theorem toPreimageTx_wire (H : Bytes → Bytes) (t : UnhashedTx) (flags : List SigHashFlags) (idx : Nat) (i : TxInput)
    (fs : List SigHashFlags) (value : Nat) (code : Bytes) (f : Nat) :
    sighashPreimage H (t.toPreimageTx flags).wire idx
        (PreimageInput.wire ⟨i.prevOut, i.sequence, fs, i.lockScript, i.value⟩) value code f =
      sighashPreimage H t.wire idx i.wire value code f := by
  unfold sighashPreimage Spec.hashPrevouts Spec.hashSequence Spec.hashOutputs
  simp only [PreimageTx.wire, UnhashedTx.toPreimageTx, UnhashedTx.wire, List.map_map, PreimageInput.wire,
    TxInput.wire]
  rfl

/-- **C23** (transactions): for a transaction whose inputs have known locking scripts and values, and any list of
flag sets, the preimages are, for every input and every flag set in order, those BIP143 gives for that
transaction, that input, its value and its locking script. -/
theorem C23_transaction (H : Bytes → Hash256) (t : UnhashedTx) (flags : List SigHashFlags)
    (hout : ∀ o ∈ t.outputs, o.script.Serialisable)
    (hin : ∀ i ∈ t.inputs, i.lockScript ≠ none ∧ i.value ≠ none) :
    ∃ ps, buildPreimages H (t.toPreimageTx flags) = some ps ∧ ps.length = t.inputs.length ∧
      (∀ l ∈ ps, l.length = flags.length) ∧
      ∀ (idx : Nat) (i : TxInput) (k : Nat) (f : SigHashFlags) (lock : Script) (value : UInt64),
        t.inputs[idx]? = some i → flags[k]? = some f → i.lockScript = some lock → i.value = some value →
        ∃ l p, ps[idx]? = some l ∧ l[k]? = some p ∧ IsScriptCode lock p.scriptCode ∧
          p.wire = sighashPreimage (fun b => (H b).1) t.wire idx i.wire value.toNat
            (scriptBytes p.scriptCode) f.toNat := by
  obtain ⟨ps, h1, h2, h3⟩ := C23_preimage_spec H (t.toPreimageTx flags) hout (by
    intro i hi
    obtain ⟨j, hj, rfl⟩ := List.mem_map.mp hi
    exact hin j hj)
  have hlen : ps.length = t.inputs.length := by rw [h2]; exact List.length_map _
  refine ⟨ps, h1, hlen, ?_, ?_⟩
  · intro l hl
    obtain ⟨n, hn, rfl⟩ := List.getElem_of_mem hl
    obtain ⟨⟨l', h4, h5⟩, _⟩ := h3 n _ (List.getElem?_eq_getElem (by rw [← h2]; exact hn))
    rw [List.getElem?_eq_getElem hn] at h4
    cases h4
    rw [h5]
    simp [UnhashedTx.toPreimageTx]
  · intro idx i k f lock value hi hf hl hv
    obtain ⟨⟨l, h4, h5⟩, h6⟩ := h3 idx ⟨i.prevOut, i.sequence, flags, i.lockScript, i.value⟩
      (by simp [UnhashedTx.toPreimageTx, hi])
    obtain ⟨p, h7, h8, h9⟩ := h6 k f lock value hf hl hv
    rw [preimageAt, h4] at h7
    rw [toPreimageTx_wire] at h9
    exact ⟨l, p, h4, h7, h8, h9⟩

/-- Non-vacuity. -/
example : ∃ t : UnhashedTx, (∀ o ∈ t.outputs, o.script.Serialisable) ∧ t.inputs.length = 1 ∧
    (∀ i ∈ t.inputs, i.lockScript ≠ none ∧ i.value ≠ none) := by
  refine ⟨⟨1, [⟨⟨.zero, 1⟩, [.code .OP_1], 5, some [.code .OP_2], some 10, none, none⟩],
    [⟨20, [.code .OP_DUP]⟩], 3⟩, ?_, rfl, ?_⟩
  · intro o ho
    simp only [List.mem_singleton] at ho
    subst ho
    exact ⟨[0x76], by decide, by decide⟩
  · intro i hi
    simp only [List.mem_singleton] at hi
    subst hi
    simp

/-- The API entry point for existing transactions: same transaction data, the given flags for every
input. It **panics** if an input's value or locking script is unknown. -/
theorem C23_unknown_input_panics (H : Bytes → Hash256) (t : PreimageTx) (idx : Nat)
    (inp : PreimageInput) (h : t.inputs[idx]? = some inp) (hf : inp.sigHashFlags ≠ [])
    (hn : inp.lockScript = none ∨ inp.value = none) : buildPreimages H t = none := by
  cases hb : buildPreimages H t with
  | none => rfl
  | some ps =>
    exfalso
    obtain ⟨hp, hs, ho, _, _, _, _, _, h6⟩ := buildPreimages_at hb
    cases hfl : inp.sigHashFlags with
    | nil => exact hf hfl
    | cons f fs =>
      obtain ⟨p, _, h8⟩ := h6 idx 0 inp f h (by simp [hfl])
      unfold buildPreimage at h8
      obtain ⟨_, _, h8⟩ := Option.bind_eq_some_iff.mp h8
      rcases hn with hn | hn
      · simp [hn] at h8
      · obtain ⟨_, _, h8⟩ := Option.bind_eq_some_iff.mp h8
        simp [hn] at h8

/-! ## C24 -/

/-- **C24** (ANYONECANPAY): the preimage of an input does not depend on the other inputs. -/
theorem C24_anyonecanpay_free (H : Bytes → Hash256) (t t' : PreimageTx)
    (ps ps' : List (List TxPreimage)) (idx k : Nat) (inp : PreimageInput) (f : SigHashFlags)
    (h : buildPreimages H t = some ps) (h' : buildPreimages H t' = some ps')
    (hin : t.inputs[idx]? = some inp) (hin' : t'.inputs[idx]? = some inp)
    (hf : inp.sigHashFlags[k]? = some f) (hacp : anyoneCanPay f.toNat = true)
    (hv : t.version = t'.version) (hl : t.lockTime = t'.lockTime) (ho : t.outputs = t'.outputs) :
    preimageAt ps idx k = preimageAt ps' idx k := by
  obtain ⟨_, _, ho1, _, _, e3, _, _, h6⟩ := buildPreimages_at h
  obtain ⟨_, _, ho2, _, _, e3', _, _, h6'⟩ := buildPreimages_at h'
  obtain ⟨p, h7, h8⟩ := h6 idx k inp f hin hf
  obtain ⟨p', h7', h8'⟩ := h6' idx k inp f hin' hf
  have : ho1 = ho2 := by
    unfold hashAllOutputs at e3 e3'
    rw [ho, e3'] at e3
    exact (Option.some.inj e3).symm
  subst this
  rw [h7, h7', ← h8, ← h8']
  unfold buildPreimage
  simp only [contains_acp, hacp, hv, hl, ho, Bool.not_true, Bool.false_eq_true, if_false,
    Bool.false_and]

/-- **C24** (NONE): the preimage does not depend on the outputs, nor on other inputs' sequences. -/
theorem C24_none_free (H : Bytes → Hash256) (t t' : PreimageTx)
    (ps ps' : List (List TxPreimage)) (idx k : Nat) (inp : PreimageInput) (f : SigHashFlags)
    (h : buildPreimages H t = some ps) (h' : buildPreimages H t' = some ps')
    (hin : t.inputs[idx]? = some inp) (hin' : t'.inputs[idx]? = some inp)
    (hf : inp.sigHashFlags[k]? = some f) (hnone : baseType f.toNat = 2)
    (hv : t.version = t'.version) (hl : t.lockTime = t'.lockTime)
    (ho : t.inputs.map (·.outpoint) = t'.inputs.map (·.outpoint)) :
    preimageAt ps idx k = preimageAt ps' idx k := by
  obtain ⟨hp1, _, ho1, e1, _, e3, _, _, h6⟩ := buildPreimages_at h
  obtain ⟨hp2, _, ho2, e1', _, e3', _, _, h6'⟩ := buildPreimages_at h'
  obtain ⟨p, h7, h8⟩ := h6 idx k inp f hin hf
  obtain ⟨p', h7', h8'⟩ := h6' idx k inp f hin' hf
  have : hp1 = hp2 := by
    unfold hashAllPrevouts at e1 e1'
    rw [ho, e1'] at e1
    exact (Option.some.inj e1).symm
  subst this
  rw [h7, h7', ← h8, ← h8']
  unfold buildPreimage
  have hns : baseType f.toNat ≠ 3 := by omega
  simp only [contains_acp, mask_single, mask_none, bne, hnone, hv, hl, decide_true, Bool.not_true,
    Bool.and_false, Bool.false_eq_true, if_false, hns, decide_false, Bool.false_and,
    show decide ((2 : Nat) = 3) = false from rfl]

/-- **C24** (SINGLE): the preimage depends on no output but the one with the same index, nor on other
inputs' sequences. -/
theorem C24_single_free (H : Bytes → Hash256) (t t' : PreimageTx)
    (ps ps' : List (List TxPreimage)) (idx k : Nat) (inp : PreimageInput) (f : SigHashFlags)
    (h : buildPreimages H t = some ps) (h' : buildPreimages H t' = some ps')
    (hin : t.inputs[idx]? = some inp) (hin' : t'.inputs[idx]? = some inp)
    (hf : inp.sigHashFlags[k]? = some f) (hsingle : baseType f.toNat = 3)
    (hv : t.version = t'.version) (hl : t.lockTime = t'.lockTime)
    (hp : t.inputs.map (·.outpoint) = t'.inputs.map (·.outpoint))
    (ho : t.outputs[idx]? = t'.outputs[idx]?) :
    preimageAt ps idx k = preimageAt ps' idx k := by
  obtain ⟨hp1, _, ho1, e1, _, e3, _, _, h6⟩ := buildPreimages_at h
  obtain ⟨hp2, _, ho2, e1', _, e3', _, _, h6'⟩ := buildPreimages_at h'
  obtain ⟨p, h7, h8⟩ := h6 idx k inp f hin hf
  obtain ⟨p', h7', h8'⟩ := h6' idx k inp f hin' hf
  have : hp1 = hp2 := by
    unfold hashAllPrevouts at e1 e1'
    rw [hp, e1'] at e1
    exact (Option.some.inj e1).symm
  subst this
  have hlen : idx < t.outputs.length ↔ idx < t'.outputs.length := by
    have e : ∀ l : List TxOutput, idx < l.length ↔ l[idx]? ≠ none := by
      intro l; rw [ne_eq, List.getElem?_eq_none_iff]; omega
    rw [e, e, ho]
  rw [h7, h7', ← h8, ← h8']
  unfold buildPreimage
  simp only [contains_acp, mask_single, mask_none, bne, hsingle, hv, hl, decide_true, Bool.not_true,
    Bool.and_false, Bool.false_eq_true, if_false, Bool.false_and, hlen, ho, Bool.and_true]

/-- A concatenation of prefix-free, non-empty serialisations determines the list. -/
theorem serMany_inj {α κ : Type} {c : Codec α} {V : α → Prop} {K : α → κ} (hc : Unambiguous c V K)
    (hne : ∀ v b, V v → c.ser v = some b → b ≠ []) (vs vs' : List α) (b : Bytes)
    (hv : ∀ v ∈ vs, V v) (hv' : ∀ v ∈ vs', V v)
    (h : c.serMany vs = some b) (h' : c.serMany vs' = some b) : vs.map K = vs'.map K := by
  induction vs generalizing vs' b with
  | nil =>
    cases vs' with
    | nil => rfl
    | cons v' vs' =>
      simp only [serMany, Option.some.injEq] at h h'
      subst h
      obtain ⟨y1, f1, h'⟩ := Option.bind_eq_some_iff.mp h'
      obtain ⟨y2, f2, h'⟩ := Option.bind_eq_some_iff.mp h'
      simp only [Option.some.injEq, List.append_eq_nil_iff] at h'
      exact absurd h'.1 (hne v' y1 (hv' v' (by simp)) f1)
  | cons v vs ih =>
    simp only [serMany] at h
    obtain ⟨x1, e1, h⟩ := Option.bind_eq_some_iff.mp h
    obtain ⟨x2, e2, h⟩ := Option.bind_eq_some_iff.mp h
    simp only [Option.some.injEq] at h
    cases vs' with
    | nil =>
      simp only [serMany, Option.some.injEq] at h'
      subst h'
      simp only [List.append_eq_nil_iff] at h
      exact absurd h.1 (hne v x1 (hv v (by simp)) e1)
    | cons v' vs' =>
      simp only [serMany] at h'
      obtain ⟨y1, f1, h'⟩ := Option.bind_eq_some_iff.mp h'
      obtain ⟨y2, f2, h'⟩ := Option.bind_eq_some_iff.mp h'
      simp only [Option.some.injEq] at h'
      rw [← h'] at h
      obtain ⟨g1, g2⟩ := hc _ _ _ _ _ _ (hv v (by simp)) (hv' v' (by simp)) e1 f1 h
      subst g2
      have := ih vs' x2 (fun x hx => hv x (by simp [hx])) (fun x hx => hv' x (by simp [hx])) e2 f2
      simp [g1, this]

theorem serialisable_of_hashed {H : Bytes → Hash256} {t : PreimageTx} {ho : Hash256}
    (h : hashAllOutputs H t = some ho)
    (hfit : ∀ o ∈ t.outputs, ∀ bs, o.script.serOps = some bs → bs.length < 2 ^ 64) :
    ∀ o ∈ t.outputs, o.script.Serialisable := by
  unfold hashAllOutputs serAllOutputs at h
  obtain ⟨b, hb, e⟩ := Option.map_eq_some_iff.mp h
  clear h e
  generalize t.outputs = os at hb hfit
  induction os generalizing b with
  | nil => intro o h; cases h
  | cons o os ih =>
    simp only [serMany] at hb
    obtain ⟨x, hx, hb⟩ := Option.bind_eq_some_iff.mp hb
    obtain ⟨y, hy, _⟩ := Option.bind_eq_some_iff.mp hb
    intro o' ho'
    rcases List.mem_cons.mp ho' with rfl | ho'
    · simp only [Codec.txOutput, Codec.imap, Codec.seq, ser_u64, Option.bind_some] at hx
      obtain ⟨z, hz, _⟩ := Option.bind_eq_some_iff.mp hx
      obtain ⟨bs, hbs, _⟩ := Option.bind_eq_some_iff.mp hz
      exact ⟨bs, hbs, hfit _ (by simp) bs hbs⟩
    · exact ih y hy (fun a ha => hfit a (by simp [ha])) o' ho'

theorem ser_outputs_message {t : PreimageTx} (h : ∀ o ∈ t.outputs, o.script.Serialisable) :
    Codec.txOutput.serMany t.outputs = some (outputsMessage t.wire) := by
  rw [serMany_map _ (fun v hv => ser_output v (h v hv))]
  simp only [outputsMessage, PreimageTx.wire, List.map_map]
  rfl

theorem ser_prevouts_message (t : PreimageTx) :
    Codec.txOutpoint.serMany (t.inputs.map (·.outpoint)) = some (prevoutsMessage t.wire) := by
  rw [serMany_map (f := fun o => o.txHash.1 ++ leBytes 4 o.vout.toNat) _ (fun v _ => ser_outpoint v)]
  simp only [prevoutsMessage, PreimageTx.wire, List.map_map]
  rfl

theorem ser_sequences_message (t : PreimageTx) :
    Codec.u32.serMany (t.inputs.map (·.sequence)) = some (sequencesMessage t.wire) := by
  rw [serMany_map (f := fun o => leBytes 4 o.toNat) _ (fun v _ => ser_u32 v)]
  simp only [sequencesMessage, PreimageTx.wire, List.map_map]
  rfl

/-- **C24** (ALL): equal preimages for equal flags under a base type other than NONE and SINGLE imply
equal outputs (values and script bytes), unless the serialised outputs of these two transactions are a
collision of the hash function. -/
theorem C24_all_outputs_protected (H : Bytes → Hash256) (t t' : PreimageTx)
    (ps ps' : List (List TxPreimage)) (idx k : Nat) (inp inp' : PreimageInput) (f : SigHashFlags)
    (h : buildPreimages H t = some ps) (h' : buildPreimages H t' = some ps')
    (hin : t.inputs[idx]? = some inp) (hin' : t'.inputs[idx]? = some inp')
    (hf : inp.sigHashFlags[k]? = some f) (hf' : inp'.sigHashFlags[k]? = some f)
    (hall : baseType f.toNat ≠ 2 ∧ baseType f.toNat ≠ 3)
    (hfit : ∀ o ∈ t.outputs, ∀ bs, o.script.serOps = some bs → bs.length < 2 ^ 64)
    (hfit' : ∀ o ∈ t'.outputs, ∀ bs, o.script.serOps = some bs → bs.length < 2 ^ 64)
    (heq : preimageAt ps idx k = preimageAt ps' idx k) :
    t.outputs.map (fun o => (o.value, o.script.serOps)) =
      t'.outputs.map (fun o => (o.value, o.script.serOps)) ∨
    Collide H (outputsMessage t.wire) (outputsMessage t'.wire) := by
  obtain ⟨hp1, _, ho1, e1, _, e3, _, _, h6⟩ := buildPreimages_at h
  obtain ⟨hp2, _, ho2, e1', _, e3', _, _, h6'⟩ := buildPreimages_at h'
  obtain ⟨p, h7, h8⟩ := h6 idx k inp f hin hf
  obtain ⟨p', h7', h8'⟩ := h6' idx k inp' f hin' hf'
  rw [h7, h7'] at heq
  cases heq
  have key : ∀ {tx : PreimageTx} {i : PreimageInput} {hp hs ho : Hash256},
      buildPreimage H tx idx i f hp hs ho = some p → p.hashOutputs = ho := by
    intro tx i hp hs ho hb
    unfold buildPreimage at hb
    simp only [mask_single, mask_none, bne, hall.1, hall.2, decide_false, Bool.not_false,
      Bool.and_true, if_true] at hb
    obtain ⟨_, h1, hb⟩ := Option.bind_eq_some_iff.mp hb
    obtain ⟨_, h2, hb⟩ := Option.bind_eq_some_iff.mp hb
    obtain ⟨_, h3, hb⟩ := Option.bind_eq_some_iff.mp hb
    cases hb
    exact (Option.some.inj h1).symm
  have hh : ho1 = ho2 := by rw [← key h8, ← key h8']
  have m1 := ser_outputs_message (serialisable_of_hashed e3 hfit)
  have m2 := ser_outputs_message (serialisable_of_hashed e3' hfit')
  unfold hashAllOutputs serAllOutputs at e3 e3'
  obtain ⟨b, hb, e3⟩ := Option.map_eq_some_iff.mp e3
  obtain ⟨b', hb', e3'⟩ := Option.map_eq_some_iff.mp e3'
  by_cases hbb : b = b'
  · subst hbb
    left
    have out : Unambiguous Codec.txOutput
        (fun i => ∀ bs, i.script.serOps = some bs → bs.length < 2 ^ 64)
        (fun i => (i.value, i.script.serOps)) :=
      ((Unambiguous.ofRoundTrip RoundTrips.u64).seq Unambiguous.script).imap
        (fun v hv => ⟨trivial, hv⟩) (fun v v' h => h)
    refine serMany_inj out ?_ _ _ b hfit hfit' hb hb'
    intro v x _ hx hnil
    subst hnil
    simp only [Codec.txOutput, Codec.imap, Codec.seq, ser_u64, Option.bind_some] at hx
    obtain ⟨y, _, hx⟩ := Option.bind_eq_some_iff.mp hx
    simp only [Option.some.injEq, List.append_eq_nil_iff] at hx
    have := congrArg List.length hx.1
    simp at this
  · right
    rw [m1] at hb
    rw [m2] at hb'
    cases hb
    cases hb'
    exact ⟨hbb, by rw [e3, e3', hh]⟩

/-- **C24** (inputs): without ANYONECANPAY, equal preimages imply equal outpoints of all inputs,
unless the serialised outpoints of these two transactions are a collision of the hash function. -/
theorem C24_outpoints_protected (H : Bytes → Hash256) (t t' : PreimageTx)
    (ps ps' : List (List TxPreimage)) (idx k : Nat) (inp inp' : PreimageInput) (f : SigHashFlags)
    (h : buildPreimages H t = some ps) (h' : buildPreimages H t' = some ps')
    (hin : t.inputs[idx]? = some inp) (hin' : t'.inputs[idx]? = some inp')
    (hf : inp.sigHashFlags[k]? = some f) (hf' : inp'.sigHashFlags[k]? = some f)
    (hacp : anyoneCanPay f.toNat = false)
    (heq : preimageAt ps idx k = preimageAt ps' idx k) :
    t.inputs.map (·.outpoint) = t'.inputs.map (·.outpoint) ∨
    Collide H (prevoutsMessage t.wire) (prevoutsMessage t'.wire) := by
  obtain ⟨hp1, _, ho1, e1, _, e3, _, _, h6⟩ := buildPreimages_at h
  obtain ⟨hp2, _, ho2, e1', _, e3', _, _, h6'⟩ := buildPreimages_at h'
  obtain ⟨p, h7, h8⟩ := h6 idx k inp f hin hf
  obtain ⟨p', h7', h8'⟩ := h6' idx k inp' f hin' hf'
  rw [h7, h7'] at heq
  cases heq
  have key : ∀ {tx : PreimageTx} {i : PreimageInput} {hp hs ho : Hash256},
      buildPreimage H tx idx i f hp hs ho = some p → p.hashPrevouts = hp := by
    intro tx i hp hs ho hb
    unfold buildPreimage at hb
    simp only [contains_acp, hacp, Bool.not_false, if_true, Bool.true_and] at hb
    obtain ⟨_, h1, hb⟩ := Option.bind_eq_some_iff.mp hb
    obtain ⟨_, h2, hb⟩ := Option.bind_eq_some_iff.mp hb
    obtain ⟨_, h3, hb⟩ := Option.bind_eq_some_iff.mp hb
    cases hb
    rfl
  have hh : hp1 = hp2 := by rw [← key h8, ← key h8']
  unfold hashAllPrevouts at e1 e1'
  obtain ⟨b, hb, e1⟩ := Option.map_eq_some_iff.mp e1
  obtain ⟨b', hb', e1'⟩ := Option.map_eq_some_iff.mp e1'
  by_cases hbb : b = b'
  · subst hbb
    left
    have := serMany_inj (Unambiguous.ofRoundTrip RoundTrips.txOutpoint) ?_ _ _ b
      (fun _ _ => trivial) (fun _ _ => trivial) hb hb'
    · simpa using this
    · intro v x _ hx hnil
      subst hnil
      rw [ser_outpoint] at hx
      simp only [Option.some.injEq, List.append_eq_nil_iff] at hx
      have := congrArg List.length hx.2
      simp at this
  · right
    rw [ser_prevouts_message] at hb hb'
    cases hb
    cases hb'
    exact ⟨hbb, by rw [e1, e1', hh]⟩

/-- **C24** (sequences): without ANYONECANPAY and under a base type other than NONE and SINGLE, equal
preimages imply equal sequences of all inputs, unless the serialised sequences of these two transactions are a
collision of the hash function. -/
theorem C24_sequences_protected (H : Bytes → Hash256) (t t' : PreimageTx)
    (ps ps' : List (List TxPreimage)) (idx k : Nat) (inp inp' : PreimageInput) (f : SigHashFlags)
    (h : buildPreimages H t = some ps) (h' : buildPreimages H t' = some ps')
    (hin : t.inputs[idx]? = some inp) (hin' : t'.inputs[idx]? = some inp')
    (hf : inp.sigHashFlags[k]? = some f) (hf' : inp'.sigHashFlags[k]? = some f)
    (hacp : anyoneCanPay f.toNat = false) (hall : baseType f.toNat ≠ 2 ∧ baseType f.toNat ≠ 3)
    (heq : preimageAt ps idx k = preimageAt ps' idx k) :
    t.inputs.map (·.sequence) = t'.inputs.map (·.sequence) ∨
    Collide H (sequencesMessage t.wire) (sequencesMessage t'.wire) := by
  obtain ⟨_, hs1, _, _, e2, _, _, _, h6⟩ := buildPreimages_at h
  obtain ⟨_, hs2, _, _, e2', _, _, _, h6'⟩ := buildPreimages_at h'
  obtain ⟨p, h7, h8⟩ := h6 idx k inp f hin hf
  obtain ⟨p', h7', h8'⟩ := h6' idx k inp' f hin' hf'
  rw [h7, h7'] at heq
  cases heq
  have key : ∀ {tx : PreimageTx} {i : PreimageInput} {hp hs ho : Hash256},
      buildPreimage H tx idx i f hp hs ho = some p → p.hashSequence = hs := by
    intro tx i hp hs ho hb
    unfold buildPreimage at hb
    simp only [contains_acp, hacp, mask_single, mask_none, bne, hall.1, hall.2, decide_false,
      Bool.not_false, Bool.and_true, if_true, Bool.true_and] at hb
    obtain ⟨_, h1, hb⟩ := Option.bind_eq_some_iff.mp hb
    obtain ⟨_, h2, hb⟩ := Option.bind_eq_some_iff.mp hb
    obtain ⟨_, h3, hb⟩ := Option.bind_eq_some_iff.mp hb
    cases hb
    rfl
  have hh : hs1 = hs2 := by rw [← key h8, ← key h8']
  unfold hashAllSequences at e2 e2'
  obtain ⟨b, hb, e2⟩ := Option.map_eq_some_iff.mp e2
  obtain ⟨b', hb', e2'⟩ := Option.map_eq_some_iff.mp e2'
  by_cases hbb : b = b'
  · subst hbb
    left
    have := serMany_inj (Unambiguous.ofRoundTrip RoundTrips.u32) ?_ _ _ b
      (fun _ _ => trivial) (fun _ _ => trivial) hb hb'
    · simpa using this
    · intro v x _ hx hnil
      subst hnil
      rw [ser_u32, Option.some.injEq] at hx
      have := congrArg List.length hx
      simp at this
  · right
    rw [ser_sequences_message] at hb hb'
    cases hb
    cases hb'
    exact ⟨hbb, by rw [e2, e2', hh]⟩

/-- **C24** (SINGLE): equal preimages for equal flags with base type SINGLE imply equal outputs (value
and script bytes, or none) at the index of the input, unless these two outputs serialised are a collision of the
hash function, or there is only one of them and its serialisation hashes to zero. -/
theorem C24_single_output_protected (H : Bytes → Hash256) (t t' : PreimageTx)
    (ps ps' : List (List TxPreimage)) (idx k : Nat) (inp inp' : PreimageInput) (f : SigHashFlags)
    (h : buildPreimages H t = some ps) (h' : buildPreimages H t' = some ps')
    (hin : t.inputs[idx]? = some inp) (hin' : t'.inputs[idx]? = some inp')
    (hf : inp.sigHashFlags[k]? = some f) (hf' : inp'.sigHashFlags[k]? = some f)
    (hsingle : baseType f.toNat = 3)
    (hfit : ∀ o ∈ t.outputs, ∀ bs, o.script.serOps = some bs → bs.length < 2 ^ 64)
    (hfit' : ∀ o ∈ t'.outputs, ∀ bs, o.script.serOps = some bs → bs.length < 2 ^ 64)
    (heq : preimageAt ps idx k = preimageAt ps' idx k) :
    t.outputs[idx]?.map (fun o => (o.value, o.script.serOps)) =
      t'.outputs[idx]?.map (fun o => (o.value, o.script.serOps)) ∨
    (∃ o o', t.wire.outputs[idx]? = some o ∧ t'.wire.outputs[idx]? = some o' ∧ Collide H o.encode o'.encode) ∨
    (∃ o, (t.wire.outputs[idx]? = some o ∧ t'.wire.outputs[idx]? = none ∨
        t.wire.outputs[idx]? = none ∧ t'.wire.outputs[idx]? = some o) ∧ H o.encode = Hash256.zero) := by
  obtain ⟨_, _, _, _, _, e3, _, _, h6⟩ := buildPreimages_at h
  obtain ⟨_, _, _, _, _, e3', _, _, h6'⟩ := buildPreimages_at h'
  have s1 := serialisable_of_hashed e3 hfit
  have s2 := serialisable_of_hashed e3' hfit'
  have w : ∀ tx : PreimageTx, tx.wire.outputs[idx]? = (tx.outputs[idx]?).map TxOutput.wire := by
    intro tx; simp [PreimageTx.wire]
  obtain ⟨p, h7, h8⟩ := h6 idx k inp f hin hf
  obtain ⟨p', h7', h8'⟩ := h6' idx k inp' f hin' hf'
  rw [h7, h7'] at heq
  cases heq
  have key : ∀ {tx : PreimageTx} {i : PreimageInput} {hp hs ho : Hash256},
      buildPreimage H tx idx i f hp hs ho = some p →
        (tx.outputs[idx]? = none ∧ p.hashOutputs = Hash256.zero) ∨
        ∃ o bs, tx.outputs[idx]? = some o ∧ Codec.txOutput.ser o = some bs ∧ p.hashOutputs = H bs := by
    intro tx i hp hs ho hb
    unfold buildPreimage at hb
    simp only [mask_single, mask_none, bne, hsingle, decide_true, Bool.not_true, Bool.and_false,
      Bool.false_and, Bool.false_eq_true, if_false, Bool.true_and, decide_eq_true_eq] at hb
    obtain ⟨x, h1, hb⟩ := Option.bind_eq_some_iff.mp hb
    obtain ⟨_, h2, hb⟩ := Option.bind_eq_some_iff.mp hb
    obtain ⟨_, h3, hb⟩ := Option.bind_eq_some_iff.mp hb
    cases hb
    by_cases hl : idx < tx.outputs.length
    · rw [if_pos hl] at h1
      obtain ⟨o, ho, h1⟩ := Option.bind_eq_some_iff.mp h1
      obtain ⟨bs, hbs, h1⟩ := Option.map_eq_some_iff.mp h1
      exact .inr ⟨o, bs, ho, hbs, h1.symm⟩
    · rw [if_neg hl] at h1
      exact .inl ⟨List.getElem?_eq_none (by omega), (Option.some.inj h1).symm⟩
  rcases key h8 with ⟨a1, a2⟩ | ⟨o, bs, a1, a2, a3⟩ <;>
    rcases key h8' with ⟨b1, b2⟩ | ⟨o', bs', b1, b2, b3⟩
  · left; rw [a1, b1]
  · right; right
    rw [ser_output _ (s2 _ (List.mem_of_getElem? b1))] at b2
    cases b2
    exact ⟨o'.wire, .inr ⟨by rw [w, a1]; rfl, by rw [w, b1]; rfl⟩, by rw [← b3, a2]⟩
  · right; right
    rw [ser_output _ (s1 _ (List.mem_of_getElem? a1))] at a2
    cases a2
    exact ⟨o.wire, .inl ⟨by rw [w, a1]; rfl, by rw [w, b1]; rfl⟩, by rw [← a3, b2]⟩
  · by_cases hbb : bs = bs'
    · subst hbb
      left
      have out : Unambiguous Codec.txOutput
          (fun i => ∀ bs, i.script.serOps = some bs → bs.length < 2 ^ 64)
          (fun i => (i.value, i.script.serOps)) :=
        ((Unambiguous.ofRoundTrip RoundTrips.u64).seq Unambiguous.script).imap
          (fun v hv => ⟨trivial, hv⟩) (fun v v' h => h)
      have := (out o o' bs bs [] [] (hfit o (List.mem_of_getElem? a1))
        (hfit' o' (List.mem_of_getElem? b1)) a2 b2 rfl).1
      rw [a1, b1]
      exact congrArg some this
    · right; left
      rw [ser_output _ (s1 _ (List.mem_of_getElem? a1))] at a2
      rw [ser_output _ (s2 _ (List.mem_of_getElem? b1))] at b2
      cases a2
      cases b2
      exact ⟨o.wire, o'.wire, by rw [w, a1]; rfl, by rw [w, b1]; rfl, hbb, by rw [← a3, ← b3]⟩

/-- **C24** (the rest): equal preimages imply equal version, lock time, flags, and the signed input's
outpoint, value, sequence and script code. -/
theorem C24_own_input_protected (H : Bytes → Hash256) (t t' : PreimageTx)
    (ps ps' : List (List TxPreimage)) (idx idx' k k' : Nat) (inp inp' : PreimageInput)
    (f f' : SigHashFlags)
    (h : buildPreimages H t = some ps) (h' : buildPreimages H t' = some ps')
    (hin : t.inputs[idx]? = some inp) (hin' : t'.inputs[idx']? = some inp')
    (hf : inp.sigHashFlags[k]? = some f) (hf' : inp'.sigHashFlags[k']? = some f')
    (heq : preimageAt ps idx k = preimageAt ps' idx' k') :
    f = f' ∧ t.version = t'.version ∧ t.lockTime = t'.lockTime ∧ inp.outpoint = inp'.outpoint ∧
    inp.sequence = inp'.sequence ∧ inp.value = inp'.value ∧
    inp.lockScript.map Script.toScriptCodeFirst = inp'.lockScript.map Script.toScriptCodeFirst := by
  obtain ⟨hp1, _, ho1, e1, _, e3, _, _, h6⟩ := buildPreimages_at h
  obtain ⟨hp2, _, ho2, e1', _, e3', _, _, h6'⟩ := buildPreimages_at h'
  obtain ⟨p, h7, h8⟩ := h6 idx k inp f hin hf
  obtain ⟨p', h7', h8'⟩ := h6' idx' k' inp' f' hin' hf'
  rw [h7, h7'] at heq
  cases heq
  have key : ∀ {tx : PreimageTx} {j : Nat} {g : SigHashFlags} {i : PreimageInput}
      {hp hs ho : Hash256},
      buildPreimage H tx j i g hp hs ho = some p → p.sigHashType = g ∧ p.version = tx.version ∧
        p.lockTime = tx.lockTime ∧ p.outpoint = i.outpoint ∧ p.sequence = i.sequence ∧
        i.value = some p.value ∧ i.lockScript.map Script.toScriptCodeFirst = some p.scriptCode := by
    intro tx j g i hp hs ho hb
    unfold buildPreimage at hb
    obtain ⟨_, h1, hb⟩ := Option.bind_eq_some_iff.mp hb
    obtain ⟨_, h2, hb⟩ := Option.bind_eq_some_iff.mp hb
    obtain ⟨_, h3, hb⟩ := Option.bind_eq_some_iff.mp hb
    cases hb
    exact ⟨rfl, rfl, rfl, rfl, rfl, h3, by rw [h2]; rfl⟩
  obtain ⟨a1, a2, a3, a4, a5, a6, a7⟩ := key h8
  obtain ⟨b1, b2, b3, b4, b5, b6, b7⟩ := key h8'
  exact ⟨by rw [← a1, ← b1], by rw [← a2, ← b2], by rw [← a3, ← b3], by rw [← a4, ← b4],
    by rw [← a5, ← b5], by rw [a6, b6], by rw [a7, b7]⟩

/-- Non-trivial cases of the hypotheses of C24: flags of each kind. -/
example : anyoneCanPay (0xc1 : SigHashFlags).toNat = true ∧ baseType (0x42 : SigHashFlags).toNat = 2 ∧
    baseType (0x43 : SigHashFlags).toNat = 3 ∧ baseType SigHashFlags.DEFAULT.toNat = 1 ∧
    anyoneCanPay SigHashFlags.DEFAULT.toNat = false := by decide

/-- **C24** (default flags): the default flags carry the fork id the network demands and protect everything: equal
preimages imply equal version, lock time, outpoints and sequences of all inputs, outputs (values and script
bytes) and the signed input's value and script code, unless two of the strings hashed for these two transactions
are a collision of the hash function. -/
theorem C24_default_protects_all (H : Bytes → Hash256) (t t' : PreimageTx)
    (ps ps' : List (List TxPreimage)) (idx k : Nat) (inp inp' : PreimageInput)
    (h : buildPreimages H t = some ps) (h' : buildPreimages H t' = some ps')
    (hin : t.inputs[idx]? = some inp) (hin' : t'.inputs[idx]? = some inp')
    (hf : inp.sigHashFlags[k]? = some SigHashFlags.DEFAULT)
    (hf' : inp'.sigHashFlags[k]? = some SigHashFlags.DEFAULT)
    (hfit : ∀ o ∈ t.outputs, ∀ bs, o.script.serOps = some bs → bs.length < 2 ^ 64)
    (hfit' : ∀ o ∈ t'.outputs, ∀ bs, o.script.serOps = some bs → bs.length < 2 ^ 64)
    (heq : preimageAt ps idx k = preimageAt ps' idx k) :
    SigHashFlags.DEFAULT.toNat / 64 % 2 = 1 ∧
    (t.version = t'.version ∧ t.lockTime = t'.lockTime ∧
      t.inputs.map (·.outpoint) = t'.inputs.map (·.outpoint) ∧
      t.inputs.map (·.sequence) = t'.inputs.map (·.sequence) ∧
      t.outputs.map (fun o => (o.value, o.script.serOps)) =
        t'.outputs.map (fun o => (o.value, o.script.serOps)) ∧
      inp.value = inp'.value ∧
      inp.lockScript.map Script.toScriptCodeFirst = inp'.lockScript.map Script.toScriptCodeFirst ∨
    Collide H (prevoutsMessage t.wire) (prevoutsMessage t'.wire) ∨
    Collide H (sequencesMessage t.wire) (sequencesMessage t'.wire) ∨
    Collide H (outputsMessage t.wire) (outputsMessage t'.wire)) := by
  refine ⟨by decide, ?_⟩
  have hacp : anyoneCanPay SigHashFlags.DEFAULT.toNat = false := by decide
  have hall : baseType SigHashFlags.DEFAULT.toNat ≠ 2 ∧ baseType SigHashFlags.DEFAULT.toNat ≠ 3 := by decide
  obtain ⟨_, h1, h2, _, _, h3, h4⟩ :=
    C24_own_input_protected H t t' ps ps' idx idx k k inp inp' _ _ h h' hin hin' hf hf' heq
  rcases C24_outpoints_protected H t t' ps ps' idx k inp inp' _ h h' hin hin' hf hf' hacp heq with h5 | h5
  · rcases C24_sequences_protected H t t' ps ps' idx k inp inp' _ h h' hin hin' hf hf' hacp hall heq with h6 | h6
    · rcases C24_all_outputs_protected H t t' ps ps' idx k inp inp' _ h h' hin hin' hf hf' hall hfit hfit' heq
        with h7 | h7
      · exact .inl ⟨h1, h2, h5, h6, h7, h3, h4⟩
      · exact .inr (.inr (.inr h7))
    · exact .inr (.inr (.inl h6))
  · exact .inr (.inl h5)

/-- A transaction whose second input and outputs differ from those of `examplePreimageTx`. -/
def otherPreimageTx : PreimageTx where
  version := 1
  inputs := [⟨⟨.zero, 1⟩, 5, [.DEFAULT, 0xc3, 0x42], some [.code .OP_1], some 10⟩,
             ⟨⟨.zero, 2⟩, 7, [0x43], some [.code .OP_DUP], some 12⟩]
  outputs := [⟨19, [.code .OP_1]⟩, ⟨3, []⟩]
  lockTime := 3

/-- `examplePreimageTx` with one more flag set for its first input. -/
def examplePreimageTx' : PreimageTx where
  version := 1
  inputs := [⟨⟨.zero, 1⟩, 5, [.DEFAULT, 0xc3, 0x42], some [.code .OP_1], some 10⟩,
             ⟨⟨.zero, 2⟩, 6, [0x43], some [.code .OP_CODESEPARATOR, .code .OP_2], some 11⟩]
  outputs := [⟨20, [.code .OP_DUP]⟩]
  lockTime := 3

/-- Two concrete transactions meeting all hypotheses of the theorems about what is free: different outputs and a
different second input, and the same preimage for NONE. -/
example (H : Bytes → Hash256) (ps ps' : List (List TxPreimage))
    (h : buildPreimages H otherPreimageTx = some ps)
    (h' : buildPreimages H { otherPreimageTx with outputs := [⟨20, [.code .OP_DUP]⟩] } = some ps') :
    preimageAt ps 0 2 = preimageAt ps' 0 2 :=
  C24_none_free H _ _ ps ps' 0 2 _ 0x42 h h' rfl rfl rfl (by decide) rfl rfl rfl

example : (buildPreimages (fun b => ⟨b.take 32 ++ List.replicate (32 - b.length) 0, by simp; omega⟩)
      otherPreimageTx).isSome = true ∧
    (buildPreimages (fun b => ⟨b.take 32 ++ List.replicate (32 - b.length) 0, by simp; omega⟩)
      { otherPreimageTx with outputs := [⟨20, [.code .OP_DUP]⟩] }).isSome = true := by
  constructor <;> rfl

/-- ANYONECANPAY: another second input, the same preimage of the first. -/
example (H : Bytes → Hash256) (ps ps' : List (List TxPreimage))
    (h : buildPreimages H { otherPreimageTx with outputs := [⟨20, [.code .OP_DUP]⟩] } = some ps)
    (h' : buildPreimages H examplePreimageTx' = some ps') :
    preimageAt ps 0 1 = preimageAt ps' 0 1 :=
  C24_anyonecanpay_free H _ _ ps ps' 0 1 _ 0xc3 h h' rfl rfl rfl (by decide) rfl rfl rfl

/-- Two different transactions meeting all hypotheses of the theorems about what is protected: they differ in the
value of the second input, which no preimage of the first one contains. -/
example : ∃ (H : Bytes → Hash256) (t : PreimageTx) (ps ps' : List (List TxPreimage)), t ≠ examplePreimageTx' ∧
    buildPreimages H examplePreimageTx' = some ps ∧ buildPreimages H t = some ps' ∧
    preimageAt ps 0 0 = preimageAt ps' 0 0 ∧ preimageAt ps 0 1 = preimageAt ps' 0 1 ∧
    preimageAt ps 1 0 ≠ preimageAt ps' 1 0 ∧ t.inputs[0]? = examplePreimageTx'.inputs[0]? :=
  ⟨fun b => ⟨b.take 32 ++ List.replicate (32 - b.length) 0, by simp; omega⟩,
    { examplePreimageTx' with inputs := [⟨⟨.zero, 1⟩, 5, [.DEFAULT, 0xc3, 0x42], some [.code .OP_1], some 10⟩,
      ⟨⟨.zero, 2⟩, 6, [0x43], some [.code .OP_CODESEPARATOR, .code .OP_2], some 12⟩] },
    _, _, fun h => absurd (congrArg (fun t => (t.inputs[1]?).bind (·.value)) h) (by decide), rfl, rfl, rfl, rfl,
    fun h => absurd (congrArg (Option.map (·.value)) h) (by decide), rfl⟩

end BCash
