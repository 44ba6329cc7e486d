import Verif.Props.Spending
import Verif.Props.Slp
import Verif.Spec.Tokens

/-! # C103 — tokens reach their receivers -/

namespace BCash
open Spec TxBuilder
variable {Dyn : Type}

/-- Spec: the outputs of a token transaction: the message first, then the outputs that are to get tokens (and other
fixed outputs), then anything else. -/
def Spec.tokenOutputs (msg : SlpOutput) (fixed : List TxOutput) (rest : List TxBuilderOutput) :
    List TxBuilderOutput :=
  .knownValue msg.toTxOutput :: fixed.map .knownValue ++ rest

/-- Spec: the id of a transaction as it is displayed. -/
def Spec.displayedId (H : Bytes → Hash256) (tx : WireTx) : Bytes := (H tx.encode).1.reverse

namespace TokenProofs

theorem known_prefix (amt : Nat → Option Nat) (fixed : List TxOutput) (rest : List TxBuilderOutput) (k : Nat) :
    makeOutputsFrom amt k (fixed.map .knownValue ++ rest) =
      fixed ++ makeOutputsFrom amt (k + fixed.length) rest := by
  induction fixed generalizing k with
  | nil => rfl
  | cons o fixed ih =>
    simp only [List.map_cons, List.cons_append, makeOutputsFrom, ih, List.length_cons]
    congr 3
    omega

/-- A script of non-minimal pushes is not longer than its data and five bytes for each push; pushes of 1 to 75 bytes
take one byte more than their data. -/
theorem pushes_length (ds : List Bytes) (h : ∀ d ∈ ds, d.length < 2 ^ 32) {bs : Bytes}
    (hbs : serializeOps (ds.map fun d => .pushByteArray d false) = .ok bs) :
    bs.length ≤ (ds.map fun d => 5 + d.length).sum ∧
    ((∀ d ∈ ds, 1 ≤ d.length ∧ d.length ≤ 75) → bs.length = (ds.map fun d => 1 + d.length).sum) := by
  induction ds generalizing bs with
  | nil => cases hbs; simp
  | cons d ds ih =>
    obtain ⟨bs', h1, _⟩ := SlpProofs.serialize_fields ds fun x hx => h x (List.mem_cons_of_mem _ hx)
    have hd := h d List.mem_cons_self
    rw [List.map_cons, serializeOps_cons_ok (op := .pushByteArray d false) (serializePushBytes_token d false hd) h1] at hbs
    cases hbs
    obtain ⟨i1, i2⟩ := ih (fun x hx => h x (List.mem_cons_of_mem _ hx)) h1
    have hl : (pushToken d false).encode.length ≤ 5 + d.length ∧
        (1 ≤ d.length ∧ d.length ≤ 75 → (pushToken d false).encode.length = 1 + d.length) := by
      unfold pushToken formOf
      simp only [Bool.false_and, Bool.false_eq_true, if_false]
      split
      · simp only [Token.encode, List.length_append, List.length_cons, leBytes_length]
        omega
      · split
        · simp [Token.encode]; omega
        · split
          · simp [Token.encode]; omega
          · split
            · simp [Token.encode]; omega
            · simp [Token.encode]; omega
    constructor
    · simp only [List.length_append, List.map_cons, List.sum_cons]; omega
    · intro hs
      have e1 := hl.2 (hs d List.mem_cons_self)
      have e2 := i2 fun x hx => hs x (List.mem_cons_of_mem _ hx)
      simp only [List.length_append, List.map_cons, List.sum_cons, e1, e2]

theorem send_bytes (type : SlpTokenType) (id : TokenId) (amounts : List UInt64) :
    ∃ bs, (slpSendOutput type id amounts).toTxOutput.script.serOps = some bs ∧
      bs.length = 46 + 9 * amounts.length := by
  have hmem : ∀ d ∈ [slpLokadId, [type.toByte], SlpTxType.SEND.toBytes,
      id.1.reverse] ++ amounts.map u64BeBytes, 1 ≤ d.length ∧ d.length ≤ 75 := by
    intro d hd
    simp only [List.cons_append, List.nil_append, List.mem_cons, List.mem_map] at hd
    rcases hd with rfl | rfl | rfl | rfl | ⟨a, _, rfl⟩
    · decide
    · exact (by decide : 1 ≤ 1 ∧ 1 ≤ 75)
    · decide
    · rw [List.length_reverse, id.2]; decide
    · rw [SlpProofs.length_u64]; decide
  have hlt : ∀ d ∈ [slpLokadId, [type.toByte], SlpTxType.SEND.toBytes,
      id.1.reverse] ++ amounts.map u64BeBytes, d.length < 2 ^ 32 := by
    intro d hd
    have := hmem d hd
    omega
  obtain ⟨bs, h1, _⟩ := SlpProofs.serialize_fields _ hlt
  have hl := (pushes_length _ hlt h1).2 hmem
  refine ⟨[Opcode.OP_RETURN.toByte] ++ bs, ?_, ?_⟩
  · have : serializeOps (slpSendOutput type id amounts).toTxOutput.script =
        .ok ([Opcode.OP_RETURN.toByte] ++ bs) := by
      unfold SlpOutput.toTxOutput slpSendOutput
      dsimp only
      rw [List.map_append, slpAmountOps, SlpProofs.amountOps_data]
      rw [List.map_append] at h1
      exact serializeOps_cons_ok rfl h1
    unfold Script.serOps
    rw [this]
  · rw [List.length_append, hl]
    have hsum : ∀ l : List UInt64, ((l.map u64BeBytes).map fun d => 1 + d.length).sum = 9 * l.length := by
      intro l
      induction l with
      | nil => rfl
      | cons a l ih =>
        simp only [List.map_cons, List.sum_cons, SlpProofs.length_u64, List.length_cons, ih]
        omega
    rw [List.map_append, List.sum_append, hsum]
    have h4 : ([slpLokadId, [type.toByte], SlpTxType.SEND.toBytes, id.1.reverse].map
        fun d => 1 + d.length).sum = 45 := by
      simp only [List.map_cons, List.map_nil, List.sum_cons, List.sum_nil, List.length_reverse, id.2,
        List.length_cons, List.length_nil]
      rfl
    rw [h4]
    simp only [List.length_cons, List.length_nil]
    omega

theorem send_parse (type : SlpTokenType) (id : TokenId) (amounts : List UInt64) :
    Slp.parse (scriptBytes (slpSendOutput type id amounts).toTxOutput.script) =
        if 1 ≤ amounts.length ∧ amounts.length ≤ 19 then
          some (.send (slpType type) id.1.reverse (amounts.map UInt64.toNat))
        else none := by
  obtain ⟨_, bs, h1, h2⟩ := C44_send_output type id amounts
  rw [← h2]
  unfold scriptBytes Script.serOps
  rw [h1]
  rfl

theorem genesis_bytes (p : SlpGenesisParams)
    (hlen : p.tokenTicker.length < 2 ^ 32 ∧ p.tokenName.length < 2 ^ 32 ∧
      p.tokenDocumentUrl.length < 2 ^ 32 ∧ p.tokenDocumentHash.length < 2 ^ 32) :
    (slpGenesisOutput p).toTxOutput.script.Serialisable ∧
    Slp.parse (scriptBytes (slpGenesisOutput p).toTxOutput.script) =
      if p.Allowed then
        some (.genesis (slpType p.slpTokenType) p.tokenTicker p.tokenName p.tokenDocumentUrl
          p.tokenDocumentHash p.decimals.toNat (p.mintBatonVout.map UInt8.toNat)
          p.initialTokenMintQuantity.toNat)
      else none := by
  obtain ⟨_, bs, h1, h2⟩ := C44_genesis_output p hlen
  have hser : (slpGenesisOutput p).toTxOutput.script.serOps = some bs := by
    unfold Script.serOps
    rw [h1]
  refine ⟨⟨bs, hser, ?_⟩, by rw [← h2]; unfold scriptBytes; rw [hser]; rfl⟩
  obtain ⟨type, ticker, name, url, hash, dec, baton, qty⟩ := p
  obtain ⟨l1, l2, l3, l4⟩ := hlen
  dsimp only at l1 l2 l3 l4
  have hlt : ∀ d ∈ [slpLokadId, [type.toByte], SlpTxType.GENESIS.toBytes,
      ticker, name, url, hash, [dec], (match baton with
        | some vout => [vout]
        | none => []), u64BeBytes qty], d.length < 2 ^ 32 := by
    intro d hd
    simp only [List.mem_cons, List.not_mem_nil, or_false] at hd
    rcases hd with rfl | rfl | rfl | rfl | rfl | rfl | rfl | rfl | rfl | rfl
    · decide
    · exact (by decide : 1 < 2 ^ 32)
    · decide
    · exact l1
    · exact l2
    · exact l3
    · exact l4
    · exact (by decide : 1 < 2 ^ 32)
    · cases baton
      · exact (by decide : 0 < 2 ^ 32)
      · exact (by decide : 1 < 2 ^ 32)
    · rw [SlpProofs.length_u64]; decide
  obtain ⟨bs', h3, _⟩ := SlpProofs.serialize_fields _ hlt
  have hl := (pushes_length _ hlt h3).1
  have h4 : bs = [Opcode.OP_RETURN.toByte] ++ bs' := by
    have := serializeOps_cons_ok (op := .code .OP_RETURN) rfl h3
    exact Res.ok.inj (h1.symm.trans this)
  have h5 : ([slpLokadId, [type.toByte], SlpTxType.GENESIS.toBytes].map fun d => 5 + d.length).sum = 27 := by
    cases type <;> decide
  have h6 : (match baton with | some vout => [vout] | none => ([] : Bytes)).length ≤ 1 := by
    cases baton <;> simp
  rw [h4]
  simp only [List.map_cons, List.map_nil, List.sum_cons, List.sum_nil, SlpProofs.length_u64, List.length_cons,
    List.length_nil, List.length_append] at hl h5 ⊢
  generalize (match baton with | some vout => [vout] | none => ([] : Bytes)).length = z at hl h6
  omega

end TokenProofs
open TokenProofs

/-- The part common to creating and sending: the transaction has the message, the fixed outputs, then others. -/
theorem TokenProofs.spend_tokens (sz : Layout) (H : Bytes → Hash256) (version : Int32) (lockTime : UInt32)
    (fee : UInt64) (jobs : List (Job Dyn)) (hw : ∀ job ∈ jobs, job.Works)
    (msg : SlpOutput) (hv : msg.value = 0) (fixed : List TxOutput) (rest : List TxBuilderOutput)
    (hin : (jobs.map (·.input.value.toNat)).sum < 2 ^ 64)
    (hfix : outputSum (fixed ++ fixedOf rest) ≤ (jobs.map (·.input.value.toNat)).sum)
    (hm : msg.toTxOutput.script.Serialisable)
    (hs : (∀ o ∈ fixed, o.script.Serialisable) ∧ ∀ o ∈ rest, o.script.Serialisable)
    (hfee : spendBound jobs ((tokenOutputs msg fixed rest).map (·.script)) * max 1 fee.toNat < 2 ^ 64) :
    ∃ tx more, spend sz H version lockTime fee jobs (tokenOutputs msg fixed rest) = .ok tx ∧
      (Codec.unhashedTx sz).ser tx = some tx.wire.encode ∧
      tx.wire.outputs = msg.toTxOutput.wire :: fixed.map TxOutput.wire ++ more := by
  have hout : fixedOf (tokenOutputs msg fixed rest) = msg.toTxOutput :: (fixed ++ fixedOf rest) := by
    have : ∀ l : List TxOutput, fixedOf (l.map .knownValue ++ rest) = l ++ fixedOf rest := by
      intro l
      induction l with
      | nil => rfl
      | cons o l ih =>
        show o :: fixedOf (l.map .knownValue ++ rest) = _
        rw [ih]; rfl
    show msg.toTxOutput :: fixedOf (fixed.map .knownValue ++ rest) = _
    rw [this]
  obtain ⟨u, cs, tx, bytes, h1, h2, h3, h4, h5, _⟩ := C100_spending sz H version lockTime fee jobs
    (tokenOutputs msg fixed rest) hw hin (by
      rw [hout]
      simp only [outputSum, List.map_cons, List.sum_cons] at hfix ⊢
      have : msg.toTxOutput.value.toNat = 0 := by
        show msg.value.toNat = 0
        rw [hv]; rfl
      omega) (by
      intro o ho
      simp only [tokenOutputs, List.cons_append, List.mem_cons, List.mem_append, List.mem_map] at ho
      rcases ho with rfl | ⟨o', ho', rfl⟩ | ho
      · exact hm
      · exact hs.1 o' ho'
      · exact hs.2 o ho) hfee
  obtain ⟨known, inputs, st, pre, hk, hin', hle, hloop, inv, hest, hpre, hu⟩ := build_ok h2
  obtain ⟨_, _, x3, _, _⟩ := SpendProofs.completed_wire h3
  have hbo : (spendBuilder version lockTime fee jobs (tokenOutputs msg fixed rest)).outputs =
      (msg.toTxOutput :: fixed).map .knownValue ++ rest :=
    (SpendingProofs.spend_builder version lockTime fee jobs (tokenOutputs msg fixed rest)).2.2.2.2.2.1
  have hou : u.outputs = msg.toTxOutput :: fixed ++
      makeOutputsFrom st.amounts (0 + (msg.toTxOutput :: fixed).length) rest := by
    rw [hu]
    show makeOutputsFrom st.amounts 0 (spendBuilder version lockTime fee jobs (tokenOutputs msg fixed rest)).outputs
      = _
    rw [hbo, known_prefix]
  rw [h5] at h4
  refine ⟨tx, (makeOutputsFrom st.amounts (0 + (msg.toTxOutput :: fixed).length) rest).map TxOutput.wire, h1, h4, ?_⟩
  show tx.outputs.map TxOutput.wire = _
  rw [x3, hou]
  simp only [List.map_append, List.map_cons, List.cons_append]

/-- **C103** (sending): take any coins that can be spent (as in C100), 1 to 19 receivers, each with a quantity and an
output, and anything else to pay. Spending the coins on the SEND message, the outputs of the receivers and then
the other outputs goes through, and by the rules of SLP each receiver's output gets the quantity of this receiver, of
the given token; no other output gets tokens. -/
theorem C103_send (sz : Layout) (H : Bytes → Hash256) (version : Int32) (lockTime : UInt32) (fee : UInt64)
    (jobs : List (Job Dyn)) (hw : ∀ job ∈ jobs, job.Works)
    (type : SlpTokenType) (id : TokenId) (receivers : List (UInt64 × TxOutput)) (rest : List TxBuilderOutput)
    (hn : 1 ≤ receivers.length ∧ receivers.length ≤ 19)
    (hin : (jobs.map (·.input.value.toNat)).sum < 2 ^ 64)
    (hfix : outputSum (receivers.map Prod.snd ++ fixedOf rest) ≤ (jobs.map (·.input.value.toNat)).sum)
    (hs : (∀ r ∈ receivers, r.2.script.Serialisable) ∧ ∀ o ∈ rest, o.script.Serialisable)
    (hfee : spendBound jobs ((tokenOutputs (slpSendOutput type id (receivers.map Prod.fst))
      (receivers.map Prod.snd) rest).map (·.script)) * max 1 fee.toNat < 2 ^ 64) :
    ∃ tx, spend sz H version lockTime fee jobs (tokenOutputs (slpSendOutput type id (receivers.map Prod.fst))
        (receivers.map Prod.snd) rest) = .ok tx ∧
      (∀ k n o, receivers[k]? = some (n, o) → tx.wire.outputs[k + 1]? = some o.wire ∧
        Slp.tokensAt (displayedId H tx.wire) tx.wire (k + 1) = some (slpType type, id.1.reverse, n.toNat)) ∧
      ∀ vout, vout = 0 ∨ receivers.length < vout → Slp.tokensAt (displayedId H tx.wire) tx.wire vout = none := by
  obtain ⟨bs, hb1, hb2⟩ := send_bytes type id (receivers.map Prod.fst)
  obtain ⟨tx, more, h1, _, h2⟩ := spend_tokens sz H version lockTime fee jobs hw
    (slpSendOutput type id (receivers.map Prod.fst)) rfl (receivers.map Prod.snd) rest hin hfix
    ⟨bs, hb1, by rw [hb2, List.length_map]; omega⟩
    ⟨by
      intro o ho
      obtain ⟨r, hr, rfl⟩ := List.mem_map.mp ho
      exact hs.1 r hr, hs.2⟩ hfee
  have hp := send_parse type id (receivers.map Prod.fst)
  rw [List.length_map, if_pos hn] at hp
  refine ⟨tx, h1, ?_, ?_⟩
  · intro k n o hk
    have hlt := (List.getElem?_eq_some_iff.mp hk).1
    have ho : tx.wire.outputs[k + 1]? = some o.wire := by
      rw [h2, List.cons_append, List.getElem?_cons_succ, List.getElem?_append_left (by simpa using hlt)]
      simp [hk]
    refine ⟨ho, ?_⟩
    have hlt' := (List.getElem?_eq_some_iff.mp ho).1
    unfold Slp.tokensAt
    simp only [if_pos hlt']
    rw [h2]
    simp only [List.cons_append, List.head?_cons, Option.bind_some, TxOutput.wire, hp]
    rw [if_pos (by omega)]
    simp [hk]
  · intro vout hvout
    unfold Slp.tokensAt
    rw [h2]
    simp only [List.cons_append, List.head?_cons, Option.bind_some, TxOutput.wire, hp]
    split
    · split
      · have : ((receivers.map Prod.fst).map UInt64.toNat)[vout - 1]? = none := by
          rw [List.getElem?_eq_none_iff]
          simp only [List.length_map]
          omega
        rw [this]; rfl
      · rfl
    · rfl

/-- **C103** (creating): take any coins that can be spent, the parameters of a token the SLP specification allows, the
output that is to get the tokens, and anything else to pay. Spending the coins on the GENESIS message, that output and
the others goes through; by the rules of SLP that output gets the quantity, of a token whose id is the id of the
transaction, and no other output gets tokens; the mint baton is in the output named, if it is one of the fixed ones, and
in no other; and the token id made from the hash of the transaction is written as that id, so C103_send sends this
token. -/
theorem C103_create (sz : Layout) (H : Bytes → Hash256) (version : Int32) (lockTime : UInt32) (fee : UInt64)
    (jobs : List (Job Dyn)) (hw : ∀ job ∈ jobs, job.Works)
    (p : SlpGenesisParams) (hp : p.Allowed)
    (hlen : p.tokenTicker.length < 2 ^ 32 ∧ p.tokenName.length < 2 ^ 32 ∧
      p.tokenDocumentUrl.length < 2 ^ 32 ∧ p.tokenDocumentHash.length < 2 ^ 32)
    (first : TxOutput) (fixed : List TxOutput) (rest : List TxBuilderOutput)
    (hin : (jobs.map (·.input.value.toNat)).sum < 2 ^ 64)
    (hfix : outputSum (first :: fixed ++ fixedOf rest) ≤ (jobs.map (·.input.value.toNat)).sum)
    (hs : (∀ o ∈ first :: fixed, o.script.Serialisable) ∧ ∀ o ∈ rest, o.script.Serialisable)
    (hfee : spendBound jobs ((tokenOutputs (slpGenesisOutput p) (first :: fixed) rest).map (·.script)) *
      max 1 fee.toNat < 2 ^ 64) :
    ∃ tx t, spend sz H version lockTime fee jobs (tokenOutputs (slpGenesisOutput p) (first :: fixed) rest) = .ok tx ∧
      tx.hashed sz H = some t ∧ tx.wire.outputs[1]? = some first.wire ∧
      Slp.tokensAt (displayedId H tx.wire) tx.wire 1 =
        some (slpType p.slpTokenType, displayedId H tx.wire, p.initialTokenMintQuantity.toNat) ∧
      (∀ vout, vout ≠ 1 → Slp.tokensAt (displayedId H tx.wire) tx.wire vout = none) ∧
      (∀ k o, fixed[k]? = some o → tx.wire.outputs[k + 2]? = some o.wire ∧
        (Slp.batonAt tx.wire (k + 2) ↔ p.mintBatonVout.map UInt8.toNat = some (k + 2))) ∧
      (∀ vout, Slp.batonAt tx.wire vout → p.mintBatonVout.map UInt8.toNat = some vout) ∧
      (TokenId.fromHash t.hash).toVec = displayedId H tx.wire := by
  obtain ⟨hm, hparse⟩ := genesis_bytes p hlen
  rw [if_pos hp] at hparse
  obtain ⟨tx, more, h1, h2, h3⟩ := spend_tokens sz H version lockTime fee jobs hw
    (slpGenesisOutput p) rfl (first :: fixed) rest hin hfix hm hs hfee
  have hbaton : ∀ vout, Slp.batonAt tx.wire vout ↔
      vout < tx.wire.outputs.length ∧ p.mintBatonVout.map UInt8.toNat = some vout := by
    intro vout
    unfold Slp.batonAt
    refine and_congr_right fun _ => ?_
    constructor
    · rintro ⟨o, a1, a2, a3, a4, a5, a6, a7, ho, hq⟩
      rw [h3] at ho
      cases ho
      rw [TxOutput.wire, hparse] at hq
      simp only [Option.some.injEq, Slp.Message.genesis.injEq] at hq
      exact hq.2.2.2.2.2.2.1
    · intro hv
      rw [hv] at hparse
      exact ⟨_, _, _, _, _, _, _, _, by rw [h3]; rfl, hparse⟩
  have hlenw : 2 ≤ tx.wire.outputs.length := by
    rw [h3]; simp only [List.map_cons, List.cons_append, List.length_cons]; omega
  refine ⟨tx, ⟨tx, H tx.wire.encode, tx.wire.encode⟩, h1, ?_, ?_, ?_, ?_, ?_, ?_, rfl⟩
  · unfold UnhashedTx.hashed
    rw [h2]; rfl
  · rw [h3]; rfl
  · unfold Slp.tokensAt
    simp only [if_pos (show 1 < tx.wire.outputs.length by omega)]
    rw [h3]
    simp only [List.cons_append, List.head?_cons, Option.bind_some, TxOutput.wire, hparse, if_true]
  · intro vout hv
    unfold Slp.tokensAt
    rw [h3]
    simp only [List.cons_append, List.head?_cons, Option.bind_some, TxOutput.wire, hparse, if_neg hv]
    split <;> rfl
  · intro k o hk
    have hlt := (List.getElem?_eq_some_iff.mp hk).1
    have ho : tx.wire.outputs[k + 2]? = some o.wire := by
      rw [h3]
      simp only [List.map_cons, List.cons_append, List.getElem?_cons_succ]
      rw [List.getElem?_append_left (by simpa using hlt)]
      simp [hk]
    refine ⟨ho, ?_⟩
    have := (List.getElem?_eq_some_iff.mp ho).1
    rw [hbaton]
    exact ⟨fun h => h.2, fun h => ⟨this, h⟩⟩
  · intro vout h
    exact ((hbaton vout).mp h).2

/-- **C103** (size): a SEND message is 46 bytes and 9 for each receiver; so it is within the 223 bytes nodes relay
exactly if it has at most 19 receivers, which is also what SLP allows. -/
theorem C103_send_size (type : SlpTokenType) (id : TokenId) (amounts : List UInt64) :
    ∃ bs, (slpSendOutput type id amounts).toTxOutput.script.serOps = some bs ∧
      bs.length = 46 + 9 * amounts.length ∧ (bs.length ≤ 223 ↔ amounts.length ≤ 19) := by
  obtain ⟨bs, h1, h2⟩ := send_bytes type id amounts
  exact ⟨bs, h1, h2, by omega⟩

/-! ## Examples -/

/-- A token. -/
def toyToken : TokenId := ⟨List.replicate 31 0 ++ [7], rfl⟩

/-- Two receivers of tokens. -/
def toyReceivers : List (UInt64 × TxOutput) := [(5, ⟨546, toyAddress.toScript⟩), (7, ⟨546, toyAddress.toScript⟩)]

theorem toyScript_ok : toyAddress.toScript.Serialisable := ⟨_, PaymentProofs.p2pkh_bytes toyAddress rfl, by decide⟩

/-- `C103_send`: 5 and 7 tokens are sent, and the rest of the coins is returned. -/
example : ∃ tx, spend ⟨1, 1⟩ exampleHash 1 0 1000 mixedJobs (tokenOutputs (slpSendOutput .fungible toyToken [5, 7])
      [⟨546, toyAddress.toScript⟩, ⟨546, toyAddress.toScript⟩]
      [.leftover 546 18446744073709551615 0 toyAddress.toScript]) = .ok tx ∧
    Slp.tokensAt (displayedId exampleHash tx.wire) tx.wire 1 = some (.type1, 7 :: List.replicate 31 0, 5) ∧
    Slp.tokensAt (displayedId exampleHash tx.wire) tx.wire 2 = some (.type1, 7 :: List.replicate 31 0, 7) ∧
    Slp.tokensAt (displayedId exampleHash tx.wire) tx.wire 3 = none := by
  obtain ⟨tx, h1, h2, h3⟩ := C103_send ⟨1, 1⟩ exampleHash 1 0 1000 mixedJobs mixedJobs_work .fungible toyToken toyReceivers
    [.leftover 546 18446744073709551615 0 toyAddress.toScript] (by decide) (by decide) (by decide)
    ⟨by
      intro r hr
      simp only [toyReceivers, List.mem_cons, List.not_mem_nil, or_false] at hr
      rcases hr with rfl | rfl <;> exact toyScript_ok, by
      intro o ho
      rw [List.mem_singleton] at ho
      subst ho
      exact toyScript_ok⟩ (by decide +kernel)
  exact ⟨tx, h1, (h2 0 5 _ rfl).2, (h2 1 7 _ rfl).2, h3 3 (.inr (by decide))⟩

/-- The parameters of a token with a mint baton in output 2. -/
def toyGenesis : SlpGenesisParams := ⟨.fungible, [84, 79, 89], [], [], [], 2, some 2, 1000⟩

/-- `C103_create`: a token is created, with its baton in output 2. -/
example : ∃ tx, spend ⟨1, 1⟩ exampleHash 1 0 1000 mixedJobs (tokenOutputs (slpGenesisOutput toyGenesis)
      [⟨546, toyAddress.toScript⟩, ⟨600, toyAddress.toScript⟩]
      [.leftover 546 18446744073709551615 0 toyAddress.toScript]) = .ok tx ∧
    Slp.tokensAt (displayedId exampleHash tx.wire) tx.wire 1 =
      some (.type1, displayedId exampleHash tx.wire, 1000) ∧
    Slp.batonAt tx.wire 2 ∧ ¬ Slp.batonAt tx.wire 3 := by
  obtain ⟨tx, t, h1, _, _, h2, _, h3, h4, _⟩ := C103_create ⟨1, 1⟩ exampleHash 1 0 1000 mixedJobs mixedJobs_work
    toyGenesis ⟨.inl rfl, by decide, by rintro v ⟨⟩; decide, by rintro ⟨⟩⟩ (by decide) ⟨546, toyAddress.toScript⟩ [⟨600, toyAddress.toScript⟩]
    [.leftover 546 18446744073709551615 0 toyAddress.toScript] (by decide) (by decide)
    ⟨by
      intro r hr
      simp only [List.mem_cons, List.not_mem_nil, or_false] at hr
      rcases hr with rfl | rfl <;> exact toyScript_ok, by
      intro o ho
      rw [List.mem_singleton] at ho
      subst ho
      exact toyScript_ok⟩ (by decide +kernel)
  exact ⟨tx, h1, h2, (h3 0 _ rfl).2.mpr rfl, fun h => by simpa [toyGenesis] using h4 3 h⟩

/-- `C103_send_size`: the largest message. -/
example : ((slpSendOutput .fungible toyToken (List.replicate 19 1)).toTxOutput.script.serOps).map List.length =
    some 217 := by
  obtain ⟨bs, h1, h2, _⟩ := C103_send_size .fungible toyToken (List.replicate 19 1)
  rw [h1, Option.map_some, h2]
  decide

/-- **C103** (order): the receivers have to come first. If a leftover output is before them and there is nothing left,
it is dropped and the outputs behind it move up: here 5 tokens are meant for the leftover output and 7 for the
receiver behind it, but the receiver gets 5, and 7 are lost. -/
theorem C103_leftover_before_fails :
    ∃ tx, spend ⟨1, 1⟩ exampleHash 1 0 1000 mixedJobs
        [.knownValue (slpSendOutput .fungible toyToken [5, 7]).toTxOutput,
          .leftover 546 18446744073709551615 0 toyAddress.toScript, .knownValue ⟨20000, toyAddress.toScript⟩] = .ok tx ∧
      tx.wire.outputs[1]? = some ⟨20000, scriptBytes toyAddress.toScript⟩ ∧
      Slp.tokensAt (displayedId exampleHash tx.wire) tx.wire 1 = some (.type1, 7 :: List.replicate 31 0, 5) ∧
      Slp.tokensAt (displayedId exampleHash tx.wire) tx.wire 2 = none := by
  have h : (match spend ⟨1, 1⟩ exampleHash 1 0 1000 mixedJobs
        [.knownValue (slpSendOutput .fungible toyToken [5, 7]).toTxOutput,
          .leftover 546 18446744073709551615 0 toyAddress.toScript, .knownValue ⟨20000, toyAddress.toScript⟩] with
      | .ok tx => decide (tx.outputs = [(slpSendOutput .fungible toyToken [5, 7]).toTxOutput,
          ⟨20000, toyAddress.toScript⟩])
      | _ => false) = true := by decide +kernel
  split at h
  · rename_i tx htx
    refine ⟨tx, htx, ?_⟩
    have ho := of_decide_eq_true h
    have hw : tx.wire.outputs = [(slpSendOutput .fungible toyToken [5, 7]).toTxOutput.wire,
        ⟨20000, scriptBytes toyAddress.toScript⟩] := by
      show tx.outputs.map TxOutput.wire = _
      rw [ho]; rfl
    have hp : Slp.parse (scriptBytes (slpSendOutput .fungible toyToken [5, 7]).toTxOutput.script) = _ :=
      send_parse .fungible toyToken [5, 7]
    rw [if_pos (by decide)] at hp
    unfold Slp.tokensAt
    simp only [hw, TxOutput.wire, hp, List.head?_cons, Option.bind_some]
    exact ⟨rfl, rfl, rfl⟩
  · cases h

end BCash
