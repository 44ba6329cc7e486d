import Verif.Model.Slp
import Verif.Spec.Slp
import Verif.Props.Script

/-! # C44: SLP outputs -/

namespace BCash
open Spec

/-- Spec: the token type a `SlpTokenType` stands for. -/
def slpType : SlpTokenType → Slp.TokenType
  | .fungible => .type1
  | .nft1Child => .nft1Child
  | .nft1Group => .nft1Group

namespace SlpProofs

theorem take?_append {n : Nat} {d : Bytes} (h : d.length = n) (rest : Bytes) :
    Slp.take? n (d ++ rest) = some (d, rest) := by
  subst h
  simp [Slp.take?]

/-- A non-minimal push is read back by the SLP rules. -/
theorem push?_pushToken (d rest : Bytes) (hlen : d.length < 2 ^ 32) :
    Slp.push? ((pushToken d false).encode ++ rest) = some (d, rest) := by
  unfold pushToken
  simp only [Bool.false_and, Bool.false_eq_true, if_false]
  split
  · next h =>
    have : d = [] := List.length_eq_zero_iff.mp h
    subst this
    rfl
  · next h =>
    unfold formOf
    split
    · next h1 =>
      simp only [Token.encode, List.cons_append, Slp.push?]
      rw [ofNat_toNat_lt (by omega), if_pos (by omega)]
      exact take?_append rfl rest
    · split
      · next h1 h2 =>
        simp only [Token.encode, List.cons_append, Slp.push?, List.append_assoc]
        rw [if_neg (by decide), if_pos trivial, take?_append (leBytes_length 1 _), Option.bind_some]
        dsimp only
        rw [leVal_leBytes_of_lt (by omega)]
        exact take?_append rfl rest
      · split
        · next h1 h2 h3 =>
          simp only [Token.encode, List.cons_append, Slp.push?, List.append_assoc]
          rw [if_neg (by decide), if_neg (by decide), if_pos trivial, take?_append (leBytes_length 2 _),
            Option.bind_some]
          dsimp only
          rw [leVal_leBytes_of_lt (by omega)]
          exact take?_append rfl rest
        · next h1 h2 h3 =>
          simp only [Token.encode, List.cons_append, Slp.push?, List.append_assoc]
          rw [if_neg (by decide), if_neg (by decide), if_neg (by decide), if_pos trivial,
            take?_append (leBytes_length 4 _), Option.bind_some]
          dsimp only
          rw [leVal_leBytes_of_lt (by omega)]
          exact take?_append rfl rest

theorem push?_length {bs d rest : Bytes} (h : Slp.push? bs = some (d, rest)) :
    rest.length < bs.length := by
  have ht : ∀ {n : Nat} {bs d rest : Bytes}, Slp.take? n bs = some (d, rest) →
      rest.length ≤ bs.length := by
    intro n bs d rest h
    unfold Slp.take? at h
    split at h
    · cases h; simp
    · cases h
  have ht2 : ∀ {k : Nat} {bs d rest : Bytes}, ((Slp.take? k bs).bind fun (l, rest) =>
      Slp.take? (leVal l) rest) = some (d, rest) → rest.length ≤ bs.length := by
    intro k bs d rest h
    obtain ⟨⟨l, r⟩, h1, h2⟩ := Option.bind_eq_some_iff.mp h
    exact Nat.le_trans (ht h2) (ht h1)
  cases bs with
  | nil => cases h
  | cons op r =>
    simp only [Slp.push?] at h
    rw [List.length_cons]
    refine Nat.lt_succ_of_le ?_
    split at h
    · exact ht h
    · split at h
      · exact ht2 h
      · split at h
        · exact ht2 h
        · split at h
          · exact ht2 h
          · cases h

theorem fieldsLoop_fuel : ∀ (n : Nat) (bs : Bytes), bs.length ≤ n →
    Slp.fieldsLoop n bs = Slp.fields bs := by
  have key : ∀ (n m : Nat) (bs : Bytes), bs.length ≤ n → bs.length ≤ m →
      Slp.fieldsLoop n bs = Slp.fieldsLoop m bs := by
    intro n
    induction n with
    | zero =>
      intro m bs h _
      have : bs = [] := List.length_eq_zero_iff.mp (by omega)
      subst this
      cases m <;> rfl
    | succ n ih =>
      intro m bs h1 h2
      cases bs with
      | nil => cases m <;> rfl
      | cons b bs =>
        cases m with
        | zero => simp at h2
        | succ m =>
          simp only [Slp.fieldsLoop]
          cases hp : Slp.push? (b :: bs) with
          | none => rfl
          | some p =>
            obtain ⟨d, rest⟩ := p
            have := push?_length hp
            simp only [Option.bind_some]
            rw [ih m rest (by omega) (by omega)]
  intro n bs h
  exact key n bs.length bs h (Nat.le_refl _)

theorem fields_cons (d rest : Bytes) (hlen : d.length < 2 ^ 32) :
    Slp.fields ((pushToken d false).encode ++ rest) = (Slp.fields rest).map (d :: ·) := by
  obtain ⟨b, tl, he⟩ := encode_cons (pushToken d false)
  have hp := push?_pushToken d rest hlen
  have hl := push?_length hp
  unfold Slp.fields
  rw [he, List.cons_append] at hp hl ⊢
  rw [List.length_cons] at hl ⊢
  simp only [Slp.fieldsLoop]
  rw [hp, Option.bind_some]
  dsimp only
  rw [fieldsLoop_fuel _ _ (by omega)]
  rfl

/-- A script of non-minimal pushes serialises, and the SLP rules read the pushed data back. -/
theorem serialize_fields (ds : List Bytes) (h : ∀ d ∈ ds, d.length < 2 ^ 32) :
    ∃ bs, serializeOps (ds.map fun d => .pushByteArray d false) = .ok bs ∧ Slp.fields bs = some ds := by
  induction ds with
  | nil => exact ⟨[], rfl, rfl⟩
  | cons d ds ih =>
    obtain ⟨bs, h1, h2⟩ := ih fun x hx => h x (List.mem_cons_of_mem _ hx)
    have hd := h d List.mem_cons_self
    refine ⟨(pushToken d false).encode ++ bs, ?_, ?_⟩
    · rw [List.map_cons]
      exact serializeOps_cons_ok (serializePushBytes_token d false hd) h1
    · rw [fields_cons d bs hd, h2]
      rfl

theorem beVal_reverse (bs : Bytes) : Slp.beVal bs.reverse = leVal bs := by
  unfold Slp.beVal
  induction bs with
  | nil => rfl
  | cons b bs ih =>
    rw [List.reverse_cons, List.foldl_append, ih]
    simp only [List.foldl_cons, List.foldl_nil, leVal]
    omega

theorem beVal_u64 (n : UInt64) : Slp.beVal (u64BeBytes n) = n.toNat := by
  unfold u64BeBytes
  rw [beVal_reverse, leVal_leBytes_of_lt]
  exact n.toNat_lt

theorem length_u64 (n : UInt64) : (u64BeBytes n).length = 8 := by
  unfold u64BeBytes
  rw [List.length_reverse, leBytes_length]

theorem amountOps_data (idx : Nat) (amounts : List UInt64) :
    (slpAmountOpsFrom idx amounts).map (Op.map ByteArray.data) =
      (amounts.map u64BeBytes).map fun d => .pushByteArray d false := by
  induction amounts generalizing idx with
  | nil => rfl
  | cons a as ih =>
    rw [slpAmountOpsFrom, List.map_cons, List.map_cons, List.map_cons, ih]
    rfl

theorem mapM_quantity (amounts : List UInt64) :
    (amounts.map u64BeBytes).mapM Slp.quantity? = some (amounts.map UInt64.toNat) := by
  induction amounts with
  | nil => rfl
  | cons a as ih =>
    rw [List.map_cons, List.mapM_cons, ih]
    unfold Slp.quantity?
    rw [if_pos (length_u64 a), beVal_u64]
    rfl

theorem tokenType_toByte (t : SlpTokenType) : Slp.tokenType? [t.toByte] = some (slpType t) := by
  cases t <;> rfl

end SlpProofs
open SlpProofs

/-- **C44** (SEND): the script serialises, and by the SLP rules it is a SEND message with exactly the
given token type, token id (in the byte order in which transaction ids are displayed) and amounts in
order — for the 1 to 19 amounts the SLP specification allows; with none or more than 19 it is not a
valid message. -/
theorem C44_send_output (type : SlpTokenType) (id : TokenId) (amounts : List UInt64) :
    (slpSendOutput type id amounts).value = 0 ∧
    ∃ script, serializeOps (slpSendOutput type id amounts).toTxOutput.script = .ok script ∧
      Slp.parse script =
        if 1 ≤ amounts.length ∧ amounts.length ≤ 19 then
          some (.send (slpType type) id.1.reverse (amounts.map UInt64.toNat))
        else none := by
  refine ⟨rfl, ?_⟩
  obtain ⟨bs, h1, h2⟩ := serialize_fields ([slpLokadId, [type.toByte], SlpTxType.SEND.toBytes,
      id.1.reverse] ++ amounts.map u64BeBytes) (by
    intro d hd
    simp only [List.cons_append, List.nil_append, List.mem_cons, List.mem_map] at hd
    rcases hd with rfl | rfl | rfl | rfl | ⟨a, _, rfl⟩
    · decide
    · exact (by decide : 1 < 2 ^ 32)
    · decide
    · rw [List.length_reverse, id.2]; decide
    · rw [length_u64]; decide)
  refine ⟨[Opcode.OP_RETURN.toByte] ++ bs, ?_, ?_⟩
  · unfold SlpOutput.toTxOutput slpSendOutput
    dsimp only
    rw [List.map_append, slpAmountOps, amountOps_data]
    rw [List.map_append] at h1
    exact serializeOps_cons_ok rfl h1
  · simp only [Slp.parse, List.cons_append, List.nil_append, Opcode.toByte]
    rw [h2, Option.bind_some]
    simp only [List.cons_append, List.nil_append]
    rw [if_pos (by decide), tokenType_toByte, Option.bind_some, if_neg (by decide), if_pos (by decide)]
    unfold Slp.send?
    dsimp only
    rw [List.length_reverse, id.2, List.length_map, mapM_quantity]
    simp

/-- Spec: the parameters describe a token that the SLP specification allows. -/
def SlpGenesisParams.Allowed (p : SlpGenesisParams) : Prop :=
  (p.tokenDocumentHash.length = 0 ∨ p.tokenDocumentHash.length = 32) ∧ p.decimals.toNat ≤ 9 ∧
  (∀ v, p.mintBatonVout = some v → 2 ≤ v.toNat) ∧
  (p.slpTokenType = .nft1Child →
    p.decimals = 0 ∧ p.mintBatonVout = none ∧ p.initialTokenMintQuantity = 1)

instance (p : SlpGenesisParams) : Decidable p.Allowed := by
  unfold SlpGenesisParams.Allowed
  cases p.mintBatonVout with
  | none => simp only [reduceCtorEq, false_implies, implies_true]; infer_instance
  | some v => simp only [Option.some.injEq, forall_eq']; infer_instance

/-- **C44** (GENESIS): the script serialises, and by the SLP rules it is a GENESIS message with exactly
the given parameters, provided the SLP specification allows them; otherwise it is not a valid message. -/
theorem C44_genesis_output (p : SlpGenesisParams)
    (hlen : p.tokenTicker.length < 2 ^ 32 ∧ p.tokenName.length < 2 ^ 32 ∧
      p.tokenDocumentUrl.length < 2 ^ 32 ∧ p.tokenDocumentHash.length < 2 ^ 32) :
    (slpGenesisOutput p).value = 0 ∧
    ∃ script, serializeOps (slpGenesisOutput p).toTxOutput.script = .ok script ∧
      Slp.parse script =
        if p.Allowed then
          some (.genesis (slpType p.slpTokenType) p.tokenTicker p.tokenName p.tokenDocumentUrl
            p.tokenDocumentHash p.decimals.toNat (p.mintBatonVout.map UInt8.toNat)
            p.initialTokenMintQuantity.toNat)
        else none := by
  refine ⟨rfl, ?_⟩
  obtain ⟨type, ticker, name, url, hash, dec, baton, qty⟩ := p
  obtain ⟨l1, l2, l3, l4⟩ := hlen
  dsimp only at l1 l2 l3 l4
  obtain ⟨bs, h1, h2⟩ := serialize_fields [slpLokadId, [type.toByte], SlpTxType.GENESIS.toBytes,
      ticker, name, url, hash, [dec], (match baton with
        | some vout => [vout]
        | none => []), u64BeBytes qty] (by
    intro d hd
    simp only [List.mem_cons, List.not_mem_nil, or_false] at hd
    rcases hd with rfl | rfl | rfl | rfl | rfl | rfl | rfl | rfl | rfl | rfl
    · decide
    · exact (by decide : 1 < 2 ^ 32)
    · decide
    · exact l1
    · exact l2
    · exact l3
    · exact l4
    · exact (by decide : 1 < 2 ^ 32)
    · cases baton
      · exact (by decide : 0 < 2 ^ 32)
      · exact (by decide : 1 < 2 ^ 32)
    · rw [length_u64]; decide)
  refine ⟨[Opcode.OP_RETURN.toByte] ++ bs, serializeOps_cons_ok rfl h1, ?_⟩
  simp only [Slp.parse, List.cons_append, List.nil_append, Opcode.toByte]
  rw [h2, Option.bind_some]
  simp only
  rw [if_pos (by decide), tokenType_toByte, Option.bind_some, if_pos (by decide)]
  have hdec : Slp.beVal [dec] = dec.toNat := by simp [Slp.beVal]
  have hqty : qty.toNat = 1 ↔ qty = 1 := by
    constructor
    · intro h; exact UInt64.toNat_inj.mp h
    · rintro rfl; rfl
  have hd0 : dec.toNat = 0 ↔ dec = 0 := by
    constructor
    · intro h; exact UInt8.toNat_inj.mp h
    · rintro rfl; rfl
  have hty : slpType type = .nft1Child ↔ type = .nft1Child := by cases type <;> decide
  simp only [Slp.genesis?, Slp.decimals?, hdec, Slp.quantity?, length_u64, beVal_u64, if_true,
    List.length_singleton, true_and, SlpGenesisParams.Allowed]
  by_cases hd9 : dec.toNat ≤ 9
  · cases baton with
    | none =>
      simp [hd9, Slp.baton?, hqty, hd0, hty]
    | some v =>
      have hv : Slp.beVal [v] = v.toNat := by simp [Slp.beVal]
      by_cases hv2 : 2 ≤ v.toNat <;> simp [hd9, Slp.baton?, hv, hv2, hqty, hty]
  · simp [hd9]

/-- Spec: the names of the arrays pushed by a list of operations. -/
def Spec.pushNames (ops : List (Op ByteArray)) : List (Option String) :=
  ops.filterMap fun
    | .pushByteArray b _ => some b.name
    | _ => none

/-- **C44** (names): the fields are pushed under the names they have in the SLP specification, the amounts of a
SEND numbered from one. -/
theorem C44_names (type : SlpTokenType) (id : TokenId) (amounts : List UInt64) (p : SlpGenesisParams) :
    pushNames (slpSendOutput type id amounts).ops =
      [some "lokad_id", some "token_type", some "transaction_type", some "token_id"] ++
        (List.range amounts.length).map (fun k => some ("token_output_quantity" ++ toString (k + 1))) ∧
    pushNames (slpGenesisOutput p).ops =
      [some "lokad_id", some "token_type", some "transaction_type", some "token_ticker", some "token_name",
        some "token_document_url", some "token_document_hash", some "decimals", some "mint_baton_vout",
        some "initial_token_mint_quantity"] := by
  refine ⟨?_, rfl⟩
  have h : ∀ (as : List UInt64) (n : Nat), pushNames (slpAmountOpsFrom n as) =
      (List.range' n as.length).map (fun k => some ("token_output_quantity" ++ toString (k + 1))) := by
    intro as
    induction as with
    | nil => intro n; rfl
    | cons a as ih =>
      intro n
      rw [slpAmountOpsFrom, pushNames, List.filterMap_cons_some (by rfl), List.length_cons, List.range'_succ,
        List.map_cons]
      exact congrArg₂ List.cons rfl (ih (n + 1))
  have := h amounts 0
  rw [← List.range_eq_range'] at this
  rw [← this]
  rfl

/-- **C44** (token id): the big-endian bytes of a token id are those that stand for the transaction that
created the token in the inputs that spend its outputs; the bytes of the token id in a message are these in
the opposite order. -/
theorem C44_token_bytes (id : TokenId) (vout : UInt32) :
    (∃ index, index.length = 4 ∧ Codec.txOutpoint.ser ⟨id, vout⟩ = some (id.asSliceBe ++ index)) ∧
    id.toVec = id.asSliceBe.reverse := by
  refine ⟨⟨leBytes 4 vout.toNat, by simp, ?_⟩, rfl⟩
  rfl

/-- **C44** (token id): reading a token id from its bytes is the inverse of writing it. -/
theorem C44_token_id (id : TokenId) (s : Bytes) :
    (TokenId.fromSlice id.toVec).toOption = some id ∧
    ((TokenId.fromSlice s).toOption = some id → id.toVec = s) := by
  unfold TokenId.fromSlice TokenId.toVec Hash.fromSliceLe Hash.toVecLe Hash.fromSlice
  constructor
  · simp [id.2, Except.toOption]
  · intro h
    split at h
    · simp only [Except.toOption, Option.some.injEq] at h
      subst h
      simp
    · cases h

/-- Non-vacuity: a SEND of two amounts and its bytes. -/
example : ∃ script, serializeOps (slpSendOutput .fungible ⟨List.replicate 31 0 ++ [0xab], rfl⟩
      [1000, 2]).toTxOutput.script = .ok script ∧
    Slp.parse script = some (.send .type1 (0xab :: List.replicate 31 0) [1000, 2]) := by
  refine ⟨_, rfl, ?_⟩
  decide +kernel

/-- Non-vacuity: an allowed and a disallowed GENESIS. -/
example : SlpGenesisParams.Allowed ⟨.nft1Group, [0x41], [], [], List.replicate 32 1, 3, some 2, 10⟩ ∧
    ¬ SlpGenesisParams.Allowed ⟨.nft1Child, [0x41], [], [], List.replicate 32 1, 0, some 2, 1⟩ ∧
    ¬ SlpGenesisParams.Allowed ⟨.fungible, [0x41], [], [], List.replicate 64 1, 0, none, 1⟩ := by
  simp [SlpGenesisParams.Allowed]

end BCash
