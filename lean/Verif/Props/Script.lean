import Mathlib.Data.List.Forall2
import Verif.Proofs.Script
import Verif.Proofs.ByteArray
import Verif.Props.ScriptNum
import Verif.Spec.Integer

/-! # C18–C22, C25: scripts -/

namespace BCash
open Spec

/-! ## C22: opcodes and bytes -/

/-- **C22**: opcode → byte → opcode is the identity, and a byte has at most one opcode. -/
theorem C22_opcode_byte_bijection (o o' : Opcode) (b : UInt8) :
    Opcode.ofByte o.toByte = some o ∧
    (Opcode.ofByte b = some o → o.toByte = b) ∧
    (o.toByte = o'.toByte → o = o') := by
  refine ⟨ofByte_toByte o, toByte_ofByte, fun h => ?_⟩
  have h1 := ofByte_toByte o
  rw [h, ofByte_toByte o'] at h1
  exact (Option.some.inj h1).symm

example : Opcode.ofByte 0x76 = some .OP_DUP ∧ Opcode.OP_DUP.toByte = 0x76 ∧
    Opcode.ofByte 0xbe = none := by decide

/-- Spec: the opcodes of the Bitcoin Cash script language in blocks of consecutive byte values, each
with its first byte value. -/
def Spec.consensusOpcodes : List (Nat × List Opcode) := [
  (0x00, [.OP_0]),
  (0x4c, [.OP_PUSHDATA1, .OP_PUSHDATA2, .OP_PUSHDATA4, .OP_1NEGATE, .OP_RESERVED]),
  (0x51, [.OP_1, .OP_2, .OP_3, .OP_4, .OP_5, .OP_6, .OP_7, .OP_8, .OP_9, .OP_10, .OP_11, .OP_12,
    .OP_13, .OP_14, .OP_15, .OP_16]),
  (0x61, [.OP_NOP, .OP_VER, .OP_IF, .OP_NOTIF, .OP_VERIF, .OP_VERNOTIF, .OP_ELSE, .OP_ENDIF,
    .OP_VERIFY, .OP_RETURN]),
  (0x6b, [.OP_TOALTSTACK, .OP_FROMALTSTACK, .OP_2DROP, .OP_2DUP, .OP_3DUP, .OP_2OVER, .OP_2ROT,
    .OP_2SWAP, .OP_IFDUP, .OP_DEPTH, .OP_DROP, .OP_DUP, .OP_NIP, .OP_OVER, .OP_PICK, .OP_ROLL,
    .OP_ROT, .OP_SWAP, .OP_TUCK]),
  (0x7e, [.OP_CAT, .OP_SPLIT, .OP_NUM2BIN, .OP_BIN2NUM, .OP_SIZE]),
  (0x83, [.OP_INVERT, .OP_AND, .OP_OR, .OP_XOR, .OP_EQUAL, .OP_EQUALVERIFY, .OP_RESERVED1,
    .OP_RESERVED2]),
  (0x8b, [.OP_1ADD, .OP_1SUB, .OP_2MUL, .OP_2DIV, .OP_NEGATE, .OP_ABS, .OP_NOT, .OP_0NOTEQUAL,
    .OP_ADD, .OP_SUB, .OP_MUL, .OP_DIV, .OP_MOD, .OP_LSHIFT, .OP_RSHIFT, .OP_BOOLAND, .OP_BOOLOR,
    .OP_NUMEQUAL, .OP_NUMEQUALVERIFY, .OP_NUMNOTEQUAL, .OP_LESSTHAN, .OP_GREATERTHAN,
    .OP_LESSTHANOREQUAL, .OP_GREATERTHANOREQUAL, .OP_MIN, .OP_MAX, .OP_WITHIN]),
  (0xa6, [.OP_RIPEMD160, .OP_SHA1, .OP_SHA256, .OP_HASH160, .OP_HASH256, .OP_CODESEPARATOR,
    .OP_CHECKSIG, .OP_CHECKSIGVERIFY, .OP_CHECKMULTISIG, .OP_CHECKMULTISIGVERIFY]),
  (0xb0, [.OP_NOP1, .OP_CHECKLOCKTIMEVERIFY, .OP_CHECKSEQUENCEVERIFY, .OP_NOP4, .OP_NOP5,
    .OP_NOP6, .OP_NOP7, .OP_NOP8, .OP_NOP9, .OP_NOP10]),
  (0xba, [.OP_CHECKDATASIG, .OP_CHECKDATASIGVERIFY, .OP_REVERSEBYTES])]

/-- Spec: `b` is the byte value of the opcode. -/
def Spec.ConsensusByte (o : Opcode) (b : Nat) : Prop :=
  ∃ blk ∈ Spec.consensusOpcodes, ∃ i, blk.2[i]? = some o ∧ b = blk.1 + i

/-- The byte values as a function. -/
def opcodeNumber (o : Opcode) : Option Nat :=
  Spec.consensusOpcodes.findSome? fun blk => (blk.2.findIdx? (· == o)).map (blk.1 + ·)

theorem consensus_table : ∀ blk ∈ Spec.consensusOpcodes, ∀ i : Fin blk.2.length,
    opcodeNumber (blk.2.get i) = some (blk.1 + i) := by decide +kernel

theorem consensus_lookup (o : Opcode) (b : Nat) (h : Spec.ConsensusByte o b) :
    opcodeNumber o = some b := by
  obtain ⟨blk, hb, i, hi, rfl⟩ := h
  have hl : i < blk.2.length := (List.getElem?_eq_some_iff.mp hi).1
  have := consensus_table blk hb ⟨i, hl⟩
  rw [List.get_eq_getElem, (List.getElem?_eq_some_iff.mp hi).2] at this
  exact this

/-- **C22** (byte values): opcodes have the byte values of the script language: the library writes an
opcode as the byte the language assigns to it and reads that byte as this opcode. The only
other value of the enumeration is the end marker, which has the first undefined byte value. -/
theorem C22_consensus_bytes (o : Opcode) (b : UInt8) :
    (o ≠ .FIRST_UNDEFINED_OP_VALUE → (o.toByte = b ↔ Spec.ConsensusByte o b.toNat)) ∧
    (o ≠ .FIRST_UNDEFINED_OP_VALUE → (Opcode.ofByte b = some o ↔ Spec.ConsensusByte o b.toNat)) ∧
    (o = .FIRST_UNDEFINED_OP_VALUE → o.toByte = 0xbd ∧ ∀ b, ¬ Spec.ConsensusByte o b) := by
  have h1 : ∀ o : Opcode, o ≠ .FIRST_UNDEFINED_OP_VALUE → opcodeNumber o = some o.toByte.toNat := by
    intro o; cases o <;> decide +kernel
  have h2 : ∀ o : Opcode, o ≠ .FIRST_UNDEFINED_OP_VALUE → Spec.ConsensusByte o o.toByte.toNat := by
    intro o ho
    have h := h1 o ho
    obtain ⟨blk, hb, hi⟩ := List.exists_of_findSome?_eq_some h
    obtain ⟨i, hi, e⟩ := Option.map_eq_some_iff.mp hi
    obtain ⟨hl, he, _⟩ := List.findIdx?_eq_some_iff_getElem.mp hi
    exact ⟨blk, hb, i, List.getElem?_eq_some_iff.mpr ⟨hl, by simpa using he⟩, e.symm⟩
  have h3 : o ≠ .FIRST_UNDEFINED_OP_VALUE → (o.toByte = b ↔ Spec.ConsensusByte o b.toNat) := by
    intro ho
    constructor
    · rintro rfl; exact h2 o ho
    · intro h
      have := consensus_lookup o _ h
      rw [h1 o ho] at this
      exact UInt8.toNat_inj.mp (Option.some.inj this)
  refine ⟨h3, fun ho => ?_, ?_⟩
  · rw [← h3 ho]
    exact ⟨toByte_ofByte, fun h => h ▸ ofByte_toByte o⟩
  · rintro rfl
    refine ⟨rfl, fun b h => ?_⟩
    have := consensus_lookup _ _ h
    have hn : opcodeNumber .FIRST_UNDEFINED_OP_VALUE = none := by decide +kernel
    rw [hn] at this
    cases this

example : Spec.ConsensusByte .OP_CHECKSIG 0xac :=
  ⟨_, .tail _ (.tail _ (.tail _ (.tail _ (.tail _ (.tail _ (.tail _ (.tail _ (.head _)))))))), 6, rfl, rfl⟩

/-- **C22** (bytes of a script): a byte that is not a push prefix is parsed on its own, either to the
opcode with that byte or, if there is none, kept as an undefined byte; serialising gives the byte
back. -/
theorem C22_every_byte (b : UInt8) (rest : Bytes) (h : b = 0 ∨ 0x4f ≤ b.toNat) :
    ∃ op, deserializeOp b rest = .ok (op, rest) ∧ serializeOp op = .ok [b] ∧
      ((∃ o : Opcode, op = .code o ∧ o.toByte = b) ∨ (op = .invalid b ∧ Opcode.ofByte b = none)) := by
  have h1 := deserializeOp_token (.op b) h b [] rest rfl
  refine ⟨codeOrInvalid b, h1, ?_, ?_⟩
  · unfold codeOrInvalid
    split
    · next h => rw [h]; rfl
    · split
      · next o ho => simp [serializeOp, toByte_ofByte ho]
      · rfl
  · unfold codeOrInvalid
    split
    · next h => left; exact ⟨.OP_0, rfl, by rw [h]; rfl⟩
    · split
      · next o ho => left; exact ⟨o, rfl, toByte_ofByte ho⟩
      · next ho => right; exact ⟨rfl, ho⟩

example : deserializeOp 0xff [1] = .ok (.invalid 0xff, [1]) ∧
    deserializeOp 0xac [1] = .ok (.code .OP_CHECKSIG, [1]) := by decide

/-! ## C18: operations round-trip -/

/-- The opcode pushing exactly these bytes, if there is one. -/
def smallOpcode : Bytes → Option Opcode
  | [] => some .OP_0
  | [0x81] => some .OP_1NEGATE
  | [1] => some .OP_1 | [2] => some .OP_2 | [3] => some .OP_3 | [4] => some .OP_4
  | [5] => some .OP_5 | [6] => some .OP_6 | [7] => some .OP_7 | [8] => some .OP_8
  | [9] => some .OP_9 | [10] => some .OP_10 | [11] => some .OP_11 | [12] => some .OP_12
  | [13] => some .OP_13 | [14] => some .OP_14 | [15] => some .OP_15 | [16] => some .OP_16
  | _ => none

/-- `ParsedAs op op'`: the operation `op` comes back as `op'`. -/
inductive ParsedAs : Op Bytes → Op Bytes → Prop
  /-- opcodes are unchanged -/
  | code (c) : ParsedAs (.code c) (.code c)
  /-- undefined bytes are unchanged -/
  | invalid (b) : ParsedAs (.invalid b) (.invalid b)
  /-- a minimal push that has a one-byte opcode comes back as that opcode -/
  | small (d c) : smallOpcode d = some c → ParsedAs (.pushByteArray d true) (.code c)
  /-- a push of other bytes comes back as a minimal push of the same bytes -/
  | data (d m) : smallOpcode d = none → ParsedAs (.pushByteArray d m) (.pushByteArray d true)
  /-- a non-minimal push of bytes that have an opcode comes back unchanged -/
  | nonMinimal (d c) : smallOpcode d = some c →
      ParsedAs (.pushByteArray d false) (.pushByteArray d false)
  /-- a boolean comes back as OP_1 or OP_0 -/
  | boolean (b) : ParsedAs (.pushBoolean b) (.code (if b then .OP_1 else .OP_0))
  /-- an integer comes back as the minimal push of its script number -/
  | integer (i v op) : IsMinimalNum v → scriptNum v = i → ParsedAs (.pushByteArray v true) op →
      ParsedAs (.pushInteger i) op

/-- Operations that make sense as single operations: opcodes other than the push prefixes, bytes
that are not opcodes or push prefixes, integers in the script range, pushes of less than 4 GiB. -/
def Op.WellFormed : Op Bytes → Prop
  | .code c => c ≠ .OP_PUSHDATA1 ∧ c ≠ .OP_PUSHDATA2 ∧ c ≠ .OP_PUSHDATA4
  | .invalid b => Opcode.ofByte b = none ∧ 0x4b < b.toNat
  | .pushByteArray d _ => d.length < 2 ^ 32
  | .pushBoolean _ => True
  | .pushInteger i => InScriptRange i

theorem special_cases {d : Bytes} (h : special d = true) :
    ∃ c, smallOpcode d = some c ∧ codeOrInvalid (α := Bytes) (specialByte d) = .code c := by
  cases d with
  | nil => exact ⟨.OP_0, rfl, rfl⟩
  | cons x tl =>
    cases tl with
    | cons y tl => simp [special] at h
    | nil =>
      revert h x
      refine forall_u8 ?_
      intro n
      have h2 : special [UInt8.ofNat n.val] = true → n.val = 1 ∨ n.val = 2 ∨ n.val = 3 ∨ n.val = 4 ∨
          n.val = 5 ∨ n.val = 6 ∨ n.val = 7 ∨ n.val = 8 ∨ n.val = 9 ∨ n.val = 10 ∨ n.val = 11 ∨
          n.val = 12 ∨ n.val = 13 ∨ n.val = 14 ∨ n.val = 15 ∨ n.val = 16 ∨ n.val = 129 := by
        intro h
        unfold special at h
        have hn : (UInt8.ofNat n.val).toNat = n.val := ofNat_toNat_lt n.isLt
        simp only [List.length_singleton, Nat.one_ne_zero, decide_false, true_and, Bool.false_or,
          decide_eq_true_eq, List.getD_cons_zero] at h
        rcases h with h | h
        · omega
        · have := congrArg UInt8.toNat h
          rw [hn] at this
          have e : (129 : UInt8).toNat = 129 := rfl
          omega
      intro h
      rcases h2 h with h | h | h | h | h | h | h | h | h | h | h | h | h | h | h | h | h <;>
        rw [h] <;> exact ⟨_, rfl, rfl⟩

theorem smallOpcode_isSome (d : Bytes) : (smallOpcode d).isSome = true → special d = true := by
  intro h
  unfold smallOpcode at h
  split at h <;> first | rfl | (simp at h)

theorem smallOpcode_none {d : Bytes} (h : special d = false) : smallOpcode d = none := by
  cases hc : smallOpcode d with
  | none => rfl
  | some c =>
    have := smallOpcode_isSome d (by rw [hc]; rfl)
    rw [this] at h; cases h

theorem tokenOp_pushToken (d : Bytes) (m : Bool) :
    ParsedAs (.pushByteArray d m) (tokenOp (pushToken d m)) := by
  unfold pushToken
  by_cases hs : (m && special d) = true
  · rw [if_pos hs]
    simp only [Bool.and_eq_true] at hs
    obtain ⟨rfl, hs⟩ := hs
    obtain ⟨c, h1, h2⟩ := special_cases hs
    simp only [tokenOp, h2]
    exact .small d c h1
  · rw [if_neg hs]
    by_cases h0 : d.length = 0
    · have hd : d = [] := List.length_eq_zero_iff.mp h0
      subst hd
      have hm : m = false := by
        cases m with
        | false => rfl
        | true => exact absurd rfl hs
      subst hm
      exact .nonMinimal [] .OP_0 rfl
    · rw [if_neg h0]
      simp only [tokenOp]
      by_cases hsp : special d = true
      · have hm : m = false := by
          cases m with
          | false => rfl
          | true => exact absurd (by simp [hsp]) hs
        subst hm
        obtain ⟨c, h1, _⟩ := special_cases hsp
        have : decide (MinimalPush (formOf d.length) d) = false := by
          rw [decide_eq_false_iff_not, minimalPush_iff, hsp]; simp
        rw [this]
        exact .nonMinimal d c h1
      · simp only [Bool.not_eq_true] at hsp
        have : decide (MinimalPush (formOf d.length) d) = true := by
          rw [decide_eq_true_iff, minimalPush_iff, hsp]; simp
        rw [this]
        exact .data d m (smallOpcode_none hsp)

/-- Every well-formed operation is serialised to one valid token. -/
theorem serializeOp_token (op : Op Bytes) (h : op.WellFormed) :
    ∃ t : Token, t.Valid ∧ serializeOp op = .ok t.encode ∧ ParsedAs op (tokenOp t) ∧
      t.ShortPrefix := by
  have short : ∀ d m, (pushToken d m).ShortPrefix := by
    intro d m
    unfold pushToken
    split
    · trivial
    split
    · next h => exact .inl h
    · unfold formOf
      split
      · trivial
      split
      · exact .inr (by omega)
      split
      · simp only [Token.ShortPrefix]; omega
      · simp only [Token.ShortPrefix]; omega
  cases op with
  | code c =>
    refine ⟨.op c.toByte, ?_, rfl, ?_, trivial⟩
    · simp only [Op.WellFormed] at h
      simp only [Token.Valid]
      revert h
      cases c <;> decide
    · simp only [tokenOp]
      have : codeOrInvalid (α := Bytes) c.toByte = .code c := by cases c <;> rfl
      rw [this]; exact .code c
  | invalid b =>
    simp only [Op.WellFormed] at h
    refine ⟨.op b, ?_, rfl, ?_, trivial⟩
    · right
      have h1 : (Opcode.ofByte b).isSome = false := by rw [h.1]; rfl
      have h2 := (ofByte_isSome b).not
      simp only [h1, Bool.false_eq_true, not_false_iff, true_iff, not_or, not_and] at h2
      omega
    · simp only [tokenOp, codeOrInvalid]
      have : b ≠ 0 := by intro hb; subst hb; exact absurd h.2 (by decide)
      rw [if_neg this, h.1]
      exact .invalid b
  | pushBoolean b =>
    cases b
    · exact ⟨.op 0, .inl rfl, rfl, .boolean false, trivial⟩
    · exact ⟨.op 0x51, .inr (by decide), rfl, .boolean true, trivial⟩
  | pushByteArray d m =>
    exact ⟨pushToken d m, pushToken_valid d m h, serializePushBytes_token d m h,
      tokenOp_pushToken d m, short d m⟩
  | pushInteger i =>
    simp only [Op.WellFormed] at h
    have hr : InI32 i ∧ i ≠ -2 ^ 31 := by
      unfold InScriptRange at h
      exact ⟨⟨by omega, by omega⟩, by omega⟩
    obtain ⟨v, hv, hlen, hmin, hnum⟩ : ∃ v, encodeInt i = .ok v ∧ v.length ≤ 4 ∧ IsMinimalNum v ∧
        scriptNum v = i := by
      obtain ⟨v, h1, h2, h3, h4⟩ := encodeInt_spec i ⟨by unfold InScriptRange at h; omega, by unfold InScriptRange at h; omega⟩
      exact ⟨v, h1, by assumption, by assumption, by assumption⟩
    have hser : serializeOp (.pushInteger i) = .ok (pushToken v true).encode := by
      have uniq : ∀ w, IsMinimalNum w → scriptNum w = i → w = v := fun w h1 h2 =>
        minimal_unique w v h1 hmin (by rw [h2, hnum])
      simp only [serializeOp]
      by_cases c1 : i = -1
      · rw [if_pos c1]
        have : [0x81] = v := uniq _ ((isMinimal_single _).mpr (by decide)) (by rw [c1]; rfl)
        rw [← this]; rfl
      rw [if_neg c1]
      by_cases c2 : i = 0
      · rw [if_pos c2]
        have : [] = v := uniq _ isMinimal_nil (by rw [c2]; rfl)
        rw [← this]; rfl
      rw [if_neg c2]
      by_cases c3 : 1 ≤ i ∧ i ≤ 16
      · rw [if_pos c3]
        have : i = 1 ∨ i = 2 ∨ i = 3 ∨ i = 4 ∨ i = 5 ∨ i = 6 ∨ i = 7 ∨ i = 8 ∨ i = 9 ∨ i = 10 ∨
          i = 11 ∨ i = 12 ∨ i = 13 ∨ i = 14 ∨ i = 15 ∨ i = 16 := by omega
        have hw : [UInt8.ofNat i.toNat] = v := by
          refine uniq _ ((isMinimal_single _).mpr ?_) ?_
          · rw [ofNat_toNat_lt (by omega)]; omega
          · rcases this with h | h | h | h | h | h | h | h | h | h | h | h | h | h | h | h <;>
              rw [h] <;> rfl
        rw [← hw]
        rcases this with h | h | h | h | h | h | h | h | h | h | h | h | h | h | h | h <;>
          rw [h] <;> rfl
      rw [if_neg c3, hv]
      exact serializePushBytes_token v true (by omega)
    exact ⟨pushToken v true, pushToken_valid v true (by omega), hser,
      .integer i v _ hmin hnum (tokenOp_pushToken v true), short v true⟩

/-- Serialising a parsed token: the canonical token for the same push. -/
theorem serializeOp_tokenOp (t : Token) (hv : t.Valid) :
    ∃ t' : Token, t'.Valid ∧ serializeOp (tokenOp t) = .ok t'.encode ∧
      (t.ShortPrefix → t' = t) ∧ (¬ t.ShortPrefix → t'.encode.length < t.encode.length) := by
  cases t with
  | op b =>
    refine ⟨.op b, hv, ?_, fun _ => rfl, fun h => absurd trivial h⟩
    obtain ⟨op, h1, h2, _⟩ := C22_every_byte b [] hv
    have h3 := deserializeOp_token (.op b) hv b [] [] rfl
    simp only [List.append_nil] at h3
    rw [h1] at h3
    simp only [Res.ok.injEq, Prod.mk.injEq, and_true] at h3
    rw [← h3, h2]; rfl
  | push f d =>
    have hlen : d.length < 2 ^ 32 := by
      cases f <;> simp only [Token.Valid] at hv <;> omega
    refine ⟨pushToken d (decide (MinimalPush f d)), pushToken_valid _ _ hlen,
      serializePushBytes_token d _ hlen, ?_, ?_⟩
    · intro hsh
      unfold pushToken
      have hf : (decide (MinimalPush f d) && special d) = false := by
        by_cases hm : MinimalPush f d
        · have := (minimalPush_iff f d).mp hm
          simp [this.1]
        · simp [hm]
      rw [hf]
      simp only [Bool.false_eq_true, if_false]
      cases f <;> simp only [Token.Valid] at hv <;> simp only [Token.ShortPrefix] at hsh
      · rw [if_neg (by omega)]
        simp [formOf, hv.2]
      · by_cases h0 : d.length = 0
        · rw [if_pos h0]
        · rw [if_neg h0]
          unfold formOf
          rw [if_neg (by omega), if_pos (by omega)]
      · rw [if_neg (by omega)]
        unfold formOf
        rw [if_neg (by omega), if_neg (by omega), if_pos (by omega)]
      · rw [if_neg (by omega)]
        unfold formOf
        rw [if_neg (by omega), if_neg (by omega), if_neg (by omega)]
    · intro hsh
      have hlen2 : ∀ m, (pushToken d m).encode.length ≤
          if d.length = 0 then 2 else d.length + (if d.length ≤ 75 then 1 else if d.length ≤ 255 then 2
            else if d.length ≤ 65535 then 3 else 5) := by
        intro m
        unfold pushToken formOf
        split
        · simp only [Token.encode, List.length_singleton]
          split
          · omega
          · split <;> omega
        split
        · next h => simp [Token.encode, h]
        · split
          · simp [Token.encode]
          split
          · simp [Token.encode]; omega
          split
          · simp [Token.encode]; omega
          · simp [Token.encode]; omega
      refine Nat.lt_of_le_of_lt (hlen2 _) ?_
      cases f <;> simp only [Token.Valid] at hv <;> simp only [Token.ShortPrefix] at hsh
      · exact absurd trivial hsh
      · simp only [not_or, Nat.not_le] at hsh
        rw [if_neg hsh.1, if_pos (by omega)]
        simp [Token.encode]
      · simp only [Token.encode, List.length_cons, List.length_append, leBytes_length]
        split
        · omega
        · rw [show d.length + (if d.length ≤ 75 then 1 else if d.length ≤ 255 then 2
            else if d.length ≤ 65535 then 3 else 5) < 2 + d.length + 1 ↔ _ from Iff.rfl]
          split
          · omega
          · rw [if_pos (by omega)]; omega
      · simp only [Token.encode, List.length_cons, List.length_append, leBytes_length]
        split
        · omega
        · split
          · omega
          · split
            · omega
            · rw [if_pos (by omega)]; omega

theorem serializeOps_cons_ok {op : Op Bytes} {ops : List (Op Bytes)} {b bs : Bytes}
    (h1 : serializeOp op = .ok b) (h2 : serializeOps ops = .ok bs) :
    serializeOps (op :: ops) = .ok (b ++ bs) := by
  simp [serializeOps, h1, h2]

/-- **C18**: for every list of well-formed operations, serialising succeeds; parsing the bytes gives
the list back operation by operation in parsed form, and serialising that again gives the same
bytes. -/
theorem C18_ops_roundtrip (ops : List (Op Bytes)) (hwf : ∀ op ∈ ops, op.WellFormed) :
    ∃ bs ops', serializeOps ops = .ok bs ∧ deserializeOps bs = .ok ops' ∧
      List.Forall₂ ParsedAs ops ops' ∧ serializeOps ops' = .ok bs := by
  have key : ∃ ts : List Token, (∀ t ∈ ts, t.Valid) ∧ serializeOps ops = .ok (encodeTokens ts) ∧
      List.Forall₂ ParsedAs ops (ts.map tokenOp) ∧
      serializeOps (ts.map tokenOp) = .ok (encodeTokens ts) := by
    induction ops with
    | nil => exact ⟨[], by simp, rfl, .nil, rfl⟩
    | cons op ops ih =>
      obtain ⟨ts, h1, h2, h3, h4⟩ := ih (fun o ho => hwf o (by simp [ho]))
      obtain ⟨t, t1, t2, t3, t4⟩ := serializeOp_token op (hwf op (by simp))
      obtain ⟨t', _, u2, u3, _⟩ := serializeOp_tokenOp t t1
      rw [u3 t4] at u2
      refine ⟨t :: ts, ?_, ?_, .cons t3 h3, ?_⟩
      · intro x hx
        simp only [List.mem_cons] at hx
        rcases hx with rfl | hx
        · exact t1
        · exact h1 x hx
      · rw [serializeOps_cons_ok t2 h2]; simp [encodeTokens]
      · simp only [List.map_cons]
        rw [serializeOps_cons_ok u2 h4]; simp [encodeTokens]
  obtain ⟨ts, h1, h2, h3, h4⟩ := key
  exact ⟨_, _, h2, deserializeOps_tokens ts h1, h3, h4⟩

example : serializeOps [.code .OP_DUP, .pushByteArray [1, 2, 3] true, .pushInteger (-300), .invalid 0xfe,
      .pushBoolean true, .pushByteArray [] false] =
    .ok [0x76, 3, 1, 2, 3, 2, 0x2c, 0x81, 0xfe, 0x51, 0x4c, 0] := by decide
example : ∀ op ∈ ([.code .OP_DUP, .pushByteArray [1, 2, 3] true, .invalid 0xfe] : List (Op Bytes)),
    op.WellFormed := by
  intro op h
  simp only [List.mem_cons, List.not_mem_nil, or_false] at h
  rcases h with rfl | rfl | rfl
  · exact ⟨by decide, by decide, by decide⟩
  · show (3 : Nat) < 2 ^ 32; decide
  · exact ⟨rfl, by decide⟩

/-- Outside those operations the round trip **fails**: a push prefix as an opcode swallows what
follows, an "undefined" byte that is defined comes back as the opcode. -/
theorem C18_illformed_ops_fails :
    (serializeOps [.code .OP_PUSHDATA1, .invalid 0x01, .code .OP_DUP] = .ok [0x4c, 0x01, 0x76] ∧
      deserializeOps [0x4c, 0x01, 0x76] = .ok [.pushByteArray [0x76] false]) ∧
    (serializeOps [.invalid 0x76] = .ok [0x76] ∧ deserializeOps [0x76] = .ok [.code .OP_DUP]) := by
  decide

/-! ## C19: re-serialisation of parsed bytes -/

/-- **C19 fails**: a script whose push uses a longer prefix than needed is changed by parsing and
serialising. -/
theorem C19_reserialise_fails :
    ∃ bs ops bs', deserializeOps bs = .ok ops ∧ serializeOps ops = .ok bs' ∧ bs' ≠ bs :=
  ⟨[0x4c, 2, 7, 8], [.pushByteArray [7, 8] false], [2, 7, 8], by decide, by decide, by decide⟩

/-- **C19** on the exact set where it holds: parsing then serialising never fails, and gives the
original bytes back exactly when every push in the script uses the shortest length prefix for its
data (or is the two-byte empty push). -/
theorem C19_reserialise_partial (bs : Bytes) (ops : List (Op Bytes)) (h : deserializeOps bs = .ok ops) :
    ∃ ts : List Token, (∀ t ∈ ts, t.Valid) ∧ bs = encodeTokens ts ∧
      (∃ bs', serializeOps ops = .ok bs' ∧ bs'.length ≤ bs.length) ∧
      (serializeOps ops = .ok bs ↔ ∀ t ∈ ts, t.ShortPrefix) := by
  obtain ⟨ts, hv, hbs, hops⟩ := deserializeOps_ok bs ops h
  refine ⟨ts, hv, hbs, ?_⟩
  subst hbs hops
  clear h
  have key : ∃ bs', serializeOps (ts.map tokenOp) = .ok bs' ∧
      bs'.length ≤ (encodeTokens ts).length ∧
      ((∀ t ∈ ts, t.ShortPrefix) → bs' = encodeTokens ts) ∧
      ((∃ t ∈ ts, ¬ t.ShortPrefix) → bs'.length < (encodeTokens ts).length) := by
    induction ts with
    | nil => exact ⟨[], rfl, Nat.le_refl _, fun _ => rfl, by simp⟩
    | cons t ts ih =>
      obtain ⟨bs', h1, h2, h3, h4⟩ := ih (fun t ht => hv t (by simp [ht]))
      obtain ⟨t', u1, u2, u3, u4⟩ := serializeOp_tokenOp t (hv t (by simp))
      have he : encodeTokens (t :: ts) = t.encode ++ encodeTokens ts := by simp [encodeTokens]
      refine ⟨t'.encode ++ bs', by simp only [List.map_cons]; exact serializeOps_cons_ok u2 h1, ?_, ?_, ?_⟩
      · rw [he]
        simp only [List.length_append]
        by_cases hs : t.ShortPrefix
        · rw [u3 hs]; omega
        · have := u4 hs; omega
      · intro hall
        rw [he, u3 (hall t (by simp)), h3 (fun x hx => hall x (by simp [hx]))]
      · rintro ⟨x, hx, hns⟩
        rw [he]
        simp only [List.length_append]
        simp only [List.mem_cons] at hx
        rcases hx with rfl | hx
        · have := u4 hns; omega
        · have := h4 ⟨x, hx, hns⟩
          by_cases hs : t.ShortPrefix
          · rw [u3 hs]; omega
          · have := u4 hs; omega
  obtain ⟨bs', h1, h2, h3, h4⟩ := key
  refine ⟨⟨bs', h1, h2⟩, ?_, ?_⟩
  · intro heq t ht
    rw [h1] at heq
    simp only [Res.ok.injEq] at heq
    by_cases hs : t.ShortPrefix
    · exact hs
    · have := h4 ⟨t, ht, hs⟩
      rw [heq] at this; omega
  · intro hall
    rw [h1, h3 hall]

example : ∃ ops, deserializeOps [0x76, 0xa9, 2, 7, 8, 0x88, 0x4c, 0, 0xff] = .ok ops ∧
    serializeOps ops = .ok [0x76, 0xa9, 2, 7, 8, 0x88, 0x4c, 0, 0xff] :=
  ⟨[.code .OP_DUP, .code .OP_HASH160, .pushByteArray [7, 8] true, .code .OP_EQUALVERIFY,
    .pushByteArray [] false, .invalid 0xff], by decide, by decide⟩

/-! ## C20: minimal pushes -/

theorem stackItem_pushToken_min (d : Bytes) :
    (pushToken d true).stackItem = some d ∧ (pushToken d true).Minimal := by
  unfold pushToken
  by_cases hs : special d = true
  · simp only [hs, Bool.and_self, if_true, Token.Minimal, and_true]
    unfold special at hs
    simp only [Bool.or_eq_true, decide_eq_true_eq] at hs
    unfold Token.stackItem specialByte
    rcases hs with h | ⟨h1, h2⟩
    · have : d = [] := List.length_eq_zero_iff.mp h
      subst this; rfl
    · have hd : d = [d.getD 0 0] := by
        match d, h1 with
        | [x], _ => rfl
      rw [if_neg (by omega)]
      generalize d.getD 0 0 = x at *
      subst hd
      by_cases h3 : x = 0x81
      · subst h3; rfl
      · have h4 : 1 ≤ x.toNat ∧ x.toNat ≤ 16 := by
          rcases h2 with h | h
          · exact h
          · exact absurd h h3
        have h5 : (0x50 + x).toNat = 80 + x.toNat := by
          rw [UInt8.toNat_add]
          have : (0x50 : UInt8).toNat = 80 := rfl
          omega
        have e : ∀ y : UInt8, y.toNat < 81 → (0x50 + x) ≠ y := by intro y hy h; rw [← h] at hy; omega
        simp only [h3, if_false]
        rw [if_neg (e _ (by decide)), if_neg (e _ (by decide)), if_pos (by omega), h5]
        congr 2
        apply toNat_inj
        rw [ofNat_toNat_lt (by omega)]; omega
  · simp only [Bool.not_eq_true] at hs
    have hne : d.length ≠ 0 := by intro h; simp [special, h] at hs
    simp only [hs, Bool.and_false, Bool.false_eq_true, if_false, hne, Token.stackItem, true_and,
      Token.Minimal]
    rw [minimalPush_iff]; exact ⟨hs, rfl⟩

/-- **C20**: a minimal push of any data below 4 GiB serialises to a token that pushes exactly those
bytes and satisfies the minimal-data rule; every token pushing the same bytes is at least as long, and
only the very same token is as short. Larger data is an error. -/
theorem C20_minimal_push (d : Bytes) :
    (d.length < 2 ^ 32 →
      ∃ t : Token, t.Valid ∧ serializeOp (.pushByteArray d true) = .ok t.encode ∧
        t.stackItem = some d ∧ t.Minimal ∧
        ∀ t' : Token, t'.Valid → t'.stackItem = some d →
          t.encode.length ≤ t'.encode.length ∧ (t'.encode.length = t.encode.length → t' = t)) ∧
    (2 ^ 32 ≤ d.length → serializeOp (.pushByteArray d true) = .err .pushTooLarge) := by
  refine ⟨fun hlen => ?_, serializePushBytes_err d true⟩
  refine ⟨pushToken d true, pushToken_valid d true hlen, serializePushBytes_token d true hlen,
    (stackItem_pushToken_min d).1, (stackItem_pushToken_min d).2, ?_⟩
  intro t' hv' hs'
  by_cases hs : special d = true
  · have ht : pushToken d true = .op (specialByte d) := by simp [pushToken, hs]
    rw [ht]
    cases t' with
    | push f d' =>
      simp only [Token.stackItem, Option.some.injEq] at hs'
      subst hs'
      have : 2 ≤ (Token.push f d').encode.length := by
        cases f <;> simp only [Token.Valid] at hv' <;> simp [Token.encode] <;> omega
      have h1 : (Token.op (specialByte d')).encode.length = 1 := rfl
      exact ⟨by omega, by omega⟩
    | op b =>
      refine ⟨Nat.le_refl _, fun _ => ?_⟩
      congr 1
      unfold Token.stackItem at hs'
      simp only at hs'
      split at hs'
      · next h => simp only [Option.some.injEq] at hs'; rw [← hs', h]; rfl
      split at hs'
      · next h => simp only [Option.some.injEq] at hs'; rw [← hs', h]; rfl
      split at hs'
      · next h =>
        simp only [Option.some.injEq] at hs'
        rw [← hs']
        have hx : (UInt8.ofNat (b.toNat - 80)).toNat = b.toNat - 80 := ofNat_toNat_lt (by omega)
        have h3 : UInt8.ofNat (b.toNat - 80) ≠ 0x81 := by
          intro h; rw [h] at hx; have : (0x81 : UInt8).toNat = 129 := rfl; omega
        simp only [specialByte, List.length_singleton, Nat.one_ne_zero, if_false, List.getD_cons_zero, h3]
        apply toNat_inj
        rw [UInt8.toNat_add, hx]
        have : (0x50 : UInt8).toNat = 80 := rfl
        omega
      · simp at hs'
  · simp only [Bool.not_eq_true] at hs
    have hne : d.length ≠ 0 := by intro h; simp [special, h] at hs
    have ht : pushToken d true = .push (formOf d.length) d := by
      simp [pushToken, hs, hne]
    rw [ht]
    cases t' with
    | op b =>
      exfalso
      have hsome : special d = true := by
        unfold Token.stackItem at hs'
        simp only at hs'
        split at hs'
        · simp only [Option.some.injEq] at hs'; rw [← hs']; rfl
        split at hs'
        · simp only [Option.some.injEq] at hs'; rw [← hs']; rfl
        split at hs'
        · next h =>
          simp only [Option.some.injEq] at hs'
          rw [← hs']
          have hx : (UInt8.ofNat (b.toNat - 80)).toNat = b.toNat - 80 := ofNat_toNat_lt (by omega)
          simp only [special, List.length_singleton, Nat.one_ne_zero, decide_false, true_and,
            List.getD_cons_zero, hx, Bool.false_or, decide_eq_true_eq]
          left; omega
        · simp at hs'
      rw [hsome] at hs; cases hs
    | push f d' =>
      simp only [Token.stackItem, Option.some.injEq] at hs'
      subst hs'
      have hlenOf : ∀ f : PushForm, (Token.push f d').encode.length =
          d'.length + (match f with | .direct => 1 | .pushdata1 => 2 | .pushdata2 => 3 | .pushdata4 => 5) := by
        intro f; cases f <;> simp [Token.encode] <;> omega
      rw [hlenOf, hlenOf]
      have hform : (formOf d'.length = .direct ∧ d'.length ≤ 75) ∨
          (formOf d'.length = .pushdata1 ∧ 75 < d'.length) ∨
          (formOf d'.length = .pushdata2 ∧ 255 < d'.length) ∨
          (formOf d'.length = .pushdata4 ∧ 65535 < d'.length) := by
        unfold formOf
        split
        · exact .inl ⟨rfl, by assumption⟩
        split
        · exact .inr (.inl ⟨rfl, by omega⟩)
        split
        · exact .inr (.inr (.inl ⟨rfl, by omega⟩))
        · exact .inr (.inr (.inr ⟨rfl, by omega⟩))
      rcases hform with ⟨hf, hl⟩ | ⟨hf, hl⟩ | ⟨hf, hl⟩ | ⟨hf, hl⟩ <;> rw [hf] <;>
        cases f <;> simp only [Token.Valid] at hv' <;>
        exact ⟨by simp <;> omega, fun h => by first | rfl | (exfalso; simp at h)⟩

example : serializeOp (.pushByteArray [5] true) = .ok [0x55] ∧
    serializeOp (.pushByteArray [0x81] true) = .ok [0x4f] ∧
    serializeOp (.pushByteArray [0x80] true) = .ok [1, 0x80] ∧
    serializeOp (.pushByteArray [] true) = .ok [0] := by decide

/-! ## C21: the two parsers -/

theorem mkPush_ne_panic (b : UInt8) (d : Bytes) : mkPush b d ≠ .panic := by
  unfold mkPush
  split
  · simp
  · next pre tail h =>
    split
    · exfalso
      unfold serializePushPrefix at h
      simp only at h
      repeat' split at h
      all_goals simp at h
    · simp

theorem deserializeOp_ne_panic (b : UInt8) (rest : Bytes) : deserializeOp b rest ≠ .panic := by
  unfold deserializeOp
  split
  · simp
  · next r hr =>
    cases r with
    | err e => simp
    | panic =>
      unfold pushLen readLE at hr
      repeat' split at hr
      all_goals simp at hr
    | ok p =>
      simp only [Res.bind_ok]
      unfold readExact
      split
      · simp
      · simp only [Res.bind_ok]
        cases hm : mkPush b (List.take p.1 p.2) with
        | ok o => simp
        | err e => simp
        | panic => exact absurd hm (mkPush_ne_panic _ _)

/-- **C21** (no panic, no out-of-bounds): the slice parser returns operations or an error on every
input, and it accepts exactly the sequences of valid tokens. -/
theorem C21_slice_parser_total (bs : Bytes) :
    deserializeOps bs ≠ .panic ∧
    ((∃ ops, deserializeOps bs = .ok ops) ↔
      ∃ ts : List Token, (∀ t ∈ ts, t.Valid) ∧ bs = encodeTokens ts) := by
  constructor
  · induction hn : bs.length using Nat.strongRecOn generalizing bs with
    | ind n ih =>
      cases bs with
      | nil => simp
      | cons b rest =>
        rw [deserializeOps_cons]
        cases hd : deserializeOp b rest with
        | err e => simp
        | panic => exact absurd hd (deserializeOp_ne_panic _ _)
        | ok p =>
          obtain ⟨op, r⟩ := p
          have hl := deserializeOp_length hd
          have := ih r.length (by simp at hn; omega) r rfl
          simp only [Res.bind_ok]
          cases hr : deserializeOps r with
          | ok o => simp
          | err e => simp
          | panic => exact absurd hr this
  · constructor
    · rintro ⟨ops, h⟩
      obtain ⟨ts, h1, h2, _⟩ := deserializeOps_ok bs ops h
      exact ⟨ts, h1, h2⟩
    · rintro ⟨ts, h1, rfl⟩
      exact ⟨_, deserializeOps_tokens ts h1⟩

theorem splitE_ok (b : ByteArray) (n : Nat) (h : n ≤ b.data.length) :
    ∃ l r, b.splitE n = .ok (l, r) ∧ l.data = b.data.take n ∧ r.data = b.data.drop n := by
  obtain ⟨l, r, h1, h2, h3⟩ := ByteArray.split_ok b n h
  exact ⟨l, r, by simp [ByteArray.splitE, h1], h2, h3⟩

theorem splitE_err (b : ByteArray) (n : Nat) (h : b.data.length < n) :
    ∃ e, b.splitE n = .err e := by
  exact ⟨.byteArray (.invalidSplit n b.data.length), by
    simp only [ByteArray.splitE, ByteArray.split_err b n h, Res.ofExcept_error]⟩

/-- Same outcome up to provenance and the kind of error. -/
def SameOp (x : Res Error (Op ByteArray × ByteArray)) (y : Res Error (Op Bytes × Bytes)) : Prop :=
  (∃ op r, x = .ok (op, r) ∧ y = .ok (op.map ByteArray.data, r.data)) ∨
  (∃ e e', x = .err e ∧ y = .err e')

theorem deserializeOpBA_same (input : ByteArray) (b : UInt8) (rest : Bytes)
    (hd : input.data = b :: rest) : SameOp (deserializeOpBA input) (deserializeOp b rest) := by
  unfold deserializeOpBA
  obtain ⟨h, r, h1, h2, h3⟩ := splitE_ok input 1 (by rw [hd]; simp)
  rw [h1]
  simp only [Res.bind_ok]
  rw [hd] at h2 h3
  simp only [List.take_succ_cons, List.take_zero, List.drop_succ_cons, List.drop_zero] at h2 h3
  rw [h2]
  simp only
  -- the push tail
  have push : ∀ (n : Nat) (r' : ByteArray),
      SameOp ((r'.splitE n).bind fun x =>
          match serializePushPrefix x.1.data true with
          | none => .err .pushTooLarge
          | some (pre, _) =>
            match pre with
            | [] => .panic
            | p0 :: _ => .ok (.pushByteArray x.1 (p0 = b), x.2))
        ((readExact n r'.data).bind fun x => (mkPush b x.1).bind fun op => .ok (op, x.2)) := by
    intro n r'
    by_cases hn : n ≤ r'.data.length
    · obtain ⟨l, r2, e1, e2, e3⟩ := splitE_ok r' n hn
      rw [e1]
      unfold readExact
      rw [if_neg (by omega)]
      simp only [Res.bind_ok]
      rw [← e2, ← e3]
      have := mkPush_ne_panic b l.data
      unfold mkPush at this ⊢
      cases hp : serializePushPrefix l.data true with
      | none => right; simp
      | some p =>
        obtain ⟨pre, tail⟩ := p
        rw [hp] at this
        cases pre with
        | nil => exact absurd rfl this
        | cons p0 tl => left; exact ⟨_, _, rfl, rfl⟩
    · obtain ⟨e, he⟩ := splitE_err r' n (by omega)
      rw [he]
      right
      unfold readExact
      rw [if_pos (by omega)]
      exact ⟨_, _, rfl, rfl⟩
  unfold deserializeOp pushLen
  by_cases c0 : b = 0
  · rw [if_pos c0, if_pos c0]
    left
    exact ⟨_, _, rfl, by simp [h3, codeOrInvalid, c0, Op.map]⟩
  rw [if_neg c0, if_neg c0]
  by_cases c1 : b.toNat ≤ 0x4b
  · rw [if_pos c1, if_pos c1]
    simp only [Res.bind_ok]
    rw [← h3]
    exact push b.toNat r
  rw [if_neg c1, if_neg c1]
  by_cases c2 : b = Opcode.OP_PUSHDATA1.toByte
  · rw [if_pos c2, if_pos c2]
    simp only
    unfold readLE
    by_cases hl : 1 ≤ r.data.length
    · obtain ⟨l, r2, e1, e2, e3⟩ := splitE_ok r 1 hl
      rw [e1, if_neg (by rw [← h3]; omega)]
      simp only [Res.bind_ok, Res.ofExcept_ok]
      rw [← h3, ← e3]
      obtain ⟨x, tl, hx⟩ : ∃ x tl, r.data = x :: tl := by
        cases hr : r.data with
        | nil => rw [hr] at hl; simp at hl
        | cons x tl => exact ⟨x, tl, rfl⟩
      have : l.data = [x] := by rw [e2, hx]; rfl
      have h4 : leVal (List.take 1 r.data) = x.toNat := by rw [hx]; simp [leVal]
      rw [this, h4]
      simp only
      exact push x.toNat r2
    · obtain ⟨e, he⟩ := splitE_err r 1 (by omega)
      rw [he, ← h3, if_pos (by omega)]
      right; exact ⟨_, _, rfl, rfl⟩
  rw [if_neg c2, if_neg c2]
  have lenCase : ∀ k, SameOp
      ((r.splitE k).bind fun x => (fromLeBytes k x.1.data).bind fun n =>
        (x.2.splitE n).bind fun x =>
          match serializePushPrefix x.1.data true with
          | none => .err .pushTooLarge
          | some (pre, _) =>
            match pre with
            | [] => .panic
            | p0 :: _ => .ok (.pushByteArray x.1 (p0 = b), x.2))
      ((Res.ofExcept Error.io (readLE k rest)).bind fun x =>
        (readExact x.1 x.2).bind fun x => (mkPush b x.1).bind fun op => .ok (op, x.2)) := by
    intro k
    unfold readLE
    by_cases hl : k ≤ r.data.length
    · obtain ⟨l, r2, e1, e2, e3⟩ := splitE_ok r k hl
      rw [e1, if_neg (by rw [← h3]; omega)]
      simp only [Res.bind_ok, Res.ofExcept_ok]
      unfold fromLeBytes
      rw [if_pos (by rw [e2]; simp; omega), ← h3, ← e3, ← e2]
      simp only [Res.bind_ok]
      exact push _ r2
    · obtain ⟨e, he⟩ := splitE_err r k (by omega)
      rw [he, ← h3, if_pos (by omega)]
      right; exact ⟨_, _, rfl, rfl⟩
  by_cases c3 : b = Opcode.OP_PUSHDATA2.toByte
  · rw [if_pos c3, if_pos c3]
    exact lenCase 2
  rw [if_neg c3, if_neg c3]
  by_cases c4 : b = Opcode.OP_PUSHDATA4.toByte
  · rw [if_pos c4, if_pos c4]
    exact lenCase 4
  rw [if_neg c4, if_neg c4]
  left
  refine ⟨_, _, rfl, ?_⟩
  rw [h3]
  unfold codeOrInvalid
  rw [if_neg c0, if_neg c0]
  cases Opcode.ofByte b <;> rfl

theorem deserializeOpsBALoop_same (fuel : Nat) (input : ByteArray) (h : input.data.length ≤ fuel) :
    (∃ ops, deserializeOpsBALoop fuel input = .ok ops ∧
      deserializeOps input.data = .ok (ops.map (Op.map ByteArray.data))) ∨
    (∃ e e', deserializeOpsBALoop fuel input = .err e ∧ deserializeOps input.data = .err e') := by
  induction fuel generalizing input with
  | zero =>
    have h0 : input.data = [] := List.length_eq_zero_iff.mp (by omega)
    left
    refine ⟨[], ?_, by rw [h0]; rfl⟩
    unfold deserializeOpsBALoop
    rw [if_pos (by simp [ByteArray.len, h0])]
  | succ fuel ih =>
    unfold deserializeOpsBALoop
    cases hd : input.data with
    | nil =>
      left
      exact ⟨[], by rw [if_pos (by simp [ByteArray.len, hd])], rfl⟩
    | cons b rest =>
      rw [if_neg (by simp [ByteArray.len, hd])]
      simp only
      rw [deserializeOps_cons]
      rcases deserializeOpBA_same input b rest hd with ⟨op, r, h1, h2⟩ | ⟨e, e', h1, h2⟩
      · rw [h1, h2]
        simp only [Res.bind_ok]
        have hl := deserializeOp_length h2
        rw [hd] at h
        simp only [List.length_cons] at h
        rcases ih r (by omega) with ⟨ops, i1, i2⟩ | ⟨e, e', i1, i2⟩
        · left
          refine ⟨op :: ops, ?_, ?_⟩
          · rw [i1]; rfl
          · rw [i2]; rfl
        · right
          refine ⟨e, e', ?_, ?_⟩
          · rw [i1]; rfl
          · rw [i2]; rfl
      · right
        rw [h1, h2]; exact ⟨e, e', rfl, rfl⟩

/-- **C21** (agreement): for every byte array, whatever its provenance, the provenance-preserving
parser and the slice parser both succeed with operations equal up to provenance, or both return an
error; neither panics. -/
theorem C21_parsers_agree (b : ByteArray) :
    (∃ ops, deserializeOpsByteArray b = .ok ops ∧
      deserializeOps b.data = .ok (ops.map (Op.map ByteArray.data))) ∨
    (∃ e e', deserializeOpsByteArray b = .err e ∧ deserializeOps b.data = .err e') :=
  deserializeOpsBALoop_same _ b (Nat.le_refl _)

example : ∃ ops, deserializeOpsByteArray ((ByteArray.new "a" [0x76, 2]).concat (.new "b" [7, 8])) =
    .ok ops ∧ ops.map (Op.map ByteArray.data) = [.code .OP_DUP, .pushByteArray [7, 8] true] :=
  ⟨_, rfl, rfl⟩
example : deserializeOps [0x4d, 1] = .err (.io .unexpectedEof) ∧
    deserializeOps [5, 1] = .err (.io .unexpectedEof) := by decide

/-! ### Provenance does not affect serialisation (C13) -/

theorem serializePushBytesBA_data (a : ByteArray) (m : Bool) :
    (serializePushBytesBA a m).map ByteArray.data = serializePushBytes a.data m := by
  unfold serializePushBytesBA serializePushBytes
  split <;> simp [ByteArray.newUnnamed]

theorem serializeOpBA_data (opName : Opcode → String) (op : Op ByteArray) :
    (serializeOpBA opName op).map ByteArray.data = serializeOp (op.map ByteArray.data) := by
  cases op with
  | code c => rfl
  | invalid b => rfl
  | pushBoolean b => rfl
  | pushByteArray a m => exact serializePushBytesBA_data a m
  | pushInteger i =>
    simp only [serializeOpBA, Op.map, serializeOp]
    split
    · rfl
    split
    · rfl
    split
    · split <;> rfl
    · split
      · exact serializePushBytesBA_data _ _
      · rfl

theorem serializeAllBA_data (opName : Opcode → String) (ops : List (Op ByteArray)) :
    (serializeAllBA opName ops).map (fun ps => (ps.map ByteArray.data).flatten) =
      serializeOps (ops.map (Op.map ByteArray.data)) := by
  induction ops with
  | nil => rfl
  | cons op ops ih =>
    simp only [serializeAllBA, List.map_cons, serializeOps, ← serializeOpBA_data opName, ← ih]
    cases serializeOpBA opName op with
    | err e => rfl
    | panic => rfl
    | ok b =>
      simp only [Res.bind_ok, Res.map_ok]
      cases serializeAllBA opName ops <;> simp

/-- **C13** (serialisation): the bytes of a serialised script depend only on the bytes of the pushed
arrays, not on their names, functions or preimages. -/
theorem C13_serialise_congruence (opName : Opcode → String) (ops ops' : List (Op ByteArray))
    (h : ops.map (Op.map ByteArray.data) = ops'.map (Op.map ByteArray.data)) :
    (serializeOpsBA opName ops).map ByteArray.data = (serializeOpsBA opName ops').map ByteArray.data ∧
    (serializeOpsBA opName ops).map ByteArray.data = serializeOps (ops.map (Op.map ByteArray.data)) := by
  have key : ∀ ops, (serializeOpsBA opName ops).map ByteArray.data =
      serializeOps (ops.map (Op.map ByteArray.data)) := by
    intro ops
    rw [← serializeAllBA_data opName]
    unfold serializeOpsBA
    cases serializeAllBA opName ops with
    | err e => rfl
    | panic => rfl
    | ok ps => simp [ByteArray.data_fromParts]
  exact ⟨by rw [key, key, h], key ops⟩

example : (serializeOpsBA (fun _ => "x")
    [.pushByteArray ((ByteArray.new "a" [1]).concat (.new "b" [2])) true, .code .OP_DROP]).map
      ByteArray.data = .ok [2, 1, 2, 0x75] := rfl

/-! ## C25: script code -/

/-- **C25** (signing): the script code is the whole script if it contains no code separator, and
otherwise the part after the first one. -/
theorem C25_script_code_first (s : Script) :
    ((∀ op ∈ s, op ≠ .code .OP_CODESEPARATOR) → s.toScriptCodeFirst = s) ∧
    (∀ pre post, s = pre ++ .code .OP_CODESEPARATOR :: post →
      (∀ op ∈ pre, op ≠ .code .OP_CODESEPARATOR) → s.toScriptCodeFirst = post) := by
  have beq_iff : ∀ op : Op Bytes, op.beq (.code .OP_CODESEPARATOR) = true ↔
      op = .code .OP_CODESEPARATOR := by
    intro op; cases op <;> simp [Op.beq]
  constructor
  · intro h
    unfold Script.toScriptCodeFirst
    have : s.findIdx? (fun op => op.beq (.code .OP_CODESEPARATOR)) = none := by
      rw [List.findIdx?_eq_none_iff]
      intro op hop
      rw [← Bool.not_eq_true, beq_iff]
      exact h op hop
    rw [this]
  · rintro pre post rfl hpre
    unfold Script.toScriptCodeFirst
    have : (pre ++ Op.code .OP_CODESEPARATOR :: post).findIdx?
        (fun op => op.beq (.code .OP_CODESEPARATOR)) = some pre.length := by
      rw [List.findIdx?_append]
      have h1 : pre.findIdx? (fun op => op.beq (.code .OP_CODESEPARATOR)) = none := by
        rw [List.findIdx?_eq_none_iff]
        intro op hop
        rw [← Bool.not_eq_true, beq_iff]
        exact hpre op hop
      rw [h1]
      simp [List.findIdx?_cons, Op.beq]
    rw [this]
    simp

example : Script.toScriptCodeFirst [.code .OP_DUP, .code .OP_CODESEPARATOR, .code .OP_1,
    .code .OP_CODESEPARATOR, .code .OP_2] = [.code .OP_1, .code .OP_CODESEPARATOR, .code .OP_2] := rfl

/-- **C25 fails** for an explicit separator index: the result still starts with the separator. -/
theorem C25_explicit_index_fails :
    Script.toScriptCode [.code .OP_DUP, .code .OP_CODESEPARATOR, .code .OP_1] (some 0) =
      .ok [.code .OP_CODESEPARATOR, .code .OP_1] := rfl

theorem codesepIdx_none (n found idx : Nat) (s : List (Op Bytes)) (hn : found ≤ n)
    (h : s.count (.code .OP_CODESEPARATOR) ≤ n - found) : codesepIdx n found idx s = none := by
  induction s generalizing found idx with
  | nil => rfl
  | cons op s ih =>
    by_cases hop : op = .code .OP_CODESEPARATOR
    · subst hop
      simp only [List.count_cons_self] at h
      simp only [codesepIdx]
      rw [if_neg (by omega)]
      exact ih _ _ (by omega) (by omega)
    · rw [List.count_cons_of_ne (by simpa using hop)] at h
      have : codesepIdx n found idx (op :: s) = codesepIdx n found (idx + 1) s := by
        cases op with
        | code c => cases c <;> first | rfl | exact absurd rfl hop
        | _ => rfl
      rw [this]
      exact ih _ _ hn h

theorem codesepIdx_some (n found idx : Nat) (pre post : List (Op Bytes)) (hn : found ≤ n)
    (h : pre.count (.code .OP_CODESEPARATOR) = n - found) :
    codesepIdx n found idx (pre ++ .code .OP_CODESEPARATOR :: post) = some (idx + pre.length) := by
  induction pre generalizing found idx with
  | nil =>
    simp only [List.count_nil] at h
    simp only [List.nil_append, codesepIdx, List.length_nil, Nat.add_zero]
    rw [if_pos (by omega)]
  | cons op s ih =>
    by_cases hop : op = .code .OP_CODESEPARATOR
    · subst hop
      simp only [List.count_cons_self] at h
      simp only [List.cons_append, codesepIdx, List.length_cons]
      rw [if_neg (by omega), ih _ _ (by omega) (by omega)]
      congr 1; omega
    · rw [List.count_cons_of_ne (by simpa using hop)] at h
      have : codesepIdx n found idx (op :: s ++ .code .OP_CODESEPARATOR :: post) =
          codesepIdx n found (idx + 1) (s ++ .code .OP_CODESEPARATOR :: post) := by
        cases op with
        | code c => cases c <;> first | rfl | exact absurd rfl hop
        | _ => rfl
      rw [this, ih _ _ hn h]
      simp only [List.length_cons]
      congr 1; omega

/-- **C25** (explicit index), what the code does: asking for the `n`-th separator (from 0) gives the
script from that separator on, including it; it panics if there are not that many; asking for none
gives the whole script. -/
theorem C25_explicit_index_partial (s : Script) (n : Nat) :
    s.toScriptCode none = .ok s ∧
    (∀ pre post, s = pre ++ .code .OP_CODESEPARATOR :: post →
      pre.count (.code .OP_CODESEPARATOR) = n →
      s.toScriptCode (some n) = .ok (.code .OP_CODESEPARATOR :: post)) ∧
    (s.count (.code .OP_CODESEPARATOR) ≤ n → s.toScriptCode (some n) = .panic) := by
  refine ⟨rfl, ?_, ?_⟩
  · rintro pre post rfl h
    unfold Script.toScriptCode
    simp only
    rw [codesepIdx_some n 0 0 pre post (by omega) (by omega)]
    simp
  · intro h
    unfold Script.toScriptCode
    simp only
    rw [codesepIdx_none n 0 0 s (by omega) (by omega)]

example : Script.toScriptCode [.code .OP_CODESEPARATOR, .code .OP_1, .code .OP_CODESEPARATOR,
    .code .OP_2] (some 1) = .ok [.code .OP_CODESEPARATOR, .code .OP_2] := rfl

end BCash
