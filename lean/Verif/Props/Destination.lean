import Verif.Model.Destination
import Verif.Props.Address
import Verif.Props.Script

/-! # C26, C27, C51, C55: classification of scripts -/

namespace BCash
open Spec

/-! ## C26 -/

theorem fromHash_fields {pre : Bytes} {t : AddressType} {h : Hash160} {a : Address}
    (ha : Address.fromHash pre t h = some a) : a.hash = h ∧ a.addrType = t ∧ a.prefixStr = pre := by
  unfold Address.fromHash at ha
  rw [Option.map_eq_some_iff] at ha
  obtain ⟨s, _, rfl⟩ := ha
  exact ⟨rfl, rfl, rfl⟩

theorem addressOfSlice_hash (pre : Bytes) (t : AddressType) (h : Hash160) :
    addressOfSlice pre t h.1 = Address.fromHash pre t h := by
  simp [addressOfSlice, Hash.fromSlice, h.2]

/-- **C26**: the locking script of an address (of either type) is classified as that address. -/
theorem C26_recognises (pre : Bytes) (t : AddressType) (h : Hash160) (a : Address)
    (ha : Address.fromHash pre t h = some a) :
    scriptDestination pre a.toScript = some (.address a) := by
  obtain ⟨e1, e2, e3⟩ := fromHash_fields ha
  cases t
  · simp only [Address.toScript, e2, p2pkhScript, scriptDestination, List.map_cons, List.map_nil,
      PatternOp.ofOp, e1, addressOfSlice_hash, ha, Option.map_some]
  · simp only [Address.toScript, e2, p2shScript, scriptDestination, List.map_cons, List.map_nil,
      PatternOp.ofOp, e1, addressOfSlice_hash, ha, Option.map_some]

/-- **C26** (on bytes): the locking script of an address is the standard byte sequence, and the
parsed bytes are classified as that address. -/
theorem C26_recognises_bytes (pre : Bytes) (t : AddressType) (h : Hash160) (a : Address)
    (ha : Address.fromHash pre t h = some a) :
    ∃ bs, a.toScript.serOps = some bs ∧
      bs = (match t with
        | .P2PKH => [0x76, 0xa9, 0x14] ++ h.1 ++ [0x88, 0xac]
        | .P2SH => [0xa9, 0x14] ++ h.1 ++ [0x87]) ∧
      ∃ script, deserializeOps bs = .ok script ∧ scriptDestination pre script = some (.address a) := by
  obtain ⟨e1, e2, e3⟩ := fromHash_fields ha
  have hl := h.2
  have hser : serializePushBytes h.1 true = .ok (0x14 :: h.1) := by
    simp [serializePushBytes, serializePushPrefix, hl]
  have hnone : smallOpcode h.1 = none := by
    apply smallOpcode_none
    simp [special, hl]
  have hwf : ∀ op ∈ a.toScript, op.WellFormed := by
    intro op hop
    cases t <;> simp only [Address.toScript, e2, p2pkhScript, p2shScript, e1, List.mem_cons,
      List.not_mem_nil, or_false] at hop
    · rcases hop with h | h | h | h | h <;> rw [h] <;> simp [Op.WellFormed, hl]
    · rcases hop with h | h | h <;> rw [h] <;> simp [Op.WellFormed, hl]
  obtain ⟨bs, ops', h1, h2, h3, _⟩ := C18_ops_roundtrip a.toScript hwf
  have hops : ops' = a.toScript := by
    have push : ∀ op, ParsedAs (.pushByteArray h.1 true) op → op = .pushByteArray h.1 true := by
      intro op hp
      cases hp with
      | small _ _ hs => rw [hnone] at hs; cases hs
      | data => rfl
    have code : ∀ c op, ParsedAs (.code c) op → op = .code c := by
      intro c op hp; cases hp; rfl
    cases t <;> simp only [Address.toScript, e2, p2pkhScript, p2shScript, e1] at h3 ⊢
    · cases h3 with | cons p1 h3 => cases h3 with | cons p2 h3 => cases h3 with | cons p3 h3 =>
      cases h3 with | cons p4 h3 => cases h3 with | cons p5 h3 => cases h3 with | nil =>
      rw [code _ _ p1, code _ _ p2, push _ p3, code _ _ p4, code _ _ p5]
    · cases h3 with | cons p1 h3 => cases h3 with | cons p2 h3 => cases h3 with | cons p3 h3 =>
      cases h3 with | nil =>
      rw [code _ _ p1, push _ p2, code _ _ p3]
  refine ⟨bs, ?_, ?_, ops', h2, ?_⟩
  · simp [Script.serOps, h1]
  · cases t <;>
      simp only [Address.toScript, e2, p2pkhScript, p2shScript, e1, serializeOps, serializeOp, hser,
        Res.bind_ok, Res.ok.injEq] at h1
    · rw [← h1]; simp [Opcode.toByte]
    · rw [← h1]; simp [Opcode.toByte]
  · rw [hops]; exact C26_recognises pre t h a ha

/-- Every hash has an address; here the one of twenty nines. -/
example : ∃ a bs script, Address.fromHash (Prefix.str .bitcoinCash) .P2SH ⟨List.replicate 20 9, rfl⟩ = some a ∧
    scriptDestination (Prefix.str .bitcoinCash) a.toScript = some (.address a) ∧ a.toScript.serOps = some bs ∧
    deserializeOps bs = .ok script ∧ scriptDestination (Prefix.str .bitcoinCash) script = some (.address a) := by
  obtain ⟨a, ha, -⟩ := C54_total (Prefix.str .bitcoinCash) .P2SH ⟨List.replicate 20 9, rfl⟩
  obtain ⟨bs, h1, -, script, h2, h3⟩ := C26_recognises_bytes _ _ _ a ha
  exact ⟨a, bs, script, ha, C26_recognises _ _ _ a ha, h1, h2, h3⟩

/-- What a classification says about the script it was given. -/
def Describes (pre : Bytes) (script : Script) : Destination → Prop
  | .address a => a.prefixStr = pre ∧ (∃ m,
      a.addrType = .P2PKH ∧ script = [.code .OP_DUP, .code .OP_HASH160, .pushByteArray a.hash.1 m,
        .code .OP_EQUALVERIFY, .code .OP_CHECKSIG] ∨
      a.addrType = .P2SH ∧ script = [.code .OP_HASH160, .pushByteArray a.hash.1 m, .code .OP_EQUAL])
  | .p2pk pk => ∃ m, script = [.pushByteArray pk m, .code .OP_CHECKSIG]
  | .nulldata ops => script = .code .OP_RETURN :: ops
  | .unknown s => s = script ∧
      (∀ h m, script ≠ [.code .OP_DUP, .code .OP_HASH160, .pushByteArray h m,
        .code .OP_EQUALVERIFY, .code .OP_CHECKSIG]) ∧
      (∀ h m, script ≠ [.code .OP_HASH160, .pushByteArray h m, .code .OP_EQUAL]) ∧
      (∀ h m, script ≠ [.pushByteArray h m, .code .OP_CHECKSIG]) ∧
      (∀ ops, script ≠ .code .OP_RETURN :: ops)

/-- **C26** (nothing else): every classification is returned only for scripts of the corresponding
shape, and reports exactly their content. -/
theorem C26_only_shapes (pre : Bytes) (script : Script) (d : Destination)
    (hd : scriptDestination pre script = some d) : Describes pre script d := by
  have codeInv : ∀ (op : Op Bytes) c, PatternOp.ofOp op = .code c → op = .code c := by
    intro op c h; cases op <;> simp [PatternOp.ofOp] at h ⊢; exact h
  have arrInv : ∀ (op : Op Bytes) b, PatternOp.ofOp op = .array b → ∃ m, op = .pushByteArray b m := by
    intro op c h; cases op <;> simp [PatternOp.ofOp] at h ⊢; exact h
  have slice : ∀ t b, addressOfSlice pre t b = none ∨ ∃ a, addressOfSlice pre t b = some a ∧
      a.hash.1 = b ∧ a.addrType = t ∧ a.prefixStr = pre := by
    intro t b
    unfold addressOfSlice Hash.fromSlice
    by_cases hb : b.length = 20
    · rw [dif_pos hb]
      dsimp only
      cases hf : Address.fromHash pre t ⟨b, hb⟩ with
      | none => exact .inl rfl
      | some a =>
        obtain ⟨e1, e2, e3⟩ := fromHash_fields hf
        exact .inr ⟨a, rfl, by rw [e1], e2, e3⟩
    · rw [dif_neg hb]; exact .inl rfl
  unfold scriptDestination at hd
  split at hd
  · next hash hm =>
    simp only [List.map_eq_cons_iff, List.map_eq_nil_iff] at hm
    obtain ⟨o1, _, rfl, h1, o2, _, rfl, h2, o3, _, rfl, h3, o4, _, rfl, h4, o5, _, rfl, h5, rfl⟩ := hm
    rw [codeInv _ _ h1, codeInv _ _ h2, codeInv _ _ h4, codeInv _ _ h5]
    obtain ⟨m, rfl⟩ := arrInv _ _ h3
    rcases slice .P2PKH hash with hs | ⟨a, hs, e1, e2, e3⟩
    · rw [hs] at hd; cases hd
    · rw [hs] at hd
      injection hd with hd
      subst hd
      exact ⟨e3, m, .inl ⟨e2, by rw [e1]⟩⟩
  · next hash hm =>
    simp only [List.map_eq_cons_iff, List.map_eq_nil_iff] at hm
    obtain ⟨o1, _, rfl, h1, o2, _, rfl, h2, o3, _, rfl, h3, rfl⟩ := hm
    rw [codeInv _ _ h1, codeInv _ _ h3]
    obtain ⟨m, rfl⟩ := arrInv _ _ h2
    rcases slice .P2SH hash with hs | ⟨a, hs, e1, e2, e3⟩
    · rw [hs] at hd; cases hd
    · rw [hs] at hd
      injection hd with hd
      subst hd
      exact ⟨e3, m, .inr ⟨e2, by rw [e1]⟩⟩
  · next pk hm =>
    simp only [List.map_eq_cons_iff, List.map_eq_nil_iff] at hm
    obtain ⟨o1, _, rfl, h1, o2, _, rfl, h2, rfl⟩ := hm
    rw [codeInv _ _ h2]
    obtain ⟨m, rfl⟩ := arrInv _ _ h1
    injection hd with hd
    subst hd
    exact ⟨m, rfl⟩
  · next rest hm =>
    simp only [List.map_eq_cons_iff] at hm
    obtain ⟨o1, tl, rfl, h1, _⟩ := hm
    rw [codeInv _ _ h1]
    injection hd with hd
    subst hd
    rfl
  · next n1 n2 n3 n4 =>
    injection hd with hd
    subst hd
    refine ⟨rfl, ?_, ?_, ?_, ?_⟩
    · intro h m e; exact n1 h (by rw [e]; rfl)
    · intro h m e; exact n2 h (by rw [e]; rfl)
    · intro h m e; exact n3 h (by rw [e]; rfl)
    · intro ops e; exact n4 (ops.map PatternOp.ofOp) (by rw [e]; rfl)

example : Describes [] [.code .OP_RETURN, .pushInteger 3] (.nulldata [.pushInteger 3]) :=
  C26_only_shapes _ _ _ rfl

/-- A P2SH script, a data output and an unknown script. -/
example : (∃ a, scriptDestination [] [.code .OP_HASH160, .pushByteArray (List.replicate 20 9) true,
      .code .OP_EQUAL] = some (.address a) ∧ a.addrType = .P2SH) ∧
    scriptDestination [] [.code .OP_RETURN, .pushInteger 3] = some (.nulldata [.pushInteger 3]) ∧
    scriptDestination [] [.code .OP_DUP] = some (.unknown [.code .OP_DUP]) := by
  set_option maxRecDepth 100000 in exact ⟨⟨_, rfl, rfl⟩, rfl, rfl⟩

/-! ## C27 -/

/-- **C26** (address of a script): a classified script has an address exactly if it has one of the two
standard shapes, and then it is the address with its hash, type and the given prefix. -/
theorem C26_address (pre : Bytes) (script : Script) (d : Destination)
    (hd : scriptDestination pre script = some d) :
    (∀ a, d.toAddress = some a → a.prefixStr = pre ∧ ∃ m,
      a.addrType = .P2PKH ∧ script = [.code .OP_DUP, .code .OP_HASH160, .pushByteArray a.hash.1 m,
        .code .OP_EQUALVERIFY, .code .OP_CHECKSIG] ∨
      a.addrType = .P2SH ∧ script = [.code .OP_HASH160, .pushByteArray a.hash.1 m, .code .OP_EQUAL]) ∧
    (d.toAddress = none → ∀ h m, script ≠ [.code .OP_DUP, .code .OP_HASH160, .pushByteArray h m,
        .code .OP_EQUALVERIFY, .code .OP_CHECKSIG] ∧
      script ≠ [.code .OP_HASH160, .pushByteArray h m, .code .OP_EQUAL]) := by
  have h := C26_only_shapes pre script d hd
  constructor
  · intro a ha
    cases d with
    | address b => cases ha; exact h
    | _ => cases ha
  · intro hn hs m
    cases d with
    | address b => cases hn
    | nulldata ops =>
      simp only [Describes] at h
      rw [h]
      simp
    | p2pk pk =>
      obtain ⟨m', h⟩ := h
      rw [h]
      simp
    | unknown s => exact ⟨h.2.1 hs m, h.2.2.1 hs m⟩

example : ∀ h m, ([.code .OP_RETURN, .pushInteger 3] : Script) ≠ [.code .OP_HASH160, .pushByteArray h m, .code .OP_EQUAL] :=
  fun h m => ((C26_address [] [.code .OP_RETURN, .pushInteger 3] (.nulldata [.pushInteger 3]) rfl).2 rfl h m).2

/-- **C27 fails**: the bytes `a9 01 ff 87` (HASH160, push of one byte, EQUAL) parse to a script whose
classification panics. -/
theorem C27_no_panic_fails (pre : Bytes) :
    ∃ script, deserializeOps [0xa9, 0x01, 0xff, 0x87] = .ok script ∧
      scriptDestination pre script = none :=
  ⟨[.code .OP_HASH160, .pushByteArray [0xff] true, .code .OP_EQUAL], by decide, rfl⟩

/-- **C27**, the part that holds: classification panics exactly for scripts of the pay-to-pubkey-hash
or pay-to-script-hash shape whose pushed "hash" does not have 20 bytes. -/
theorem C27_panic_iff_partial (pre : Bytes) (script : Script) :
    scriptDestination pre script = none ↔
      ∃ h m, h.length ≠ 20 ∧
        (script = [.code .OP_DUP, .code .OP_HASH160, .pushByteArray h m, .code .OP_EQUALVERIFY,
          .code .OP_CHECKSIG] ∨
         script = [.code .OP_HASH160, .pushByteArray h m, .code .OP_EQUAL]) := by
  have codeInv : ∀ (op : Op Bytes) c, PatternOp.ofOp op = .code c → op = .code c := by
    intro op c h; cases op <;> simp [PatternOp.ofOp] at h ⊢; exact h
  have arrInv : ∀ (op : Op Bytes) b, PatternOp.ofOp op = .array b → ∃ m, op = .pushByteArray b m := by
    intro op c h; cases op <;> simp [PatternOp.ofOp] at h ⊢; exact h
  have slice : ∀ t b, addressOfSlice pre t b = none ↔ b.length ≠ 20 := by
    intro t b
    unfold addressOfSlice Hash.fromSlice
    by_cases hb : b.length = 20
    · rw [dif_pos hb]
      obtain ⟨a, ha, _⟩ := C54_total pre t ⟨b, hb⟩
      simp [ha, hb]
    · rw [dif_neg hb]; simp [hb]
  constructor
  · intro hd
    unfold scriptDestination at hd
    split at hd
    · next hash hm =>
      simp only [List.map_eq_cons_iff, List.map_eq_nil_iff] at hm
      obtain ⟨o1, _, rfl, h1, o2, _, rfl, h2, o3, _, rfl, h3, o4, _, rfl, h4, o5, _, rfl, h5, rfl⟩ := hm
      rw [codeInv _ _ h1, codeInv _ _ h2, codeInv _ _ h4, codeInv _ _ h5]
      obtain ⟨m, rfl⟩ := arrInv _ _ h3
      rw [Option.map_eq_none_iff, slice] at hd
      exact ⟨hash, m, hd, .inl rfl⟩
    · next hash hm =>
      simp only [List.map_eq_cons_iff, List.map_eq_nil_iff] at hm
      obtain ⟨o1, _, rfl, h1, o2, _, rfl, h2, o3, _, rfl, h3, rfl⟩ := hm
      rw [codeInv _ _ h1, codeInv _ _ h3]
      obtain ⟨m, rfl⟩ := arrInv _ _ h2
      rw [Option.map_eq_none_iff, slice] at hd
      exact ⟨hash, m, hd, .inr rfl⟩
    · cases hd
    · cases hd
    · cases hd
  · rintro ⟨h, m, hl, rfl | rfl⟩
    · simp only [scriptDestination, List.map_cons, List.map_nil, PatternOp.ofOp]
      rw [(slice _ _).mpr hl]; rfl
    · simp only [scriptDestination, List.map_cons, List.map_nil, PatternOp.ofOp]
      rw [(slice _ _).mpr hl]; rfl

/-! ## C51 -/

/-- Flag sets made of the declared flags: every bit but 0x20 of the low byte. -/
def DeclaredFlags (f : SigHashFlags) : Prop := f.toNat < 256 ∧ f.toNat.testBit 5 = false

instance (f : SigHashFlags) : Decidable (DeclaredFlags f) := by unfold DeclaredFlags; infer_instance

set_option maxRecDepth 100000 in
theorem fromBits_byte : ∀ b : UInt8, SigHashFlags.fromBits b.toUInt32 =
    if b.toNat.testBit 5 = false then some b.toUInt32 else none := forall_u8 (by decide)

theorem flags_byte (f : SigHashFlags) (h : f.toNat < 256) : f.toUInt8.toUInt32 = f := by
  apply UInt32.toNat_inj.mp
  rw [UInt8.toNat_toUInt32, UInt32.toNat_toUInt8]
  omega

/-- **C51**: for every signature, public key and flag set, reading the unlocking script built by the
library gives the public key and flags back. -/
theorem C51_spend_roundtrip (pk : Pubkey) (f : SigHashFlags) (sig : Bytes) (hf : DeclaredFlags f) :
    scriptP2pkhSpend (P2PKHSignatory.buildScript ⟨pk, f⟩ sig) = some ⟨pk, f⟩ := by
  have hb : f.toUInt8.toNat.testBit 5 = false := by
    rw [UInt32.toNat_toUInt8, Nat.mod_eq_of_lt hf.1]; exact hf.2
  have hfb := fromBits_byte f.toUInt8
  rw [if_pos hb, flags_byte f hf.1] at hfb
  simp only [scriptP2pkhSpend, P2PKHSignatory.buildScript, List.map_cons, List.map_nil,
    PatternOp.ofOp, pk.2, if_true, List.getLast?_concat,
    Pubkey.fromSliceChecked, flags_byte f hf.1, hfb]
  simp

/-- **C51** (through bytes): the same holds for the parsed bytes of the unlocking script, whose first
push is the signature followed by the flag byte, whenever the signature is not empty. -/
theorem C51_spend_roundtrip_bytes (pk : Pubkey) (f : SigHashFlags) (sig : Bytes)
    (hf : DeclaredFlags f) (hs : sig ≠ []) (hlen : sig.length < 2 ^ 32 - 1) :
    ∃ bs script, (P2PKHSignatory.buildScript ⟨pk, f⟩ sig).serOps = some bs ∧
      deserializeOps bs = .ok script ∧ scriptP2pkhSpend script = some ⟨pk, f⟩ ∧
      script = [.pushByteArray (sig ++ [f.toUInt8]) true, .pushByteArray pk.1 true] := by
  have hl : (sig ++ [f.toUInt8]).length ≥ 2 := by
    cases sig with
    | nil => exact absurd rfl hs
    | cons x xs => simp
  have n1 : smallOpcode (sig ++ [f.toUInt8]) = none := by
    apply smallOpcode_none
    unfold special
    simp only [show ¬ (sig ++ [f.toUInt8]).length = 0 by omega,
      show ¬ (sig ++ [f.toUInt8]).length = 1 by omega]
    simp
  have n2 : smallOpcode pk.1 = none := by
    apply smallOpcode_none; simp [special, pk.2]
  have hwf : ∀ op ∈ P2PKHSignatory.buildScript ⟨pk, f⟩ sig, op.WellFormed := by
    intro op hop
    simp only [P2PKHSignatory.buildScript, List.mem_cons, List.not_mem_nil, or_false] at hop
    rcases hop with h | h <;> rw [h] <;> simp [Op.WellFormed, pk.2]
    omega
  obtain ⟨bs, ops', h1, h2, h3, _⟩ := C18_ops_roundtrip _ hwf
  have push : ∀ d op, smallOpcode d = none → ParsedAs (.pushByteArray d true) op →
      op = .pushByteArray d true := by
    intro d op hn hp
    cases hp with
    | small _ _ hs => rw [hn] at hs; cases hs
    | data => rfl
  have hops : ops' = P2PKHSignatory.buildScript ⟨pk, f⟩ sig := by
    simp only [P2PKHSignatory.buildScript] at h3 ⊢
    cases h3 with | cons p1 h3 => cases h3 with | cons p2 h3 => cases h3 with | nil =>
    rw [push _ _ n1 p1, push _ _ n2 p2]
  refine ⟨bs, ops', by simp [Script.serOps, h1], h2, ?_, hops⟩
  rw [hops]; exact C51_spend_roundtrip pk f sig hf

example : ∃ bs script, (P2PKHSignatory.buildScript ⟨⟨List.replicate 33 2, rfl⟩, SigHashFlags.DEFAULT⟩ [0x30, 0x44]).serOps =
      some bs ∧ deserializeOps bs = .ok script ∧
    scriptP2pkhSpend script = some ⟨⟨List.replicate 33 2, rfl⟩, SigHashFlags.DEFAULT⟩ := by
  obtain ⟨bs, script, h1, h2, h3, -⟩ := C51_spend_roundtrip_bytes ⟨List.replicate 33 2, rfl⟩ SigHashFlags.DEFAULT
    [0x30, 0x44] (by decide) (by decide) (by decide)
  exact ⟨bs, script, h1, h2, h3⟩

/-- Flags outside the declared ones (bit 0x20, which `from_u8` accepts) are not read back. -/
theorem C51_undeclared_flags (pk : Pubkey) (f : UInt8) (sig : Bytes) (hf : f.toNat.testBit 5 = true) :
    scriptP2pkhSpend (P2PKHSignatory.buildScript ⟨pk, SigHashFlags.fromU8 f⟩ sig) = none := by
  have hb : (SigHashFlags.fromU8 f).toUInt8 = f := by
    apply UInt8.toNat_inj.mp
    unfold SigHashFlags.fromU8
    rw [UInt32.toNat_toUInt8, UInt8.toNat_toUInt32]
    have := f.toNat_lt
    omega
  simp only [scriptP2pkhSpend, P2PKHSignatory.buildScript, List.map_cons, List.map_nil,
    PatternOp.ofOp, pk.2, if_true, List.getLast?_concat, fromBits_byte, hb, hf]
  simp

example : scriptP2pkhSpend (P2PKHSignatory.buildScript ⟨⟨List.replicate 33 2, rfl⟩, SigHashFlags.fromU8 0x61⟩ [0x30]) =
    none := C51_undeclared_flags _ 0x61 _ (by decide)

example : DeclaredFlags (SigHashFlags.DEFAULT ||| SigHashFlags.ANYONECANPAY) ∧
    scriptP2pkhSpend [.pushByteArray [0x30, 0x44, 0xc1] true,
      .pushByteArray (List.replicate 33 2) true] =
      some ⟨⟨List.replicate 33 2, rfl⟩, SigHashFlags.DEFAULT ||| SigHashFlags.ANYONECANPAY⟩ ∧
    scriptP2pkhSpend [.pushByteArray [] true, .pushByteArray (List.replicate 33 2) true] = none := by
  decide

/-! ## C55: the number a push denotes -/

/-- **C55**: reading an operation as a number gives the script-number value of the bytes it puts on
the stack, for every opcode and every push of at most four bytes, and nothing for operations that do
not push. (`pushed` is the item put on the stack: OP_0 pushes the empty string.) -/
theorem C55_to_integer (op : Op Bytes) :
    (∀ c pushed, op = .code c → smallOpcode pushed = some c →
      op.toInteger = .ok (scriptNum pushed)) ∧
    (∀ c, op = .code c → (∀ pushed, smallOpcode pushed ≠ some c) → op.toInteger = .err ()) ∧
    (∀ b m, op = .pushByteArray b m → b.length ≤ 4 → op.toInteger = .ok (scriptNum b)) ∧
    (∀ b, op = .pushBoolean b → op.toInteger = .ok (if b then 1 else 0)) ∧
    (∀ i, op = .pushInteger i → op.toInteger = .ok i) ∧
    (∀ b, op = .invalid b → op.toInteger = .err ()) := by
  refine ⟨?_, ?_, ?_, ?_, ?_, ?_⟩
  · rintro c pushed rfl hs
    unfold smallOpcode at hs
    split at hs <;> first
      | (injection hs with hs; subst hs; rfl)
      | cases hs
  · rintro c rfl hn
    cases c <;> first
      | rfl
      | exact absurd rfl (hn [])
      | exact absurd rfl (hn [0x81])
      | exact absurd rfl (hn [1]) | exact absurd rfl (hn [2]) | exact absurd rfl (hn [3])
      | exact absurd rfl (hn [4]) | exact absurd rfl (hn [5]) | exact absurd rfl (hn [6])
      | exact absurd rfl (hn [7]) | exact absurd rfl (hn [8]) | exact absurd rfl (hn [9])
      | exact absurd rfl (hn [10]) | exact absurd rfl (hn [11]) | exact absurd rfl (hn [12])
      | exact absurd rfl (hn [13]) | exact absurd rfl (hn [14]) | exact absurd rfl (hn [15])
      | exact absurd rfl (hn [16])
  · rintro b m rfl hl
    simp only [Op.toInteger, C04_decode_le4 b hl]
    have hr : Integer.new (scriptNum b) = .ok (scriptNum b) := by
      have hb : (scriptNum b).natAbs < 2 ^ 31 := by
        by_cases h0 : b = []
        · subst h0; decide
        · have h1 := scriptNum_natAbs_lt b h0
          have h2 : 256 ^ (b.length - 1) ≤ 256 ^ 3 := Nat.pow_le_pow_right (by decide) (by omega)
          omega
      unfold Integer.new
      rw [if_pos (by unfold InI32; omega),
        if_pos (by unfold MIN_SCRIPT_INTEGER MAX_SCRIPT_INTEGER; omega)]
    rw [hr]
  · rintro b rfl; rfl
  · rintro i rfl; rfl
  · rintro b rfl; rfl

example : (Op.code .OP_1NEGATE : Op Bytes).toInteger = .ok (-1) ∧
    (Op.pushByteArray [0xff, 0x80] true).toInteger = .ok (-255) ∧
    (Op.code .OP_DUP : Op Bytes).toInteger = .err () := by decide

end BCash
