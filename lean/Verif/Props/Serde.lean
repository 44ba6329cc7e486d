import Verif.Proofs.Serde
import Verif.Props.Codec

/-! # C80–C82: values stored with serde (JSON, bincode, …) -/

namespace BCash
open Spec Serde

/-- The types that can be stored, and lists of them. Hashes are given by their size. -/
inductive Stored where
  | bytes | hash (n : Nat) | pubkey | script | integer | uinteger | flags | outpoint | input | output
  | unhashedTx | tx | unsignedInput | inputReference
  | slpTokenType | slpAction | slpTokenId | slpToken | slpData | slpInput | slpOutput | slpTx | slpUtxo
  | slpTokenMeta
  | vec (t : Stored)

namespace Stored

def Val : Stored → Type
  | bytes => Bytes
  | hash n => Hash n
  | pubkey => Pubkey
  | script => Script
  | integer | uinteger => Int
  | flags => SigHashFlags
  | outpoint => TxOutpoint
  | input => TxInput
  | output => TxOutput
  | unhashedTx => UnhashedTx
  | tx => Tx
  | unsignedInput => UnsignedTxInput
  | inputReference => UInt64
  | slpTokenType => SlpTokenType
  | slpAction => SlpAction
  | slpTokenId => TokenId
  | slpToken => SlpToken
  | slpData => SlpData
  | slpInput => SlpTxInput
  | slpOutput => SlpTxOutput
  | slpTx => SlpTx
  | slpUtxo => SlpUtxo
  | slpTokenMeta => TokenMeta
  | vec t => List t.Val

/-- The implementation for a type. -/
def serde : (t : Stored) → Serde t.Val
  | bytes => Serde.byteArray
  | hash n => Serde.hash n
  | pubkey => Serde.pubkey
  | script => Serde.script
  | integer => Serde.integer
  | uinteger => Serde.uinteger
  | flags => Serde.sigHashFlags
  | outpoint => Serde.txOutpoint
  | input => Serde.txInput
  | output => Serde.txOutput
  | unhashedTx => Serde.unhashedTx
  | tx => Serde.tx
  | unsignedInput => Serde.unsignedTxInput
  | inputReference => Serde.inputReference
  | slpTokenType => Serde.slpTokenType
  | slpAction => Serde.slpAction
  | slpTokenId => Serde.tokenId
  | slpToken => Serde.slpToken
  | slpData => Serde.slpData
  | slpInput => Serde.slpTxInput
  | slpOutput => Serde.slpTxOutput
  | slpTx => Serde.slpTx
  | slpUtxo => Serde.slpUtxo
  | slpTokenMeta => Serde.tokenMeta
  | vec t => Serde.vec t.serde

/-- Only byte arrays and hashed transactions contain a byte string of no fixed length. -/
def hasByteArray : Stored → Bool
  | bytes | tx => true
  | vec t => t.hasByteArray
  | _ => false

/-- The size of the hashes in a value of the type. -/
def hashSize : Stored → Nat
  | hash n => n
  | vec t => t.hashSize
  | _ => 32

end Stored

def TxInput.Ok (i : TxInput) : Prop := i.script.Ok ∧ ∀ s, i.lockScript = some s → s.Ok
def UnhashedTx.Ok (t : UnhashedTx) : Prop := (∀ i ∈ t.inputs, i.Ok) ∧ ∀ o ∈ t.outputs, o.script.Ok
def SlpTx.Ok (t : SlpTx) : Prop :=
  (∀ i ∈ t.inputs, i.input.Ok ∧ i.prevScript.Ok) ∧ ∀ o ∈ t.outputs, o.output.script.Ok

/-- Well-formed values: scripts of well-formed operations; integers as the constructors make them. -/
def Stored.Ok : (t : Stored) → t.Val → Prop
  | .script, v => Script.Ok v
  | .integer, v => Integer.new v = .ok v
  | .uinteger, v => UInteger.new v = .ok v
  | .input, v => TxInput.Ok v
  | .output, v => Script.Ok v.script
  | .unhashedTx, v => UnhashedTx.Ok v
  | .tx, v => UnhashedTx.Ok v.unhashedTx
  | .slpInput, v => TxInput.Ok v.input ∧ Script.Ok v.prevScript
  | .slpOutput, v => Script.Ok v.output.script
  | .slpTx, v => SlpTx.Ok v
  | .vec t, v => ∀ x ∈ (show List t.Val from v), t.Ok x
  | _, _ => True

/-- The same input, with its scripts in parsed form. Nothing is lost. -/
structure TxInput.SameStored (i j : TxInput) : Prop where
  prevOut : j.prevOut = i.prevOut
  script : i.script.SameParsed j.script
  sequence : j.sequence = i.sequence
  lockScript : Option.Rel Script.SameParsed i.lockScript j.lockScript
  value : j.value = i.value
  isP2sh : j.isP2sh = i.isP2sh
  sigHashFlags : j.sigHashFlags = i.sigHashFlags

structure UnhashedTx.SameStored (t u : UnhashedTx) : Prop where
  version : u.version = t.version
  inputs : List.Forall₂ TxInput.SameStored t.inputs u.inputs
  outputs : List.Forall₂ TxOutput.SameWire t.outputs u.outputs
  lockTime : u.lockTime = t.lockTime

structure SlpTxInput.SameStored (i j : SlpTxInput) : Prop where
  index : j.index = i.index
  token : j.token = i.token
  input : i.input.SameStored j.input
  prevScript : i.prevScript.SameParsed j.prevScript

structure SlpTxOutput.SameStored (i j : SlpTxOutput) : Prop where
  token : j.token = i.token
  output : i.output.SameWire j.output

structure SlpTx.SameStored (t u : SlpTx) : Prop where
  version : u.version = t.version
  inputs : List.Forall₂ SlpTxInput.SameStored t.inputs u.inputs
  outputs : List.Forall₂ SlpTxOutput.SameStored t.outputs u.outputs
  lockTime : u.lockTime = t.lockTime
  slpData : u.slpData = t.slpData
  txHash : u.txHash = t.txHash

/-- `t.Same v w`: `w` is `v`, with scripts in parsed form (and the same bytes). -/
def Stored.Same : (t : Stored) → t.Val → t.Val → Prop
  | .script, v, w => Script.SameParsed v w
  | .input, v, w => TxInput.SameStored v w
  | .output, v, w => TxOutput.SameWire v w
  | .unhashedTx, v, w => UnhashedTx.SameStored v w
  | .tx, v, w => UnhashedTx.SameStored v.unhashedTx w.unhashedTx ∧ w.hash = v.hash ∧ w.raw = v.raw
  | .slpInput, v, w => SlpTxInput.SameStored v w
  | .slpOutput, v, w => SlpTxOutput.SameStored v w
  | .slpTx, v, w => SlpTx.SameStored v w
  | .vec t, v, w => List.Forall₂ t.Same v w
  | _, v, w => w = v

/-! ## Instances -/

namespace Serde

theorem Forall₂_eq {α : Type} {l r : List α} (h : List.Forall₂ Eq l r) : l = r := by
  induction h with
  | nil => rfl
  | cons h _ ih => rw [h, ih]

theorem Rel_eq {α : Type} {l r : Option α} (h : Option.Rel Eq l r) : l = r := by
  cases h with
  | none => rfl
  | some h => rw [h]

theorem notIn {n : String} {l : List String} (h : decide (n ∈ l) = false) : n ∉ l := by simpa using h

theorem Keeps.sigHashFlags {f} : Keeps f Serde.sigHashFlags (fun _ => True) Eq :=
  (Keeps.struct (.field Keeps.u32 .nil (notIn rfl))).imap (fun _ _ => ⟨trivial, trivial⟩)
    (fun _ _ h => h.1)

theorem Keeps.txOutpoint {f} : Keeps f Serde.txOutpoint (fun _ => True) Eq :=
  (Keeps.struct (.field (Keeps.hash 32) (.field Keeps.u32 .nil (notIn rfl)) (notIn rfl))).imap
    (fun _ _ => ⟨trivial, trivial, trivial⟩)
    (by rintro ⟨a, b⟩ ⟨c, d, _⟩ ⟨h1, h2, _⟩; dsimp only at h1 h2; subst h1; subst h2; rfl)

theorem Keeps.scr {f} : Keeps f Serde.script Script.Ok Script.SameParsed := Keeps.script Codec.RoundTrips.script

theorem Keeps.txInput {f} : Keeps f Serde.txInput TxInput.Ok TxInput.SameStored :=
  (Keeps.struct (.field Keeps.txOutpoint (.field Keeps.scr (.field Keeps.u32
    (.field (Keeps.option Keeps.scr NotNull.script) (.field (Keeps.option Keeps.u64 NotNull.int)
    (.field (Keeps.option Keeps.bool NotNull.bool)
    (.field (Keeps.option (Keeps.vec Keeps.sigHashFlags) NotNull.vec) .nil
      (notIn rfl)) (notIn rfl)) (notIn rfl)) (notIn rfl)) (notIn rfl)) (notIn rfl)) (notIn rfl))).imap
    (fun _ h => ⟨trivial, h.1, trivial, h.2, fun _ _ => trivial, fun _ _ => trivial,
      fun _ _ _ _ => trivial, trivial⟩)
    (by
      rintro v ⟨a, b, c, d, e, g, k, _⟩ ⟨h1, h2, h3, h4, h5, h6, h7, _⟩
      refine ⟨h1.symm, h2, h3.symm, h4, (Rel_eq h5).symm, (Rel_eq h6).symm, ?_⟩
      cases h7' : v.sigHashFlags with
      | none => rw [h7'] at h7; cases h7; rfl
      | some l =>
        rw [h7'] at h7
        cases h7 with
        | some h => exact congrArg some (Forall₂_eq h).symm)

theorem Keeps.txOutput {f} : Keeps f Serde.txOutput (fun o => o.script.Ok) TxOutput.SameWire :=
  (Keeps.struct (.field Keeps.u64 (.field Keeps.scr .nil (notIn rfl)) (notIn rfl))).imap
    (fun _ h => ⟨trivial, h, trivial⟩) (fun _ _ h => ⟨h.1.symm, h.2.1⟩)

theorem Keeps.unhashedTx {f} : Keeps f Serde.unhashedTx UnhashedTx.Ok UnhashedTx.SameStored :=
  (Keeps.struct (.field Keeps.i32 (.field (Keeps.vec Keeps.txInput) (.field (Keeps.vec Keeps.txOutput)
    (.field Keeps.u32 .nil (notIn rfl)) (notIn rfl)) (notIn rfl)) (notIn rfl))).imap
    (fun _ h => ⟨trivial, h.1, h.2, trivial, trivial⟩)
    (fun _ _ h => ⟨h.1.symm, h.2.1, h.2.2.1, h.2.2.2.1.symm⟩)

theorem Keeps.tx {f : Format} (hf : f.human = true ∨ f.bytesFromSeq = true) :
    Keeps f Serde.tx (Stored.Ok .tx) (Stored.Same .tx) :=
  (Keeps.struct (.field Keeps.unhashedTx (.field (Keeps.hash 32) (.field (Keeps.byteArray hf) .nil
    (notIn rfl)) (notIn rfl)) (notIn rfl))).imap
    (fun _ h => ⟨h, trivial, trivial, trivial⟩) (fun _ _ h => ⟨h.1, h.2.1.symm, h.2.2.1.symm⟩)

theorem Keeps.unsignedTxInput {f} : Keeps f Serde.unsignedTxInput (fun _ => True) Eq :=
  (Keeps.struct (.field Keeps.txOutpoint (.field Keeps.u32 (.field Keeps.u64 .nil (notIn rfl)) (notIn rfl))
    (notIn rfl))).imap (fun _ _ => ⟨trivial, trivial, trivial, trivial⟩)
    (by
      rintro ⟨a, b, c⟩ ⟨d, e, g, _⟩ ⟨h1, h2, h3, _⟩
      dsimp only at h1 h2 h3; subst h1; subst h2; subst h3; rfl)

theorem Keeps.inputReference {f} : Keeps f Serde.inputReference (fun _ => True) Eq :=
  (Keeps.struct (.field Keeps.phantom (.field Keeps.u64 .nil (notIn rfl)) (notIn rfl))).imap
    (fun _ _ => ⟨trivial, trivial, trivial⟩) (fun _ _ h => h.2.1)

theorem Keeps.slpAction {f} : Keeps f Serde.slpAction (fun _ => True) Eq := by
  intro v _
  obtain ⟨h, m, b⟩ := f
  cases h <;> cases v <;> exact ⟨_, _, rfl, rfl, rfl⟩

theorem Keeps.slpTokenType {f} : Keeps f Serde.slpTokenType (fun _ => True) Eq := by
  intro v _
  obtain ⟨h, m, b⟩ := f
  cases h <;> cases v <;> exact ⟨_, _, rfl, rfl, rfl⟩

theorem Keeps.slpToken {f} : Keeps f Serde.slpToken (fun _ => True) Eq :=
  (Keeps.struct (.field Keeps.u64 (.field Keeps.bool (.field Keeps.slpAction .nil (notIn rfl)) (notIn rfl))
    (notIn rfl))).imap (fun _ _ => ⟨trivial, trivial, trivial, trivial⟩)
    (by
      rintro ⟨a, b, c⟩ ⟨d, e, g, _⟩ ⟨h1, h2, h3, _⟩
      dsimp only at h1 h2 h3; subst h1; subst h2; subst h3; rfl)

theorem Keeps.slpData {f} : Keeps f Serde.slpData (fun _ => True) Eq :=
  (Keeps.struct (.field (Keeps.hash 32) .nil (notIn rfl))).imap (fun _ _ => ⟨trivial, trivial⟩)
    (by rintro ⟨a⟩ ⟨b, _⟩ ⟨h, _⟩; dsimp only at h; subst h; rfl)

theorem Keeps.slpTxInput {f} : Keeps f Serde.slpTxInput (Stored.Ok .slpInput) SlpTxInput.SameStored :=
  (Keeps.struct (.field Keeps.u64 (.field Keeps.slpToken (.field Keeps.txInput (.field Keeps.scr .nil
    (notIn rfl)) (notIn rfl)) (notIn rfl)) (notIn rfl))).imap
    (fun _ h => ⟨trivial, trivial, h.1, h.2, trivial⟩)
    (fun _ _ h => ⟨h.1.symm, h.2.1.symm, h.2.2.1, h.2.2.2.1⟩)

theorem Keeps.slpTxOutput {f} : Keeps f Serde.slpTxOutput (Stored.Ok .slpOutput) SlpTxOutput.SameStored :=
  (Keeps.struct (.field Keeps.slpToken (.field Keeps.txOutput .nil (notIn rfl)) (notIn rfl))).imap
    (fun _ h => ⟨trivial, h, trivial⟩) (fun _ _ h => ⟨h.1.symm, h.2.1⟩)

theorem Keeps.slpTx {f} : Keeps f Serde.slpTx SlpTx.Ok SlpTx.SameStored :=
  (Keeps.struct (.field Keeps.i32 (.field (Keeps.vec Keeps.slpTxInput) (.field (Keeps.vec Keeps.slpTxOutput)
    (.field Keeps.u32 (.field (Keeps.option Keeps.slpData (NotNull.imap NotNull.struct _ _))
    (.field (Keeps.hash 32) .nil (notIn rfl)) (notIn rfl)) (notIn rfl)) (notIn rfl)) (notIn rfl))
    (notIn rfl))).imap
    (fun _ h => ⟨trivial, h.1, h.2, trivial, fun _ _ => trivial, trivial, trivial⟩)
    (fun _ _ h => ⟨h.1.symm, h.2.1, h.2.2.1, h.2.2.2.1.symm, (Rel_eq h.2.2.2.2.1).symm,
      h.2.2.2.2.2.1.symm⟩)

theorem Keeps.slpUtxo {f} : Keeps f Serde.slpUtxo (fun _ => True) Eq :=
  (Keeps.struct (.field Keeps.unsignedTxInput (.field Keeps.slpToken
    (.field (Keeps.option Keeps.slpData (NotNull.imap NotNull.struct _ _)) .nil (notIn rfl)) (notIn rfl))
    (notIn rfl))).imap (fun _ _ => ⟨trivial, trivial, fun _ _ => trivial, trivial⟩)
    (by
      rintro ⟨a, b, c⟩ ⟨d, e, g, _⟩ ⟨h1, h2, h3, _⟩
      have h3' := Rel_eq h3
      clear h3
      dsimp only at h1 h2 h3'; subst h1; subst h2; subst h3'; rfl)

theorem Keeps.tokenMeta {f} : Keeps f Serde.tokenMeta (fun _ => True) Eq :=
  (Keeps.struct (.field Keeps.string (.field Keeps.string (.field Keeps.string (.field (Keeps.vec Keeps.u8)
    (.field Keeps.u8 (.field Keeps.slpTokenType .nil (notIn rfl)) (notIn rfl)) (notIn rfl)) (notIn rfl))
    (notIn rfl)) (notIn rfl))).imap
    (fun _ _ => ⟨trivial, trivial, trivial, fun _ _ => trivial, trivial, trivial, trivial⟩)
    (by
      rintro ⟨a, b, c, d, e, g⟩ ⟨a', b', c', d', e', g', _⟩ ⟨h1, h2, h3, h4, h5, h6, _⟩
      have h4' := Forall₂_eq h4
      clear h4
      dsimp only at h1 h2 h3 h4' h5 h6
      subst h1; subst h2; subst h3; subst h4'; subst h5; subst h6; rfl)

end Serde

/-- **C80** (partial: see `C80_binary_fails`): every well-formed value of every stored type can be written in
every format, and reading what was written gives the same value, scripts being in parsed form — provided the
format is human-readable, or reads byte strings from sequences of bytes, or the type holds no byte array. -/
theorem C80_stored_partial (f : Format) (t : Stored) (v : t.Val) (hv : t.Ok v)
    (hf : f.human = true ∨ f.bytesFromSeq = true ∨ t.hasByteArray = false) :
    ∃ x w, t.serde.write f v = some x ∧ t.serde.read f x = .ok w ∧ t.Same v w := by
  suffices Keeps f t.serde t.Ok t.Same from this v hv
  clear hv v
  induction t with
  | bytes =>
    exact (Keeps.byteArray (by simpa [Stored.hasByteArray] using hf)).mono (fun _ _ => trivial)
      (fun _ _ h => h.symm)
  | hash n => exact (Keeps.hash n).mono (fun _ _ => trivial) (fun _ _ h => h.symm)
  | pubkey => exact Keeps.pubkey.mono (fun _ _ => trivial) (fun _ _ h => h.symm)
  | script => exact Keeps.scr
  | integer => exact Keeps.integer.mono (fun _ h => h) (fun _ _ h => h.symm)
  | uinteger => exact Keeps.uinteger.mono (fun _ h => h) (fun _ _ h => h.symm)
  | flags => exact Keeps.sigHashFlags.mono (fun _ _ => trivial) (fun _ _ h => h.symm)
  | outpoint => exact Keeps.txOutpoint.mono (fun _ _ => trivial) (fun _ _ h => h.symm)
  | input => exact Keeps.txInput
  | output => exact Keeps.txOutput
  | unhashedTx => exact Keeps.unhashedTx
  | tx => exact Keeps.tx (by simpa [Stored.hasByteArray] using hf)
  | unsignedInput => exact Keeps.unsignedTxInput.mono (fun _ _ => trivial) (fun _ _ h => h.symm)
  | inputReference => exact Keeps.inputReference.mono (fun _ _ => trivial) (fun _ _ h => h.symm)
  | slpTokenType => exact Keeps.slpTokenType.mono (fun _ _ => trivial) (fun _ _ h => h.symm)
  | slpAction => exact Keeps.slpAction.mono (fun _ _ => trivial) (fun _ _ h => h.symm)
  | slpTokenId => exact (Keeps.hash 32).mono (fun _ _ => trivial) (fun _ _ h => h.symm)
  | slpToken => exact Keeps.slpToken.mono (fun _ _ => trivial) (fun _ _ h => h.symm)
  | slpData => exact Keeps.slpData.mono (fun _ _ => trivial) (fun _ _ h => h.symm)
  | slpInput => exact Keeps.slpTxInput
  | slpOutput => exact Keeps.slpTxOutput
  | slpTx => exact Keeps.slpTx
  | slpUtxo => exact Keeps.slpUtxo.mono (fun _ _ => trivial) (fun _ _ h => h.symm)
  | slpTokenMeta => exact Keeps.tokenMeta.mono (fun _ _ => trivial) (fun _ _ h => h.symm)
  | vec t ih => exact Keeps.vec (ih hf)

theorem exampleTx_ok : exampleTx.Ok := by
  have h1 : Script.serOps [.pushByteArray [1, 2] true] = some [2, 1, 2] := by decide
  have h2 : Script.serOps [.code .OP_DUP, .pushInteger 300] = some [0x76, 2, 44, 1] := by decide
  refine ⟨?_, ?_⟩
  · intro i hi
    simp only [exampleTx, List.mem_singleton] at hi
    subst hi
    refine ⟨⟨?_, fun bs h => ?_⟩, ?_⟩
    · intro op ho
      simp only [List.mem_singleton] at ho
      subst ho
      show (2 : Nat) < 2 ^ 32; decide
    · rw [h1] at h; cases h; decide
    · intro s hs
      cases hs
      exact ⟨by simp, fun bs h => by cases h; decide⟩
  · intro i hi
    simp only [exampleTx, List.mem_singleton] at hi
    subst hi
    refine ⟨?_, fun bs h => ?_⟩
    · intro op ho
      simp only [List.mem_cons, List.not_mem_nil, or_false] at ho
      rcases ho with rfl | rfl
      · exact ⟨by decide, by decide, by decide⟩
      · show InScriptRange 300; decide
    · rw [h2] at h; cases h; decide

example (f : Format) : ∃ x w, Serde.unhashedTx.write f exampleTx = some x ∧
    Serde.unhashedTx.read f x = .ok w ∧ exampleTx.SameStored w :=
  C80_stored_partial f .unhashedTx exampleTx exampleTx_ok (.inr (.inr rfl))

/-- In a binary format that tells byte strings from sequences (CBOR, MessagePack), byte arrays and hashed
transactions are written as sequences of numbers, and reading them always fails. -/
theorem C80_binary_fails (f : Format) (h1 : f.human = false) (h2 : f.bytesFromSeq = false) :
    (∀ (v : Bytes) x, Serde.byteArray.write f v = some x → Serde.byteArray.read f x = .err .invalidType) ∧
    (∀ (v : Tx) x w, Serde.tx.write f v = some x → Serde.tx.read f x ≠ .ok w) := by
  have hb : ∀ (v : Bytes) x, Serde.byteArray.write f v = some x →
      Serde.byteArray.read f x = .err .invalidType := by
    intro v x hx
    simp only [Serde.byteArray, h1, Bool.false_eq_true, if_false] at hx
    simp only [Serde.vec, Option.map_eq_some_iff] at hx
    obtain ⟨xs, _, rfl⟩ := hx
    simp [Serde.byteArray, h1, h2]
  refine ⟨hb, ?_⟩
  rintro ⟨u, h, r⟩ x w hx hr
  simp only [Serde.tx, Serde.imap, Serde.struct, Fields.field, Fields.nil, Option.map_eq_some_iff,
    Option.bind_eq_some_iff] at hx
  obtain ⟨xs, ⟨x1, e1, ys, ⟨x2, e2, zs, ⟨x3, e3, es, e4, e5⟩, e6⟩, e7⟩, e8⟩ := hx
  cases e4; cases e5; cases e6; cases e7
  have e9 := hb _ _ e3
  obtain ⟨⟨a, b, c, d⟩, h3, _⟩ := map_ok hr
  split at e8 <;> subst e8
  · rw [read_map] at h3
    simp only [found_field] at h3
    obtain ⟨_, _, h3, _⟩ := h3
    rcases h3 with ⟨h3, _⟩ | ⟨v, h3, h4⟩
    · simp [valuesAt] at h3
    · simp [valuesAt] at h3
      subst h3
      rw [e9] at h4; cases h4
  · simp only [Serde.struct, Fields.field] at h3
    obtain ⟨⟨p, q⟩, h4, _⟩ := Res.bind_eq_ok.mp h3
    obtain ⟨_, _, h5⟩ := Res.bind_eq_ok.mp h4
    obtain ⟨⟨_, _⟩, h6, _⟩ := Res.bind_eq_ok.mp h5
    obtain ⟨_, _, h7⟩ := Res.bind_eq_ok.mp h6
    obtain ⟨⟨_, _⟩, h8, _⟩ := Res.bind_eq_ok.mp h7
    rw [e9] at h8
    cases h8

example : ∃ x, Serde.byteArray.write ⟨false, true, false⟩ [1, 2] = some x ∧
    Serde.byteArray.read ⟨false, true, false⟩ x = .err .invalidType := by
  exact ⟨_, rfl, rfl⟩

/-- The document of a value. -/
def Stored.doc : (t : Stored) → t.Val → SVal
  | .bytes, v => Doc.hex v
  | .hash _, v => Doc.hash v
  | .pubkey, v => Doc.hex v.1
  | .script, v => Doc.script v
  | .integer, v => .num v
  | .uinteger, v => .num v
  | .flags, v => Doc.flags v
  | .outpoint, v => Doc.outpoint v
  | .input, v => Doc.input v
  | .output, v => Doc.output v
  | .unhashedTx, v => Doc.unhashedTx v
  | .tx, v => Doc.tx v
  | .unsignedInput, v => Doc.unsignedInput v
  | .inputReference, v => Doc.inputReference v
  | .slpTokenType, v => Doc.tokenType v
  | .slpAction, v => Doc.action v
  | .slpTokenId, v => Doc.hash v
  | .slpToken, v => Doc.token v
  | .slpData, v => Doc.slpData v
  | .slpInput, v => Doc.slpInput v
  | .slpOutput, v => Doc.slpOutput v
  | .slpTx, v => Doc.slpTx v
  | .slpUtxo, v => Doc.utxo v
  | .slpTokenMeta, v => Doc.tokenMeta v
  | .vec t, v => Doc.list t.doc v

namespace Serde

/-- Valid values are written as the document says. -/
def Writes {α : Type} (f : Format) (s : Serde α) (V : α → Prop) (doc : α → SVal) : Prop :=
  ∀ v, V v → s.write f v = some (doc v)

theorem Writes.vec {α : Type} {f} {s : Serde α} {V doc} (h : Writes f s V doc) :
    Writes f (Serde.vec s) (fun vs => ∀ v ∈ vs, V v) (Doc.list doc) := by
  intro vs hv
  have : vs.mapM (s.write f) = some (vs.map doc) := by
    induction vs with
    | nil => rfl
    | cons v vs ih =>
      rw [List.mapM_cons, h v (hv v List.mem_cons_self), ih fun w hw => hv w (List.mem_cons_of_mem _ hw)]
      rfl
  simp [Serde.vec, this, Doc.list]

theorem Writes.option {α : Type} {f} {s : Serde α} {V doc} (h : Writes f s V doc) :
    Writes f (Serde.option s) (fun v => ∀ x, v = some x → V x) (Doc.opt doc) := by
  intro v hv
  cases v with
  | none => rfl
  | some v => exact h v (hv v rfl)

theorem Writes.script {f : Format} (hf : f.human = true) : Writes f Serde.script Script.Ok Doc.script := by
  intro v hv
  have := ser_script v (serialisable_of_ok hv)
  simp only [Serde.script, this, Option.bind_some, hf, if_true]
  rfl

theorem Writes.hash {f : Format} (hf : f.human = true) (n : Nat) :
    Writes f (Serde.hash n) (fun _ => True) Doc.hash := by
  intro v _
  simp only [Serde.hash, hf, if_true]
  rfl

section
variable {f : Format} (h1 : f.human = true) (h2 : f.structsAsMaps = true)
set_option linter.unusedSectionVars false
include h1 h2

theorem Writes.outpoint : Writes f Serde.txOutpoint (fun _ => True) Doc.outpoint := by
  intro v _
  simp only [Serde.txOutpoint, Serde.imap, Serde.struct, Fields.field, Fields.nil,
    Writes.hash h1 32 _ trivial, h2, if_true]
  rfl

theorem Writes.flags : Writes f Serde.sigHashFlags (fun _ => True) Doc.flags := by
  intro v _
  simp only [Serde.sigHashFlags, Serde.imap, Serde.struct, Fields.field, Fields.nil, h2, if_true]
  rfl

theorem Writes.input : Writes f Serde.txInput TxInput.Ok Doc.input := by
  intro v hv
  have a1 := Writes.outpoint h1 h2 v.prevOut trivial
  have a2 := Writes.script h1 v.script hv.1
  have a3 := Writes.option (Writes.script h1) v.lockScript hv.2
  have a4 := Writes.option (Writes.vec (Writes.flags h1 h2)) v.sigHashFlags (fun _ _ _ _ => trivial)
  have a5 := Writes.option (f := f) (s := Serde.u64) (V := fun _ => True)
    (doc := fun v => Doc.num v.toNat) (fun _ _ => rfl) v.value (fun _ _ => trivial)
  have a6 := Writes.option (f := f) (s := Serde.bool) (V := fun _ => True)
    (doc := .bool) (fun _ _ => rfl) v.isP2sh (fun _ _ => trivial)
  simp only [Serde.txInput, Serde.imap, Serde.struct, Fields.field, Fields.nil, a1, a2, a3, a4, a5, a6, h2,
    if_true]
  rfl

theorem Writes.output : Writes f Serde.txOutput (fun o => o.script.Ok) Doc.output := by
  intro v hv
  simp only [Serde.txOutput, Serde.imap, Serde.struct, Fields.field, Fields.nil,
    Writes.script h1 v.script hv, h2, if_true]
  rfl

theorem Writes.unhashedTx : Writes f Serde.unhashedTx UnhashedTx.Ok Doc.unhashedTx := by
  intro v hv
  have a1 := Writes.vec (Writes.input h1 h2) v.inputs hv.1
  have a2 := Writes.vec (Writes.output h1 h2) v.outputs hv.2
  simp only [Serde.unhashedTx, Serde.imap, Serde.struct, Fields.field, Fields.nil, a1, a2, h2, if_true]
  rfl

theorem Writes.tx : Writes f Serde.tx (Stored.Ok .tx) Doc.tx := by
  intro v hv
  have a1 := Writes.unhashedTx h1 h2 v.unhashedTx hv
  have a2 := Writes.hash h1 32 v.hash trivial
  have a3 : Serde.byteArray.write f v.raw = some (Doc.hex v.raw) := by simp [Serde.byteArray, h1, Doc.hex]
  simp only [Serde.tx, Serde.imap, Serde.struct, Fields.field, Fields.nil, a1, a2, a3, h2, if_true]
  rfl

theorem Writes.unsignedInput : Writes f Serde.unsignedTxInput (fun _ => True) Doc.unsignedInput := by
  intro v _
  simp only [Serde.unsignedTxInput, Serde.imap, Serde.struct, Fields.field, Fields.nil,
    Writes.outpoint h1 h2 v.prevOut trivial, h2, if_true]
  rfl

theorem Writes.action : Writes f Serde.slpAction (fun _ => True) Doc.action := by
  intro v _
  obtain ⟨h, m, b⟩ := f
  cases h1
  cases v <;> rfl

theorem Writes.tokenType : Writes f Serde.slpTokenType (fun _ => True) Doc.tokenType := by
  intro v _
  obtain ⟨h, m, b⟩ := f
  cases h1
  cases v <;> rfl

theorem Writes.token : Writes f Serde.slpToken (fun _ => True) Doc.token := by
  intro v _
  simp only [Serde.slpToken, Serde.imap, Serde.struct, Fields.field, Fields.nil,
    Writes.action h1 h2 v.action trivial, h2, if_true]
  rfl

theorem Writes.slpData : Writes f Serde.slpData (fun _ => True) Doc.slpData := by
  intro v _
  have := Writes.hash h1 32 v.tokenId trivial
  simp only [Serde.slpData, Serde.tokenId, Serde.imap, Serde.struct, Fields.field, Fields.nil,
    this, h2, if_true]
  rfl

theorem Writes.slpInput : Writes f Serde.slpTxInput (Stored.Ok .slpInput) Doc.slpInput := by
  intro v hv
  simp only [Serde.slpTxInput, Serde.imap, Serde.struct, Fields.field, Fields.nil,
    Writes.token h1 h2 v.token trivial, Writes.input h1 h2 v.input hv.1,
    Writes.script h1 v.prevScript hv.2, h2, if_true]
  rfl

theorem Writes.slpOutput : Writes f Serde.slpTxOutput (Stored.Ok .slpOutput) Doc.slpOutput := by
  intro v hv
  simp only [Serde.slpTxOutput, Serde.imap, Serde.struct, Fields.field, Fields.nil,
    Writes.token h1 h2 v.token trivial, Writes.output h1 h2 v.output hv, h2, if_true]
  rfl

theorem Writes.slpTx : Writes f Serde.slpTx SlpTx.Ok Doc.slpTx := by
  intro v hv
  have a1 := Writes.vec (Writes.slpInput h1 h2) v.inputs hv.1
  have a2 := Writes.vec (Writes.slpOutput h1 h2) v.outputs hv.2
  have a3 := Writes.option (Writes.slpData h1 h2) v.slpData (fun _ _ => trivial)
  have a4 := Writes.hash h1 32 v.txHash trivial
  simp only [Serde.slpTx, Serde.imap, Serde.struct, Fields.field, Fields.nil, a1, a2, a3, a4, h2, if_true]
  rfl

theorem Writes.utxo : Writes f Serde.slpUtxo (fun _ => True) Doc.utxo := by
  intro v _
  have a3 := Writes.option (Writes.slpData h1 h2) v.slpData (fun _ _ => trivial)
  simp only [Serde.slpUtxo, Serde.imap, Serde.struct, Fields.field, Fields.nil,
    Writes.unsignedInput h1 h2 v.input trivial, Writes.token h1 h2 v.slpToken trivial, a3, h2, if_true]
  rfl

theorem Writes.tokenMeta : Writes f Serde.tokenMeta (fun _ => True) Doc.tokenMeta := by
  intro v _
  have a1 := Writes.vec (f := f) (s := Serde.u8) (V := fun _ => True)
    (doc := fun v => Doc.num v.toNat) (fun _ _ => rfl) v.documentHash (fun _ _ => trivial)
  simp only [Serde.tokenMeta, Serde.imap, Serde.struct, Fields.field, Fields.nil, a1,
    Writes.tokenType h1 h2 v.slpTokenType trivial, h2, if_true]
  rfl

end
end Serde

/-- **C80** (layout): in JSON every well-formed value of every stored type is written exactly as its document:
hashes as reversed hex, scripts as hex with their length, the fields under their names. -/
theorem C80_layout (f : Format) (h1 : f.human = true) (h2 : f.structsAsMaps = true) (t : Stored) (v : t.Val)
    (hv : t.Ok v) : t.serde.write f v = some (t.doc v) := by
  suffices Writes f t.serde t.Ok t.doc from this v hv
  clear hv v
  induction t with
  | bytes => intro v _; simp [Stored.serde, Serde.byteArray, h1, Stored.doc, Doc.hex]
  | hash n => intro v _; exact Writes.hash h1 n v trivial
  | pubkey =>
    intro v _
    simp only [Stored.serde, Serde.pubkey, h1, if_true]
    rfl
  | script => exact Writes.script h1
  | integer => intro v _; rfl
  | uinteger => intro v _; rfl
  | flags => intro v _; exact Writes.flags h1 h2 v trivial
  | outpoint => intro v _; exact Writes.outpoint h1 h2 v trivial
  | input => exact Writes.input h1 h2
  | output => exact Writes.output h1 h2
  | unhashedTx => exact Writes.unhashedTx h1 h2
  | tx => exact Writes.tx h1 h2
  | unsignedInput => intro v _; exact Writes.unsignedInput h1 h2 v trivial
  | inputReference =>
    intro v _
    simp only [Stored.serde, Serde.inputReference, Serde.imap, Serde.struct, Fields.field, Fields.nil, h2,
      if_true]
    rfl
  | slpTokenType => intro v _; exact Writes.tokenType h1 h2 v trivial
  | slpAction => intro v _; exact Writes.action h1 h2 v trivial
  | slpTokenId => intro v _; exact Writes.hash h1 32 v trivial
  | slpToken => intro v _; exact Writes.token h1 h2 v trivial
  | slpData => intro v _; exact Writes.slpData h1 h2 v trivial
  | slpInput => exact Writes.slpInput h1 h2
  | slpOutput => exact Writes.slpOutput h1 h2
  | slpTx => exact Writes.slpTx h1 h2
  | slpUtxo => intro v _; exact Writes.utxo h1 h2 v trivial
  | slpTokenMeta => intro v _; exact Writes.tokenMeta h1 h2 v trivial
  | vec t ih => exact Writes.vec ih

example (f : Format) (h1 : f.human = true) (h2 : f.structsAsMaps = true) :
    Serde.unhashedTx.write f exampleTx = some (Doc.unhashedTx exampleTx) :=
  C80_layout f h1 h2 .unhashedTx exampleTx exampleTx_ok

/-! ## Arrangement of documents -/

/-- The names of all fields of the stored types. -/
def fieldNames : List String :=
  ["bits", "txHash", "vout", "prevOut", "script", "sequence", "lockScript", "value", "isP2sh", "sigHashFlags",
   "version", "inputs", "outputs", "lockTime", "unhashedTx", "hash", "raw", "phantom", "input_idx",
   "amount", "is_mint_baton", "action", "token_id", "index", "token", "input", "prev_script", "output",
   "lock_time", "slp_data", "tx_hash", "slp_token", "ticker", "name", "document_url", "document_hash",
   "decimals", "slp_token_type"]

/-- The names of fields that are optional in some type. -/
def optionalNames : List String := ["lockScript", "value", "isP2sh", "sigHashFlags", "slp_data"]

namespace Serde
variable {f : Format}

theorem isIn {n : String} {l : List String} (h : decide (n ∈ l) = true) : n ∈ l := by simpa using h

local notation "known" => fun n => n ∈ fieldNames
local notation "opt" => fun n => n ∈ optionalNames

/-- Not an optional name. -/
theorem required {α : Type} {n : String} {s : Serde α} (h : decide (n ∈ optionalNames) = false) :
    n ∈ optionalNames → ∀ v, s.missing = some v ↔ s.read f .null = .ok v := fun hn => by simp_all

/-- An absent option is read like `null`. -/
theorem absent {α : Type} {n : String} {s : Serde α} :
    n ∈ optionalNames → ∀ v, (option s).missing = some v ↔ (option s).read f .null = .ok v := fun _ v => by
  simp [option, eq_comm]

/-- A number is neither absent nor `null`. -/
theorem notNull {α : Type} {n : String} {lo hi : Int} {a : α → Int} {b : Int → α} :
    n ∈ optionalNames → ∀ v, (int lo hi a b).missing = some v ↔ (int lo hi a b).read f .null = .ok v :=
  fun _ v => by simp [int]

theorem Robust.flags : Robust known opt f Serde.sigHashFlags :=
  (Robust.struct (.field (isIn rfl) (required rfl) Robust.int .nil)).imap _ _
theorem Robust.outpoint : Robust known opt f Serde.txOutpoint :=
  (Robust.struct (.field (isIn rfl) (required rfl) (Robust.hash 32) (.field (isIn rfl) (required rfl) Robust.int .nil))).imap _ _
theorem Robust.input : Robust known opt f Serde.txInput :=
  (Robust.struct (.field (isIn rfl) (required rfl) Robust.outpoint (.field (isIn rfl) (required rfl) Robust.script
    (.field (isIn rfl) (required rfl) Robust.int (.field (isIn rfl) absent Robust.script.option
    (.field (isIn rfl) absent (Robust.option Robust.int) (.field (isIn rfl) absent Robust.bool.option
    (.field (isIn rfl) absent Robust.flags.vec.option .nil)))))))).imap _ _
theorem Robust.output : Robust known opt f Serde.txOutput :=
  (Robust.struct (.field (isIn rfl) notNull Robust.int (.field (isIn rfl) (required rfl) Robust.script .nil))).imap _ _
theorem Robust.unhashedTx : Robust known opt f Serde.unhashedTx :=
  (Robust.struct (.field (isIn rfl) (required rfl) Robust.int (.field (isIn rfl) (required rfl) Robust.input.vec
    (.field (isIn rfl) (required rfl) Robust.output.vec (.field (isIn rfl) (required rfl) Robust.int .nil))))).imap _ _
theorem Robust.tx : Robust known opt f Serde.tx :=
  (Robust.struct (.field (isIn rfl) (required rfl) Robust.unhashedTx (.field (isIn rfl) (required rfl) (Robust.hash 32)
    (.field (isIn rfl) (required rfl) Robust.byteArray .nil)))).imap _ _
theorem Robust.unsignedInput : Robust known opt f Serde.unsignedTxInput :=
  (Robust.struct (.field (isIn rfl) (required rfl) Robust.outpoint (.field (isIn rfl) (required rfl) Robust.int
    (.field (isIn rfl) notNull Robust.int .nil)))).imap _ _
theorem Robust.inputReference : Robust known opt f Serde.inputReference :=
  (Robust.struct (.field (isIn rfl) (required rfl) Robust.phantom (.field (isIn rfl) (required rfl) Robust.int .nil))).imap _ _
theorem Robust.slpToken : Robust known opt f Serde.slpToken :=
  (Robust.struct (.field (isIn rfl) (required rfl) Robust.int (.field (isIn rfl) (required rfl) Robust.bool
    (.field (isIn rfl) (required rfl) (Robust.unitEnum _) .nil)))).imap _ _
theorem Robust.slpData : Robust known opt f Serde.slpData :=
  (Robust.struct (.field (isIn rfl) (required rfl) (Robust.hash 32) .nil)).imap _ _
theorem Robust.slpInput : Robust known opt f Serde.slpTxInput :=
  (Robust.struct (.field (isIn rfl) (required rfl) Robust.int (.field (isIn rfl) (required rfl) Robust.slpToken
    (.field (isIn rfl) (required rfl) Robust.input (.field (isIn rfl) (required rfl) Robust.script .nil))))).imap _ _
theorem Robust.slpOutput : Robust known opt f Serde.slpTxOutput :=
  (Robust.struct (.field (isIn rfl) (required rfl) Robust.slpToken (.field (isIn rfl) (required rfl) Robust.output .nil))).imap _ _
theorem Robust.slpTx : Robust known opt f Serde.slpTx :=
  (Robust.struct (.field (isIn rfl) (required rfl) Robust.int (.field (isIn rfl) (required rfl) Robust.slpInput.vec
    (.field (isIn rfl) (required rfl) Robust.slpOutput.vec (.field (isIn rfl) (required rfl) Robust.int
    (.field (isIn rfl) absent Robust.slpData.option (.field (isIn rfl) (required rfl) (Robust.hash 32) .nil))))))).imap _ _
theorem Robust.slpUtxo : Robust known opt f Serde.slpUtxo :=
  (Robust.struct (.field (isIn rfl) (required rfl) Robust.unsignedInput (.field (isIn rfl) (required rfl) Robust.slpToken
    (.field (isIn rfl) absent Robust.slpData.option .nil)))).imap _ _
theorem Robust.tokenMeta : Robust known opt f Serde.tokenMeta :=
  (Robust.struct (.field (isIn rfl) (required rfl) Robust.string (.field (isIn rfl) (required rfl) Robust.string
    (.field (isIn rfl) (required rfl) Robust.string (.field (isIn rfl) (required rfl) (Robust.vec Robust.int)
    (.field (isIn rfl) (required rfl) Robust.int (.field (isIn rfl) (required rfl) (Robust.unitEnum _) .nil))))))).imap _ _

end Serde

/-- **C80** (arrangement): what is read from a document of any stored type does not depend on the order of
entries with different names, on entries with other names, or on whether an optional field is absent or
`null`, at any depth. -/
theorem C80_arrangement (f : Format) (t : Stored) (x y : SVal) (h : Rearranged (· ∈ fieldNames) (· ∈ optionalNames) x y)
    (v : t.Val) (hx : t.serde.read f x = .ok v) : t.serde.read f y = .ok v := by
  suffices Robust (· ∈ fieldNames) (· ∈ optionalNames) f t.serde from this x y v h hx
  clear hx h v x y
  induction t with
  | bytes => exact Robust.byteArray
  | hash n => exact Robust.hash n
  | pubkey => exact Robust.pubkey
  | script => exact Robust.script
  | integer => exact Robust.integer
  | uinteger => exact Robust.uinteger
  | flags => exact Robust.flags
  | outpoint => exact Robust.outpoint
  | input => exact Robust.input
  | output => exact Robust.output
  | unhashedTx => exact Robust.unhashedTx
  | tx => exact Robust.tx
  | unsignedInput => exact Robust.unsignedInput
  | inputReference => exact Robust.inputReference
  | slpTokenType => exact Robust.unitEnum (α := SlpTokenType) _
  | slpAction => exact Robust.unitEnum (α := SlpAction) _
  | slpTokenId => exact Robust.hash 32
  | slpToken => exact Robust.slpToken
  | slpData => exact Robust.slpData
  | slpInput => exact Robust.slpInput
  | slpOutput => exact Robust.slpOutput
  | slpTx => exact Robust.slpTx
  | slpUtxo => exact Robust.slpUtxo
  | slpTokenMeta => exact Robust.tokenMeta
  | vec t ih => exact Robust.vec ih

example : Rearranged (· ∈ fieldNames) (· ∈ optionalNames)
    (.map [("value", .num 1), ("isP2sh", .null), ("script", .str [])])
    (.map [("script", .str []), ("comment", .null), ("value", .num 1)]) := by
  refine .map fun n hn hg => ?_
  by_cases h1 : n = "value"
  · subst h1; exact List.Forall₂.cons (Rearranged.same _) .nil
  · by_cases h2 : n = "script"
    · subst h2; exact List.Forall₂.cons (Rearranged.same _) .nil
    · by_cases h3 : n = "comment"
      · subst h3; exact absurd hn (by decide)
      · by_cases h4 : n = "isP2sh"
        · subst h4; exact absurd ⟨by decide, .inl ⟨rfl, rfl⟩⟩ hg
        · simp [valuesAt, Ne.symm h1, Ne.symm h2, Ne.symm h3, Ne.symm h4]

/-- An input stored without its optional fields is read as one without lock script, value, P2SH mark and
flags. -/
example (f : Format) (h : f.human = true) : Serde.txInput.read f
    (.map [("prevOut", .map [("txHash", .str (List.replicate 64 48)), ("vout", .num 7)]),
      ("script", .str [48, 48]), ("sequence", .num 0xffffffff)]) =
    .ok ⟨⟨Hash256.zero, 7⟩, [], 0xffffffff, none, none, none, none⟩ := by
  obtain ⟨human, maps, seqs⟩ := f
  cases h
  rfl

/-! ## C81: transaction objects -/

/-- The bytes of a transaction object are those of its fields, and its hash is the hash of these bytes. -/
def Tx.Consistent (sz : Layout) (sha256d : Bytes → Hash256) (t : Tx) : Prop :=
  (Codec.unhashedTx sz).ser t.unhashedTx = some t.raw ∧ t.hash = sha256d t.raw

/-- **C81**: hashing a transaction gives a consistent object with that transaction's fields. -/
theorem C81_hashed (sz : Layout) (sha256d : Bytes → Hash256) (u : UnhashedTx) (t : Tx)
    (h : u.hashed sz sha256d = some t) : t.Consistent sz sha256d ∧ t.unhashedTx = u := by
  unfold UnhashedTx.hashed at h
  obtain ⟨raw, h1, rfl⟩ := Option.map_eq_some_iff.mp h
  exact ⟨⟨h1, rfl⟩, rfl⟩

theorem SameParsed.ser {s s' : Script} (h : s.SameParsed s') : Codec.script.ser s' = Codec.script.ser s := by
  simp [Codec.script, h.2]

theorem serMany_same {α : Type} {c : Codec α} {R : α → α → Prop} (h : ∀ v w, R v w → c.ser w = c.ser v)
    {vs ws : List α} (hs : List.Forall₂ R vs ws) : c.serMany ws = c.serMany vs := by
  induction hs with
  | nil => rfl
  | cons a _ ih => simp [Codec.serMany, h _ _ a, ih]

theorem UnhashedTx.SameStored.ser {t u : UnhashedTx} (h : t.SameStored u) (sz : Layout) :
    (Codec.unhashedTx sz).ser u = (Codec.unhashedTx sz).ser t := by
  have h1 : Codec.txInput.serMany u.inputs = Codec.txInput.serMany t.inputs := by
    refine serMany_same ?_ h.inputs
    intro i j hij
    simp only [Codec.txInput, Codec.imap, Codec.seq, hij.prevOut, hij.sequence, SameParsed.ser hij.script]
  have h2 : Codec.txOutput.serMany u.outputs = Codec.txOutput.serMany t.outputs := by
    refine serMany_same ?_ h.outputs
    intro i j hij
    simp only [Codec.txOutput, Codec.imap, Codec.seq, hij.1, SameParsed.ser hij.2]
  simp only [Codec.unhashedTx, Codec.imap, Codec.seq, Codec.vec, h.version, h.lockTime, h1, h2,
    h.inputs.length_eq, h.outputs.length_eq]

/-- **C81** (partial: see the two failures below): a consistent transaction object that was stored, in a format
that can store it, comes back as a consistent object with the same bytes and hash. -/
theorem C81_stored_partial (sz : Layout) (sha256d : Bytes → Hash256) (f : Format)
    (hf : f.human = true ∨ f.bytesFromSeq = true) (t : Tx) (ht : t.Consistent sz sha256d)
    (hok : t.unhashedTx.Ok) :
    ∃ x w, Serde.tx.write f t = some x ∧ Serde.tx.read f x = .ok w ∧ w.Consistent sz sha256d ∧
      w.raw = t.raw ∧ w.hash = t.hash := by
  obtain ⟨x, w, a, b, c, d, e⟩ := Keeps.tx hf t hok
  refine ⟨x, w, a, b, ⟨?_, ?_⟩, e, d⟩
  · rw [c.ser sz, ht.1, e]
  · rw [d, e, ht.2]

example (sha256d : Bytes → Hash256) (f : Format) (hf : f.human = true) :
    ∃ t x w, exampleTx.hashed ⟨1, 1⟩ sha256d = some t ∧ Serde.tx.write f t = some x ∧
      Serde.tx.read f x = .ok w ∧ w.Consistent ⟨1, 1⟩ sha256d := by
  have h : (exampleTx.hashed ⟨1, 1⟩ sha256d).isSome = true := by
    unfold UnhashedTx.hashed
    rw [Option.isSome_map]
    decide
  obtain ⟨t, ht⟩ := Option.isSome_iff_exists.mp h
  obtain ⟨h1, h2⟩ := C81_hashed _ _ _ _ ht
  obtain ⟨x, w, a, b, c, _⟩ := C81_stored_partial ⟨1, 1⟩ sha256d f (.inl hf) t h1 (h2 ▸ exampleTx_ok)
  exact ⟨t, x, w, ht, a, b, c⟩

/-- A transaction object read from its consensus serialisation has the default fields and the zero hash,
whatever its bytes: it is inconsistent unless its bytes are those of the empty transaction. -/
theorem C81_deser_fails (sz : Layout) (sha256d : Bytes → Hash256) (bs rest : Bytes) (t : Tx)
    (h : Codec.tx.deserRest bs = .ok (t, rest)) :
    t.unhashedTx = .default ∧ t.hash = .zero ∧
      (t.raw ≠ [1, 0, 0, 0, 0, 0, 0, 0, 0, 0] → ¬ t.Consistent sz sha256d) := by
  simp only [Codec.tx, Codec.imap] at h
  obtain ⟨⟨a, b⟩, h1, h2⟩ := Res.bind_eq_ok.mp h
  simp only [Res.ok.injEq, Prod.mk.injEq] at h2
  obtain ⟨rfl, rfl⟩ := h2
  refine ⟨rfl, rfl, fun hne hc => hne ?_⟩
  have h3 := hc.1
  have h4 : (Codec.unhashedTx sz).ser UnhashedTx.default = some [1, 0, 0, 0, 0, 0, 0, 0, 0, 0] := by rfl
  dsimp only at h3
  rw [h4] at h3
  exact (Option.some.inj h3).symm

example : ∃ t, Codec.tx.deserRest [2, 7, 8] = .ok (t, []) ∧ t.raw = [7, 8] := ⟨_, rfl, rfl⟩

/-- Reading a stored transaction object does not check its hash or bytes. -/
theorem C81_read_fails (sz : Layout) (sha256d : Bytes → Hash256) (f : Format) (hf : f.human = true)
    (u : UnhashedTx) (hu : u.Ok) :
    ∃ x w, Serde.tx.read f x = .ok w ∧ u.SameStored w.unhashedTx ∧ w.raw = [] ∧
      ¬ w.Consistent sz sha256d := by
  obtain ⟨x, w, a, b, c, d, e⟩ := Keeps.tx (.inl hf) ⟨u, .zero, []⟩ hu
  refine ⟨x, w, b, c, e, fun hc => ?_⟩
  have h1 := hc.1
  rw [e] at h1
  obtain ⟨y, h2, h3⟩ := Option.bind_eq_some_iff.mp h1
  have h5 := congrArg List.length (Option.some.inj h3)
  simp [leBytes] at h5

/-! ## C82: panics when reading -/

namespace Serde
variable {f : Format}

local notation "P32" => fun t => f.human = true ∧ WrongLength 32 t

theorem PanicsOnly.int {α : Type} {P} {lo hi : Int} {toInt : α → Int} {ofInt : Int → α} :
    PanicsOnly f P (Serde.int lo hi toInt ofInt) := .never int_ne_panic
theorem PanicsOnly.bool {P} : PanicsOnly f P Serde.bool := .never fun x => by
  cases x <;> simp [Serde.bool]
theorem PanicsOnly.string {P} : PanicsOnly f P Serde.string := .never fun x => by
  cases x <;> simp [Serde.string]
theorem PanicsOnly.phantom {P} : PanicsOnly f P Serde.phantom := .never fun x => by
  cases x <;> simp [Serde.phantom]
theorem PanicsOnly.scr {P} : PanicsOnly f P Serde.script := .never script_ne_panic
theorem PanicsOnly.unitEnum {α : Type} {P} [DecidableEq α] (vs : List (Bytes × α)) :
    PanicsOnly f P (Serde.unitEnum vs) := .never (unitEnum_ne_panic vs)

theorem PanicsOnly.flags {P} : PanicsOnly f P Serde.sigHashFlags :=
  (PanicsOnly.struct (.field PanicsOnly.int .nil)).imap _ _
theorem PanicsOnly.outpoint : PanicsOnly f P32 Serde.txOutpoint :=
  (PanicsOnly.struct (.field (PanicsOnly.hash 32) (.field PanicsOnly.int .nil))).imap _ _
theorem PanicsOnly.input : PanicsOnly f P32 Serde.txInput :=
  (PanicsOnly.struct (.field PanicsOnly.outpoint (.field PanicsOnly.scr (.field PanicsOnly.int
    (.field PanicsOnly.scr.option (.field (PanicsOnly.option PanicsOnly.int)
    (.field PanicsOnly.bool.option (.field PanicsOnly.flags.vec.option .nil)))))))).imap _ _
theorem PanicsOnly.output {P} : PanicsOnly f P Serde.txOutput :=
  (PanicsOnly.struct (.field PanicsOnly.int (.field PanicsOnly.scr .nil))).imap _ _
theorem PanicsOnly.unhashedTx : PanicsOnly f P32 Serde.unhashedTx :=
  (PanicsOnly.struct (.field PanicsOnly.int (.field PanicsOnly.input.vec (.field PanicsOnly.output.vec
    (.field PanicsOnly.int .nil))))).imap _ _
theorem PanicsOnly.tx : PanicsOnly f P32 Serde.tx :=
  (PanicsOnly.struct (.field PanicsOnly.unhashedTx (.field (PanicsOnly.hash 32)
    (.field (.never byteArray_ne_panic) .nil)))).imap _ _
theorem PanicsOnly.unsignedInput : PanicsOnly f P32 Serde.unsignedTxInput :=
  (PanicsOnly.struct (.field PanicsOnly.outpoint (.field PanicsOnly.int
    (.field PanicsOnly.int .nil)))).imap _ _
theorem PanicsOnly.inputReference {P} : PanicsOnly f P Serde.inputReference :=
  (PanicsOnly.struct (.field PanicsOnly.phantom (.field PanicsOnly.int .nil))).imap _ _
theorem PanicsOnly.slpToken {P} : PanicsOnly f P Serde.slpToken :=
  (PanicsOnly.struct (.field PanicsOnly.int (.field PanicsOnly.bool
    (.field (PanicsOnly.unitEnum _) .nil)))).imap _ _
theorem PanicsOnly.slpData : PanicsOnly f P32 Serde.slpData :=
  (PanicsOnly.struct (.field (PanicsOnly.hash 32) .nil)).imap _ _
theorem PanicsOnly.slpInput : PanicsOnly f P32 Serde.slpTxInput :=
  (PanicsOnly.struct (.field PanicsOnly.int (.field PanicsOnly.slpToken (.field PanicsOnly.input
    (.field PanicsOnly.scr .nil))))).imap _ _
theorem PanicsOnly.slpOutput {P} : PanicsOnly f P Serde.slpTxOutput :=
  (PanicsOnly.struct (.field PanicsOnly.slpToken (.field PanicsOnly.output .nil))).imap _ _
theorem PanicsOnly.slpTx : PanicsOnly f P32 Serde.slpTx :=
  (PanicsOnly.struct (.field PanicsOnly.int (.field PanicsOnly.slpInput.vec (.field PanicsOnly.slpOutput.vec
    (.field PanicsOnly.int (.field PanicsOnly.slpData.option (.field (PanicsOnly.hash 32) .nil))))))).imap _ _
theorem PanicsOnly.slpUtxo : PanicsOnly f P32 Serde.slpUtxo :=
  (PanicsOnly.struct (.field PanicsOnly.unsignedInput (.field PanicsOnly.slpToken
    (.field PanicsOnly.slpData.option .nil)))).imap _ _
theorem PanicsOnly.tokenMeta {P} : PanicsOnly f P Serde.tokenMeta :=
  (PanicsOnly.struct (.field PanicsOnly.string (.field PanicsOnly.string (.field PanicsOnly.string
    (.field (PanicsOnly.vec PanicsOnly.int) (.field PanicsOnly.int
    (.field (PanicsOnly.unitEnum _) .nil))))))).imap _ _

end Serde

/-- **C82** (partial: see `C82_fails`): reading a document of any stored type panics only in a human-readable
format, and only if the document contains a text that is hex for a number of bytes other than the size of a
hash. In particular reading never panics in a binary format. -/
theorem C82_panics_partial (f : Format) (t : Stored) (x : SVal) (h : t.serde.read f x = .panic) :
    f.human = true ∧ ∃ text d, HasText text x ∧ hexDecode text = some d ∧ d.length ≠ t.hashSize := by
  suffices PanicsOnly f (fun s => f.human = true ∧ WrongLength t.hashSize s) t.serde by
    obtain ⟨s, h1, h2, d, h3, h4⟩ := this x h
    exact ⟨h2, s, d, h1, h3, h4⟩
  clear h x
  induction t with
  | bytes => exact .never byteArray_ne_panic
  | hash n => exact PanicsOnly.hash n
  | pubkey => exact .never pubkey_ne_panic
  | script => exact .never script_ne_panic
  | integer => exact .never integer_ne_panic
  | uinteger => exact .never uinteger_ne_panic
  | flags => exact PanicsOnly.flags
  | outpoint => exact PanicsOnly.outpoint
  | input => exact PanicsOnly.input
  | output => exact PanicsOnly.output
  | unhashedTx => exact PanicsOnly.unhashedTx
  | tx => exact PanicsOnly.tx
  | unsignedInput => exact PanicsOnly.unsignedInput
  | inputReference => exact PanicsOnly.inputReference
  | slpTokenType => exact PanicsOnly.unitEnum (α := SlpTokenType) _
  | slpAction => exact PanicsOnly.unitEnum (α := SlpAction) _
  | slpTokenId => exact PanicsOnly.hash 32
  | slpToken => exact PanicsOnly.slpToken
  | slpData => exact PanicsOnly.slpData
  | slpInput => exact PanicsOnly.slpInput
  | slpOutput => exact PanicsOnly.slpOutput
  | slpTx => exact PanicsOnly.slpTx
  | slpUtxo => exact PanicsOnly.slpUtxo
  | slpTokenMeta => exact PanicsOnly.tokenMeta
  | vec t ih => exact PanicsOnly.vec ih

/-- The types that hold no hash never panic. -/
theorem C82_without_hash (f : Format) (t : Stored) (x : SVal)
    (ht : t = .bytes ∨ t = .pubkey ∨ t = .script ∨ t = .integer ∨ t = .uinteger ∨ t = .output ∨ t = .flags ∨
      t = .inputReference ∨ t = .slpToken ∨ t = .slpOutput ∨ t = .slpTokenMeta) :
    t.serde.read f x ≠ .panic := by
  intro h
  have never : ∀ {α : Type} {s : Serde α}, PanicsOnly f (fun _ => False) s → s.read f x ≠ .panic :=
    fun hs hp => (hs x hp).elim fun _ h => h.2
  rcases ht with rfl | rfl | rfl | rfl | rfl | rfl | rfl | rfl | rfl | rfl | rfl
  · exact byteArray_ne_panic x h
  · exact pubkey_ne_panic x h
  · exact script_ne_panic x h
  · exact integer_ne_panic x h
  · exact uinteger_ne_panic x h
  · exact never PanicsOnly.output h
  · exact never PanicsOnly.flags h
  · exact never PanicsOnly.inputReference h
  · exact never PanicsOnly.slpToken h
  · exact never PanicsOnly.slpOutput h
  · exact never PanicsOnly.tokenMeta h

/-- Reading a hash from a text panics exactly when the text is hex for a wrong number of bytes, as "ab" is for
every hash; so does reading an outpoint with such a text for the transaction hash. -/
theorem C82_fails (f : Format) (hf : f.human = true) :
    (∀ n text, (Serde.hash n).read f (.str text) = .panic ↔
      ∃ d, hexDecode text = some d ∧ d.length ≠ n) ∧
    (∀ text d vout, hexDecode text = some d → d.length ≠ 32 →
      Serde.txOutpoint.read f (.map [("txHash", .str text), ("vout", .num vout)]) = .panic) := by
  have h1 : ∀ n text, (Serde.hash n).read f (.str text) = .panic ↔
      ∃ d, hexDecode text = some d ∧ d.length ≠ n := by
    intro n text
    rw [hash_panic_iff]
    simp only [hf, true_and, SVal.str.injEq, exists_eq_left', WrongLength]
  refine ⟨h1, fun text d vout h2 h3 => ?_⟩
  have h4 := (h1 32 text).mpr ⟨d, h2, h3⟩
  simp only [Serde.txOutpoint, Serde.imap, Serde.struct, Fields.readMap, Fields.field, Fields.nil,
    if_true, h4, Res.map, Res.bind]

example : (Serde.hash 32).read ⟨true, true, false⟩ (.str (Serde.text "ab")) = .panic := by decide

/-- The transaction of an SLP transaction has the inputs and outputs in order, without the token data. -/
theorem C44_into_unhashed_tx (t : SlpTx) :
    t.intoUnhashedTx.version = t.version ∧ t.intoUnhashedTx.lockTime = t.lockTime ∧
    t.intoUnhashedTx.inputs.length = t.inputs.length ∧ t.intoUnhashedTx.outputs.length = t.outputs.length ∧
    (∀ i (h : i < t.inputs.length), t.intoUnhashedTx.inputs[i]? = some t.inputs[i].input) ∧
    (∀ i (h : i < t.outputs.length), t.intoUnhashedTx.outputs[i]? = some t.outputs[i].output) := by
  simp [SlpTx.intoUnhashedTx]
  constructor <;> intro i h <;> simp [h]

end BCash
