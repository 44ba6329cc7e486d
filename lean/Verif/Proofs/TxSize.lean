import Verif.Props.Codec
import Verif.Proofs.TxBuilder

/-! # Sizes of serialised transactions -/

namespace BCash

/-- Number of bytes of a length prefix. -/
def varLen (n : Nat) : Nat := (encodeVarInt (UInt64.ofNat n)).length

theorem varLen_mono {m n : Nat} (h : m ≤ n) (hn : n < 2 ^ 64) : varLen m ≤ varLen n := by
  unfold varLen
  rw [encodeVarInt_compactSize m (by omega), encodeVarInt_compactSize n hn]
  unfold Spec.compactSize
  repeat' split
  all_goals simp [leBytes_length]
  all_goals omega

/-- Sum of optional numbers, `none` if one is missing. -/
def sumOpt : List (Option Nat) → Option Nat
  | [] => some 0
  | x :: xs => x.bind fun a => (sumOpt xs).bind fun b => some (a + b)

theorem serMany_length {α : Type} (c : Codec α) (vs : List α) :
    (c.serMany vs).map List.length = sumOpt (vs.map fun v => (c.ser v).map List.length) := by
  induction vs with
  | nil => rfl
  | cons v vs ih =>
    simp only [Codec.serMany, List.map_cons, sumOpt, ← ih]
    cases c.ser v with
    | none => rfl
    | some b =>
      cases c.serMany vs with
      | none => rfl
      | some bs => simp

theorem ser_txInput_length (i : TxInput) : (Codec.txInput.ser i).map List.length =
    (i.script.serOps.map List.length).map fun n => 40 + varLen n + n := by
  simp only [Codec.txInput, Codec.imap, Codec.seq, Codec.txOutpoint, Codec.fixed, Codec.script,
    ser_u32, Option.bind_some, Codec.bytes]
  cases i.script.serOps with
  | none => rfl
  | some sb =>
    simp only [Option.bind_some, Option.map_some, List.length_append, leBytes_length, i.prevOut.txHash.2]
    rw [Option.some.injEq, ← varLen]
    omega

theorem ser_txOutput_length (o : TxOutput) : (Codec.txOutput.ser o).map List.length =
    (o.script.serOps.map List.length).map fun n => 8 + varLen n + n := by
  simp only [Codec.txOutput, Codec.imap, Codec.seq, Codec.script, ser_u64, Option.bind_some,
    Codec.bytes]
  cases o.script.serOps with
  | none => rfl
  | some sb =>
    simp only [Option.bind_some, Option.map_some, List.length_append, leBytes_length]
    rw [Option.some.injEq, ← varLen]
    omega

/-- Script lengths determine the size of a transaction. -/
def txSizeOf (inLens outLens : List (Option Nat)) : Option Nat :=
  (sumOpt (inLens.map (·.map fun n => 40 + varLen n + n))).bind fun a =>
  (sumOpt (outLens.map (·.map fun n => 8 + varLen n + n))).bind fun b =>
  some (8 + varLen inLens.length + a + varLen outLens.length + b)

/-- Length of the serialised script. -/
def Script.len (s : Script) : Option Nat := s.serOps.map List.length

theorem ser_tx_length (sz : Layout) (t : UnhashedTx) :
    ((Codec.unhashedTx sz).ser t).map List.length =
      txSizeOf (t.inputs.map (·.script.len)) (t.outputs.map (·.script.len)) := by
  have h1 := serMany_length Codec.txInput t.inputs
  have h2 := serMany_length Codec.txOutput t.outputs
  simp only [ser_txInput_length] at h1
  simp only [ser_txOutput_length] at h2
  simp only [Codec.unhashedTx, Codec.imap, Codec.seq, Codec.vec, ser_u32, ser_i32, Option.bind_some,
    txSizeOf, List.map_map, List.length_map]
  have e1 : ((fun x : Option Nat => x.map fun n => 40 + varLen n + n) ∘
      fun x : TxInput => x.script.len) = fun i : TxInput =>
        (i.script.serOps.map List.length).map fun n => 40 + varLen n + n := rfl
  have e2 : ((fun x : Option Nat => x.map fun n => 8 + varLen n + n) ∘
      fun x : TxOutput => x.script.len) = fun i : TxOutput =>
        (i.script.serOps.map List.length).map fun n => 8 + varLen n + n := rfl
  rw [e1, e2, ← h1, ← h2]
  cases Codec.serMany Codec.txInput t.inputs with
  | none => rfl
  | some a =>
    cases Codec.serMany Codec.txOutput t.outputs with
    | none => rfl
    | some b =>
      simp only [Option.bind_some, Option.map_some, List.length_append, leBytes_length, Spec.leInt]
      rw [Option.some.injEq, ← varLen, ← varLen]
      omega

theorem sumOpt_mono {xs ys : List (Option Nat)} (f : Nat → Nat)
    (hf : ∀ a b, a ≤ b → b < 2 ^ 64 → f a ≤ f b) {m n : Nat}
    (h : List.Forall₂ (fun x y => ∀ a b, x = some a → y = some b → a ≤ b ∧ b < 2 ^ 64) xs ys)
    (hm : sumOpt (xs.map (·.map f)) = some m) (hn : sumOpt (ys.map (·.map f)) = some n) : m ≤ n := by
  induction h generalizing m n with
  | nil => cases hm; cases hn; exact Nat.le_refl _
  | @cons x y xs ys hxy _ ih =>
    simp only [List.map_cons, sumOpt, Option.bind_eq_some_iff, Option.map_eq_some_iff] at hm hn
    obtain ⟨_, ⟨a, hx, rfl⟩, m', hm', hm⟩ := hm
    obtain ⟨_, ⟨b, hy, rfl⟩, n', hn', hn⟩ := hn
    have := ih hm' hn'
    have h2 := hxy a b hx hy
    have h3 := hf a b h2.1 h2.2
    cases hm; cases hn
    omega

theorem txSizeOf_mono {xs ys outs : List (Option Nat)} {m n : Nat}
    (h : List.Forall₂ (fun x y => ∀ a b, x = some a → y = some b → a ≤ b ∧ b < 2 ^ 64) xs ys)
    (hm : txSizeOf xs outs = some m) (hn : txSizeOf ys outs = some n) : m ≤ n := by
  unfold txSizeOf at hm hn
  simp only [Option.bind_eq_some_iff] at hm hn
  obtain ⟨a, ha, c, hc, hm⟩ := hm
  obtain ⟨b, hb, d, hd, hn⟩ := hn
  rw [hc] at hd
  cases hd
  have := sumOpt_mono (fun n => 40 + varLen n + n) (fun a b h1 h2 => by
    have := varLen_mono h1 h2; omega) h ha hb
  have hl := h.length_eq
  rw [hl] at hm
  cases hm; cases hn
  omega

end BCash
