import Verif.Model.VarInt
import Verif.Proofs.LE

/-! # C01, C02: compact-size integers -/

namespace BCash

theorem readLE_append {k : Nat} {xs : Bytes} (h : xs.length = k) (rest : Bytes) :
    readLE k (xs ++ rest) = .ok (leVal xs, rest) := by
  subst h
  simp [readLE]

theorem readVarInt_encode (n : UInt64) (rest : Bytes) :
    readVarInt (encodeVarInt n ++ rest) = .ok (n.toNat, rest) := by
  have hn := n.toNat_lt
  unfold encodeVarInt
  simp only
  split
  · next h =>
    have e : (UInt8.ofNat n.toNat).toNat = n.toNat := by
      rw [UInt8.toNat_ofNat']; omega
    simp only [List.cons_append, List.nil_append, readVarInt]
    rw [if_pos (by omega), e]
  · split
    · simp only [List.cons_append, readVarInt]
      rw [if_neg (by decide), if_pos (by decide), readLE_append (leBytes_length _ _),
        leVal_leBytes_of_lt (by omega)]
    · split
      · simp only [List.cons_append, readVarInt]
        rw [if_neg (by decide), if_neg (by decide), if_pos (by decide),
          readLE_append (leBytes_length _ _), leVal_leBytes_of_lt (by omega)]
      · simp only [List.cons_append, readVarInt]
        rw [if_neg (by decide), if_neg (by decide), if_neg (by decide),
          readLE_append (leBytes_length _ _), leVal_leBytes_of_lt (by omega)]

/-- **C01** (round trip): reading back a written compact-size integer from a stream that continues
arbitrarily yields the number and exactly the continuation. -/
theorem C01_varint_roundtrip (n : UInt64) (rest : Bytes) :
    readVarInt (encodeVarInt n ++ rest) = .ok (n.toNat, rest) :=
  readVarInt_encode n rest

example : encodeVarInt 0xfc = [0xfc] ∧ encodeVarInt 0xfd = [0xfd, 0xfd, 0x00] ∧
    encodeVarInt 0x10000 = [0xfe, 0, 0, 1, 0] ∧
    readVarInt ([0xfe, 0, 0, 1, 0] ++ [7]) = .ok (0x10000, [7]) := by decide

/-- **C01** (length): the encoding has 1, 3, 5 or 9 bytes, by the published thresholds. -/
theorem C01_varint_length (n : UInt64) :
    (encodeVarInt n).length =
      if n.toNat < 0xfd then 1 else if n.toNat < 2 ^ 16 then 3
      else if n.toNat < 2 ^ 32 then 5 else 9 := by
  unfold encodeVarInt
  simp only
  by_cases h1 : n.toNat ≤ 0xfc
  · have h1' : n.toNat < 253 := by omega
    simp [h1, h1']
  have h1' : ¬ n.toNat < 253 := by omega
  by_cases h2 : n.toNat ≤ 0xffff
  · have h2' : n.toNat < 65536 := by omega
    simp [h1, h1', h2, h2']
  have h2' : ¬ n.toNat < 65536 := by omega
  by_cases h3 : n.toNat ≤ 0xffffffff
  · have h3' : n.toNat < 4294967296 := by omega
    simp [h1, h1', h2, h2', h3, h3']
  have h3' : ¬ n.toNat < 4294967296 := by omega
  simp [h1, h1', h2, h2', h3, h3']

theorem readLE_ok {k : Nat} {input : Bytes} {m : Nat} {rest : Bytes}
    (h : readLE k input = .ok (m, rest)) :
    ∃ xs, xs.length = k ∧ input = xs ++ rest ∧ m = leVal xs := by
  unfold readLE at h
  split at h
  · simp at h
  · next hlt =>
    simp only [Except.ok.injEq, Prod.mk.injEq] at h
    refine ⟨input.take k, ?_, ?_, ?_⟩
    · simp; omega
    · rw [← h.2, List.take_append_drop]
    · exact h.1.symm

/-- The announced number of payload bytes after a compact-size first byte
(specification: 0 / 2 / 4 / 8 by the first byte). -/
def varIntTail (first : UInt8) : Nat :=
  if first.toNat < 253 then 0 else if first = 253 then 2 else if first = 254 then 4 else 8

theorem varIntTail_cases (b : UInt8) :
    (varIntTail b = 0 ∧ b.toNat < 253) ∨ varIntTail b = 2 ∨ varIntTail b = 4 ∨ varIntTail b = 8 := by
  unfold varIntTail
  by_cases h1 : b.toNat < 253
  · simp [h1]
  · rw [if_neg h1]
    by_cases h2 : b = 253
    · simp [h2]
    · rw [if_neg h2]
      by_cases h3 : b = 254 <;> simp [h3]

theorem toNat_eq_iff (b : UInt8) (n : Nat) (hn : n < 256) : b.toNat = n ↔ b = UInt8.ofNat n := by
  constructor
  · intro h; apply UInt8.toNat_inj.mp; rw [UInt8.toNat_ofNat', h]; omega
  · intro h; rw [h, UInt8.toNat_ofNat']; omega

theorem readVarInt_cases (b : UInt8) (rest : Bytes) :
    readVarInt (b :: rest) =
      if varIntTail b = 0 then .ok (b.toNat, rest) else readLE (varIntTail b) rest := by
  have hb := b.toNat_lt
  have h3 := toNat_eq_iff b 253 (by omega)
  have h4 := toNat_eq_iff b 254 (by omega)
  unfold readVarInt varIntTail
  simp only
  by_cases c1 : b.toNat ≤ 0xfc
  · simp [c1, show b.toNat < 253 by omega]
  · rw [if_neg c1, if_neg (show ¬ b.toNat < 253 by omega)]
    by_cases c2 : b.toNat = 0xfd
    · simp [(h3.mp c2)]
    · have c2' : b ≠ 253 := fun h => c2 (h3.mpr h)
      rw [if_neg c2, if_neg c2']
      by_cases c3 : b.toNat = 0xfe
      · simp [(h4.mp c3)]
      · have c3' : b ≠ 254 := fun h => c3 (h4.mpr h)
        rw [if_neg c3, if_neg c3']
        simp

/-- Inversion of a successful read. -/
theorem readVarInt_ok {input rest : Bytes} {m : Nat} (h : readVarInt input = .ok (m, rest)) :
    ∃ b xs, xs.length = varIntTail b ∧ input = b :: (xs ++ rest) ∧
      m = if varIntTail b = 0 then b.toNat else leVal xs := by
  cases input with
  | nil => simp [readVarInt] at h
  | cons b tl =>
    rw [readVarInt_cases] at h
    by_cases c : varIntTail b = 0
    · rw [if_pos c] at h
      simp only [Except.ok.injEq, Prod.mk.injEq] at h
      exact ⟨b, [], by simp [c], by simp [h.2], by simp [c, h.1]⟩
    · rw [if_neg c] at h
      obtain ⟨xs, hl, hi, hm⟩ := readLE_ok h
      exact ⟨b, xs, hl, by simp [hi], by simp [c, hm]⟩

/-- **C01** (canonicity): no byte string accepted by the reader for `n` is shorter than the one
the writer produces. -/
theorem C01_varint_shortest (n : UInt64) (input rest : Bytes)
    (h : readVarInt (input ++ rest) = .ok (n.toNat, rest)) :
    (encodeVarInt n).length ≤ input.length := by
  obtain ⟨b, xs, hl, hi, hm⟩ := readVarInt_ok h
  have hin : input = b :: xs := by
    have : input ++ rest = (b :: xs) ++ rest := by simpa using hi
    exact List.append_cancel_right this
  have hx := leVal_lt xs
  have hb := b.toNat_lt
  rw [C01_varint_length, hin, List.length_cons, hl]
  rw [hl] at hx
  rcases varIntTail_cases b with ⟨c, hb'⟩ | c | c | c <;> rw [c] at hm hx ⊢ <;> simp at hm hx
  · simp [hm, hb']
  all_goals rw [hm]; repeat (first | omega | split)

example : readVarInt ([0xfd, 5, 0] ++ [9]) = .ok ((5 : UInt64).toNat, [9]) ∧
    (encodeVarInt 5).length = 1 := by decide

/-- **C02**: the reader is total (no panic constructor exists in its result type); it fails only on
truncated input, i.e. exactly when fewer bytes are present than the first byte announces, and on
success it consumes exactly the announced bytes and returns a `u64`. -/
theorem C02_varint_total (input : Bytes) :
    (readVarInt input = .error .unexpectedEof ∧
      (input = [] ∨ ∃ b tl, input = b :: tl ∧ tl.length < varIntTail b)) ∨
    (∃ b xs rest m, readVarInt input = .ok (m, rest) ∧ input = b :: (xs ++ rest) ∧
      xs.length = varIntTail b ∧ m < 2 ^ 64) := by
  cases input with
  | nil => left; simp [readVarInt]
  | cons b tl =>
    rw [readVarInt_cases]
    have hb := b.toNat_lt
    by_cases c : varIntTail b = 0
    · right
      exact ⟨b, [], tl, b.toNat, by simp [c], by simp, by simp [c], by omega⟩
    · by_cases h : tl.length < varIntTail b
      · left
        refine ⟨by simp [c, readLE, h], .inr ⟨b, tl, rfl, h⟩⟩
      · right
        refine ⟨b, tl.take (varIntTail b), tl.drop (varIntTail b), leVal (tl.take (varIntTail b)),
          by simp [c, readLE, h], by simp, by simp; omega, ?_⟩
        have := leVal_lt (tl.take (varIntTail b))
        have hle : (tl.take (varIntTail b)).length ≤ 8 := by
          rw [List.length_take]
          have : varIntTail b ≤ 8 := by unfold varIntTail; repeat (split <;> try omega)
          omega
        calc _ < 256 ^ (tl.take (varIntTail b)).length := this
          _ ≤ 256 ^ 8 := Nat.pow_le_pow_right (by omega) hle
          _ = 2 ^ 64 := by decide

/-- **C02** (locality): the number read does not depend on anything after the consumed bytes. -/
theorem C02_varint_local (input rest more : Bytes) (m : Nat)
    (h : readVarInt input = .ok (m, rest)) :
    readVarInt (input ++ more) = .ok (m, rest ++ more) := by
  obtain ⟨b, xs, hl, hi, hm⟩ := readVarInt_ok h
  subst hi
  simp only [List.cons_append, List.append_assoc]
  rw [readVarInt_cases]
  by_cases c : varIntTail b = 0
  · have : xs = [] := List.eq_nil_of_length_eq_zero (by omega)
    simp [c, hm, this]
  · rw [if_neg c, readLE_append hl]
    simp [hm, c]

example : readVarInt [0xfd, 1] = .error .unexpectedEof ∧
    readVarInt [0xfe, 1, 2, 3, 4, 5] = .ok (0x04030201, [5]) := by decide

end BCash
