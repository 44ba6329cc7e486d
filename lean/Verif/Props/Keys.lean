import Verif.Model.Keys
import Verif.Props.AddressSer
import Verif.Props.Equality
import Verif.Proofs.LE

/-! # Values as keys of sets and maps -/

namespace BCash
open Spec

/-- A comparison that sets and maps may rely on: it answers "equal" exactly for equal values, swapping the
operands swaps the answer, and "less" is transitive. -/
def Spec.TotalOrder {α : Type} (cmp : α → α → Ordering) : Prop :=
  (∀ a b, cmp a b = .eq ↔ a = b) ∧ (∀ a b, cmp a b = .lt ↔ cmp b a = .gt) ∧
  (∀ a b c, cmp a b = .lt → cmp b c = .lt → cmp a c = .lt)

/-- The number a byte string denotes, most significant byte first. -/
def Spec.bigEndian (b : Bytes) : Nat := b.foldl (fun n x => 256 * n + x.toNat) 0

/-- The text of an address or prefix: UTF-8 contains no byte `0xff`. -/
def Spec.AddressText (a : Address) : Prop := (0xff : UInt8) ∉ a.cashAddr ∧ (0xff : UInt8) ∉ a.prefixStr

theorem append_left_inj {a b x y : Bytes} (hl : a.length = b.length) (h : a ++ x = b ++ y) : a = b ∧ x = y :=
  List.append_inj h hl

theorem hashStr_inj {s t x y : Bytes} (hs : (0xff : UInt8) ∉ s) (ht : (0xff : UInt8) ∉ t)
    (h : hashStr s ++ x = hashStr t ++ y) : s = t ∧ x = y := by
  unfold hashStr at h
  induction s generalizing t with
  | nil =>
    cases t with
    | nil => simpa using h
    | cons b t =>
      simp only [List.nil_append, List.cons_append, List.cons.injEq] at h
      exact absurd (by simp [← h.1]) ht
  | cons a s ih =>
    cases t with
    | nil =>
      simp only [List.nil_append, List.cons_append, List.cons.injEq] at h
      exact absurd (by simp [h.1]) hs
    | cons b t =>
      simp only [List.cons_append, List.cons.injEq] at h
      obtain ⟨e, r⟩ := ih (fun hm => hs (List.mem_cons_of_mem _ hm)) (fun hm => ht (List.mem_cons_of_mem _ hm)) h.2
      exact ⟨by rw [h.1, e], r⟩

theorem hashSlice_inj {a b x y : Bytes} (ha : a.length < 2 ^ 64) (hb : b.length < 2 ^ 64)
    (h : hashSlice a ++ x = hashSlice b ++ y) : a = b ∧ x = y := by
  unfold hashSlice at h
  rw [List.append_assoc, List.append_assoc] at h
  obtain ⟨e, r⟩ := append_left_inj (by simp) h
  have hl : a.length = b.length := leBytes_inj (by simpa using ha) (by simpa using hb) e
  exact append_left_inj hl r

/-! ## C97: values as keys -/

/-- **C97** (byte arrays): two byte arrays feed a hasher the same bytes exactly if they are equal, whatever
their names and origins. -/
theorem C97_arrays (a b : ByteArray) : a.hashInput = b.hashInput ↔ a.beq b = true := by
  rw [C79_arrays]
  unfold ByteArray.hashInput hashSlice
  constructor
  · intro h
    exact (append_left_inj (by simp) h).2
  · intro h
    rw [h]

example : (ByteArray.new "x" [1, 2]).hashInput = (ByteArray.newUnnamed [1, 2]).hashInput ∧
    (ByteArray.new "x" [1, 2]).hashInput ≠ (ByteArray.newUnnamed [1, 2, 0]).hashInput := by decide

/-- **C97** (several arrays): so do sequences of arrays: no bytes can move from one array to the next. -/
theorem C97_array_sequences (as bs : List ByteArray) (ha : ∀ a ∈ as, a.data.length < 2 ^ 64)
    (hb : ∀ b ∈ bs, b.data.length < 2 ^ 64) :
    as.flatMap ByteArray.hashInput = bs.flatMap ByteArray.hashInput ↔
      as.map ByteArray.data = bs.map ByteArray.data := by
  constructor
  · intro h
    induction as generalizing bs with
    | nil =>
      cases bs with
      | nil => rfl
      | cons b bs =>
        have := congrArg List.length h
        simp [ByteArray.hashInput, hashSlice] at this
        omega
    | cons a as ih =>
      cases bs with
      | nil =>
        have := congrArg List.length h
        simp [ByteArray.hashInput, hashSlice] at this
      | cons b bs =>
        simp only [List.flatMap_cons] at h
        obtain ⟨e, r⟩ := hashSlice_inj (ha a (by simp)) (hb b (by simp)) h
        rw [List.map_cons, List.map_cons, e,
          ih bs (fun x hx => ha x (by simp [hx])) (fun x hx => hb x (by simp [hx])) r]
  · intro h
    have e : ∀ l : List ByteArray, l.flatMap ByteArray.hashInput = (l.map ByteArray.data).flatMap hashSlice := by
      intro l
      rw [List.flatMap_map]
      rfl
    rw [e, e, h]

example : [ByteArray.newUnnamed [1], ByteArray.newUnnamed [2, 3]].flatMap ByteArray.hashInput ≠
    [ByteArray.newUnnamed [1, 2], ByteArray.newUnnamed [3]].flatMap ByteArray.hashInput := by decide

/-- **C97** (hashes, public keys): two hashes, or two public keys, feed a hasher the same bytes exactly if
they are equal. -/
theorem C97_fixed {n : Nat} (a b : FixedBytes n) : hashFixed a = hashFixed b ↔ a = b := by
  constructor
  · intro h
    unfold hashFixed hashSlice at h
    exact Subtype.ext (append_left_inj (by simp) h).2
  · intro h
    rw [h]

example : hashFixed (⟨[1, 2], rfl⟩ : FixedBytes 2) ≠ hashFixed (⟨[2, 1], rfl⟩ : FixedBytes 2) := by decide

/-- **C97** (addresses): two addresses are equal exactly if their type, hash, text and prefix are, and
exactly then feed a hasher the same bytes. Equal addresses thus pay to the same script. -/
theorem C97_addresses (a b : Address) (ha : ApiAddress a) (hb : ApiAddress b) (ta : AddressText a)
    (tb : AddressText b) :
    (a.beq b = true ↔ a.addrType = b.addrType ∧ a.hash = b.hash ∧ a.cashAddr = b.cashAddr ∧
      a.prefixStr = b.prefixStr) ∧
    (a.beq b = true ↔ a.hashInput = b.hashInput) := by
  have hka := api_kind ha
  have hkb := api_kind hb
  have h1 : a.beq b = true ↔ a.addrType = b.addrType ∧ a.hash = b.hash ∧ a.cashAddr = b.cashAddr ∧
      a.prefixStr = b.prefixStr := by
    unfold Address.beq
    simp only [Bool.and_eq_true, beq_iff_eq]
    constructor
    · rintro ⟨⟨⟨h1, h2⟩, h3⟩, h4, _⟩
      exact ⟨h1, Subtype.ext h2, h3, h4⟩
    · rintro ⟨h1, h2, h3, h4⟩
      exact ⟨⟨⟨h1, by rw [h2]⟩, h3⟩, h4, by rw [hka, hkb, h4]⟩
  refine ⟨h1, h1.trans ?_⟩
  constructor
  · rintro ⟨h1, h2, h3, h4⟩
    unfold Address.hashInput
    rw [h1, h2, h3, h4, hka, hkb, h4]
  · intro h
    unfold Address.hashInput at h
    rw [List.append_assoc, List.append_assoc, List.append_assoc, List.append_assoc] at h
    obtain ⟨e1, h⟩ := append_left_inj (by simp [AddressType.hashInput]) h
    obtain ⟨e2, h⟩ := hashSlice_inj (by rw [a.hash.2]; decide) (by rw [b.hash.2]; decide) h
    obtain ⟨e3, h⟩ := hashStr_inj ta.1 tb.1 h
    obtain ⟨e4, h⟩ := hashStr_inj ta.2 tb.2 h
    refine ⟨?_, Subtype.ext e2, e3, e4⟩
    have := leBytes_inj (k := 8) (by cases a.addrType <;> decide) (by cases b.addrType <;> decide) e1
    revert this
    cases a.addrType <;> cases b.addrType <;> decide

/-- **C97** (built addresses): addresses built from prefix, type and hash are equal exactly if these are. -/
theorem C97_built (pre pre' : Bytes) (t t' : AddressType) (h h' : Hash160) (a a' : Address)
    (ha : Address.fromHash pre t h = some a) (ha' : Address.fromHash pre' t' h' = some a') :
    a.beq a' = true ↔ pre = pre' ∧ t = t' ∧ h = h' := by
  obtain ⟨e1, e2, e3, e4⟩ := fromHash_shape ha
  obtain ⟨f1, f2, f3, f4⟩ := fromHash_shape ha'
  constructor
  · intro hb
    unfold Address.beq at hb
    simp only [Bool.and_eq_true, beq_iff_eq] at hb
    obtain ⟨⟨⟨h1, h2⟩, _⟩, h4, _⟩ := hb
    exact ⟨by rw [← e3, h4, f3], by rw [← e2, h1, f2], by rw [← e1, ← f1]; exact Subtype.ext h2⟩
  · rintro ⟨rfl, rfl, rfl⟩
    rw [ha] at ha'
    injection ha' with ha'
    subst ha'
    simp [Address.beq]

/-- **C97** (parsed addresses): parsed addresses are equal exactly if they were written with the same
characters. -/
theorem C97_parsed (s s' : Bytes) (a a' : Address) (ha : Address.fromCashAddr s = .ok a)
    (ha' : Address.fromCashAddr s' = .ok a') :
    a.beq a' = true ↔ s = s' := by
  constructor
  · intro hb
    unfold Address.beq at hb
    simp only [Bool.and_eq_true, beq_iff_eq] at hb
    rw [← (fromCashAddr_ok.mp ha).2.1, ← (fromCashAddr_ok.mp ha').2.1, hb.1.2]
  · rintro rfl
    rw [ha] at ha'
    injection ha' with ha'
    subst ha'
    simp [Address.beq]

/-- **C97** (parsed and built): a parsed address equals the one built from its prefix, type and hash exactly
if it was written in the canonical form. -/
theorem C97_parsed_built (s : Bytes) (a b : Address) (ha : Address.fromCashAddr s = .ok a)
    (hb : Address.fromHash a.prefixStr a.addrType a.hash = some b) :
    a.beq b = true ↔ IsCashAddr a.prefixStr a.addrType.toByte a.hash.1 s := by
  obtain ⟨f1, f2, f3, f4⟩ := fromHash_shape hb
  have hs := (fromCashAddr_ok.mp ha).2.1
  rw [C54_conforms]
  constructor
  · intro h
    unfold Address.beq at h
    simp only [Bool.and_eq_true, beq_iff_eq] at h
    exact ⟨b, hb, by rw [← hs, h.1.2], f1, f2, f3⟩
  · rintro ⟨b', hb', he, _⟩
    rw [hb] at hb'
    injection hb' with hb'
    subst hb'
    unfold Address.beq
    simp only [Bool.and_eq_true, beq_iff_eq]
    refine ⟨⟨⟨f2.symm, by rw [f1]⟩, by rw [he, hs]⟩, f3.symm, ?_⟩
    rw [f4, (fromCashAddr_ok.mp ha).2.2]

/-- **C97 fails** as "addresses with the same prefix, type and hash are equal": upper case or an omitted
prefix make an address that differs from the canonical one, so a set holds both. -/
theorem C97_same_address_fails :
    ∃ a b c, Address.fromCashAddr
        (asciiBytes "bitcoincash:qqqqqqqqqqqqqqqqqqqqqqqqqqqqqqqqqqfnhks603".toList) = .ok a ∧
      Address.fromCashAddr
        (asciiBytes "BITCOINCASH:QQQQQQQQQQQQQQQQQQQQQQQQQQQQQQQQQQFNHKS603".toList) = .ok b ∧
      Address.fromCashAddr (asciiBytes "qqqqqqqqqqqqqqqqqqqqqqqqqqqqqqqqqqfnhks603".toList) = .ok c ∧
      (a.prefixStr, a.addrType, a.hash) = (b.prefixStr, b.addrType, b.hash) ∧
      (a.prefixStr, a.addrType, a.hash) = (c.prefixStr, c.addrType, c.hash) ∧
      a.beq b = false ∧ a.beq c = false ∧ a.hashInput ≠ b.hashInput := by
  refine ⟨⟨.P2PKH, ⟨List.replicate 20 0, rfl⟩,
      asciiBytes "bitcoincash:qqqqqqqqqqqqqqqqqqqqqqqqqqqqqqqqqqfnhks603".toList,
      Prefix.str .bitcoinCash, some .bitcoinCash⟩,
    ⟨.P2PKH, ⟨List.replicate 20 0, rfl⟩,
      asciiBytes "BITCOINCASH:QQQQQQQQQQQQQQQQQQQQQQQQQQQQQQQQQQFNHKS603".toList,
      Prefix.str .bitcoinCash, some .bitcoinCash⟩,
    ⟨.P2PKH, ⟨List.replicate 20 0, rfl⟩,
      asciiBytes "qqqqqqqqqqqqqqqqqqqqqqqqqqqqqqqqqqfnhks603".toList,
      Prefix.str .bitcoinCash, some .bitcoinCash⟩, ?_, ?_, ?_, ?_, ?_, ?_⟩
  · decide +kernel
  · decide +kernel
  · decide +kernel
  · rfl
  · rfl
  · decide +kernel

/-- **C97** (partial): re-reading the canonical text makes equality the comparison of prefix, type and
hash: addresses rebuilt with `with_prefix` from any two are equal exactly if types and hashes are. -/
theorem C97_same_address_partial (a b a' b' : Address) (pre : Bytes) (ha : a.withPrefix pre = some a')
    (hb : b.withPrefix pre = some b') :
    a'.beq b' = true ↔ a.addrType = b.addrType ∧ a.hash = b.hash := by
  unfold Address.withPrefix at ha hb
  rw [C97_built _ _ _ _ _ _ _ _ ha hb]
  simp

/-! ### Orders -/

/-- **C97** (kinds of address): two address types, two known prefixes, or two optional known prefixes feed a
hasher the same bytes exactly if they are equal. -/
theorem C97_kinds :
    (∀ s t : AddressType, s.hashInput = t.hashInput ↔ s = t) ∧
    (∀ p q : Prefix, p.hashInput = q.hashInput ↔ p = q) ∧
    (∀ p q : Option Prefix, hashOption Prefix.hashInput p = hashOption Prefix.hashInput q ↔ p = q) := by
  refine ⟨?_, ?_, ?_⟩
  · intro s t; cases s <;> cases t <;> decide
  · intro p q; cases p <;> cases q <;> decide
  · intro p q
    rcases p with _ | (_ | _) <;> rcases q with _ | (_ | _) <;> decide

/-- **C97** (opcodes): opcodes are ordered by their bytes, totally, and hash as they compare. -/
theorem C97_opcodes :
    TotalOrder Opcode.cmp ∧ (∀ a b, Opcode.cmp a b = .lt ↔ a.toByte.toNat < b.toByte.toNat) ∧
    (∀ a b : Opcode, a.hashInput = b.hashInput ↔ a = b) := by
  have inj : ∀ a b : Opcode, a.toByte.toNat = b.toByte.toNat → a = b := by
    intro a b h
    have := congrArg Opcode.ofByte (UInt8.toNat_inj.mp h)
    rw [ofByte_toByte, ofByte_toByte] at this
    exact Option.some.inj this
  refine ⟨⟨?_, ?_, ?_⟩, ?_, ?_⟩
  · intro a b
    unfold Opcode.cmp
    rw [Nat.compare_eq_eq]
    exact ⟨inj a b, fun h => by rw [h]⟩
  · intro a b
    unfold Opcode.cmp
    rw [Nat.compare_eq_lt, Nat.compare_eq_gt]
  · intro a b c
    unfold Opcode.cmp
    rw [Nat.compare_eq_lt, Nat.compare_eq_lt, Nat.compare_eq_lt]
    omega
  · intro a b
    unfold Opcode.cmp
    rw [Nat.compare_eq_lt]
  · intro a b
    constructor
    · intro h
      unfold Opcode.hashInput at h
      refine inj a b (leBytes_inj (k := 8) ?_ ?_ h)
      · exact Nat.lt_of_lt_of_le a.toByte.toNat_lt (by decide)
      · exact Nat.lt_of_lt_of_le b.toByte.toNat_lt (by decide)
    · intro h
      rw [h]

theorem foldl_be (b : Bytes) (n : Nat) :
    b.foldl (fun n x => 256 * n + x.toNat) n = n * 256 ^ b.length + bigEndian b := by
  unfold bigEndian
  induction b generalizing n with
  | nil => simp
  | cons x b ih =>
    simp only [List.foldl_cons, List.length_cons]
    rw [ih, ih (256 * 0 + x.toNat), Nat.pow_succ]
    simp only [Nat.mul_zero, Nat.zero_add]
    rw [Nat.add_mul, Nat.add_assoc]
    congr 1
    rw [Nat.mul_comm 256 n, Nat.mul_assoc, Nat.mul_comm 256]

theorem bigEndian_cons (x : UInt8) (b : Bytes) : bigEndian (x :: b) = x.toNat * 256 ^ b.length + bigEndian b := by
  have := foldl_be b x.toNat
  unfold bigEndian at this ⊢
  simpa using this

theorem bigEndian_lt (b : Bytes) : bigEndian b < 256 ^ b.length := by
  induction b with
  | nil => decide
  | cons x b ih =>
    rw [bigEndian_cons, List.length_cons, Nat.pow_succ]
    have := x.toNat_lt
    have h2 : x.toNat * 256 ^ b.length ≤ 255 * 256 ^ b.length := Nat.mul_le_mul_right _ (by omega)
    omega

theorem cmpSlice_eq (a b : Bytes) (h : a.length = b.length) :
    cmpSlice a b = compare (bigEndian a) (bigEndian b) := by
  induction a generalizing b with
  | nil =>
    cases b with
    | nil => rfl
    | cons y b => simp at h
  | cons x a ih =>
    cases b with
    | nil => simp at h
    | cons y b =>
      have hl : a.length = b.length := by simpa using h
      have ha := bigEndian_lt a
      have hb := bigEndian_lt b
      rw [bigEndian_cons, bigEndian_cons, hl]
      rw [hl] at ha
      unfold cmpSlice
      split
      · rename_i hlt
        symm
        rw [Nat.compare_eq_lt]
        have : (x.toNat + 1) * 256 ^ b.length ≤ y.toNat * 256 ^ b.length := Nat.mul_le_mul_right _ hlt
        rw [Nat.add_mul] at this
        omega
      · split
        · rename_i hlt
          symm
          rw [Nat.compare_eq_gt]
          have : (y.toNat + 1) * 256 ^ b.length ≤ x.toNat * 256 ^ b.length := Nat.mul_le_mul_right _ hlt
          rw [Nat.add_mul] at this
          omega
        · have : x.toNat = y.toNat := by omega
          rw [ih b hl, this]
          rcases Nat.lt_trichotomy (bigEndian a) (bigEndian b) with h | h | h
          · rw [Nat.compare_eq_lt.mpr h, Nat.compare_eq_lt.mpr (by omega)]
          · rw [Nat.compare_eq_eq.mpr h, Nat.compare_eq_eq.mpr (by omega)]
          · rw [Nat.compare_eq_gt.mpr h, Nat.compare_eq_gt.mpr (by omega)]

theorem bigEndian_inj {a b : Bytes} (hl : a.length = b.length) (h : bigEndian a = bigEndian b) : a = b := by
  induction a generalizing b with
  | nil =>
    cases b with
    | nil => rfl
    | cons y b => simp at hl
  | cons x a ih =>
    cases b with
    | nil => simp at hl
    | cons y b =>
      have hl' : a.length = b.length := by simpa using hl
      have ha := bigEndian_lt a
      have hb := bigEndian_lt b
      rw [bigEndian_cons, bigEndian_cons, hl'] at h
      rw [hl'] at ha
      have hx : x.toNat = y.toNat := by
        rcases Nat.lt_trichotomy x.toNat y.toNat with hlt | he | hlt
        · have : (x.toNat + 1) * 256 ^ b.length ≤ y.toNat * 256 ^ b.length := Nat.mul_le_mul_right _ hlt
          rw [Nat.add_mul] at this
          omega
        · exact he
        · have : (y.toNat + 1) * 256 ^ b.length ≤ x.toNat * 256 ^ b.length := Nat.mul_le_mul_right _ hlt
          rw [Nat.add_mul] at this
          omega
      rw [hx] at h
      rw [UInt8.toNat_inj.mp hx, ih hl' (by omega)]

/-- **C97** (public keys): public keys are ordered as the numbers their 33 bytes denote, totally. -/
theorem C97_pubkeys :
    TotalOrder Pubkey.cmp ∧
    ∀ a b : Pubkey, Pubkey.cmp a b = .lt ↔ bigEndian a.1 < bigEndian b.1 := by
  have e : ∀ a b : Pubkey, Pubkey.cmp a b = compare (bigEndian a.1) (bigEndian b.1) := fun a b =>
    cmpSlice_eq a.1 b.1 (by rw [a.2, b.2])
  refine ⟨⟨?_, ?_, ?_⟩, ?_⟩
  · intro a b
    rw [e, Nat.compare_eq_eq]
    exact ⟨fun h => Subtype.ext (bigEndian_inj (by rw [a.2, b.2]) h), fun h => by rw [h]⟩
  · intro a b
    rw [e, e, Nat.compare_eq_lt, Nat.compare_eq_gt]
  · intro a b c
    rw [e, e, e, Nat.compare_eq_lt, Nat.compare_eq_lt, Nat.compare_eq_lt]
    omega
  · intro a b
    rw [e, Nat.compare_eq_lt]

/-- **C97** (script integers): they are ordered by value, totally; the two comparisons (`cmp` and
`partial_cmp`) and the equality agree. -/
theorem C97_integers :
    TotalOrder Integer.cmp ∧ (∀ a b : Int, Integer.cmp a b = .lt ↔ a < b) ∧
    (∀ a b : Int, Integer.cmpSmall a b = some (Integer.cmp a b)) ∧
    (∀ a b : Int, Integer.eqSmall a b = true ↔ Integer.cmp a b = .eq) := by
  have lt : ∀ a b : Int, compare a b = .lt ↔ a < b := fun a b => Int.compare_eq_lt
  have gt : ∀ a b : Int, compare a b = .gt ↔ b < a := fun a b => Int.compare_eq_gt
  have eq : ∀ a b : Int, compare a b = .eq ↔ a = b := fun a b => Int.compare_eq_eq
  refine ⟨⟨eq, ?_, ?_⟩, lt, fun _ _ => rfl, ?_⟩
  · intro a b
    unfold Integer.cmp
    rw [lt, gt]
  · intro a b c
    unfold Integer.cmp
    rw [lt, lt, lt]
    omega
  · intro a b
    unfold Integer.cmp Integer.eqSmall
    rw [eq]
    simp

example : Opcode.cmp .OP_DUP .OP_HASH160 = .lt ∧
    Pubkey.cmp ⟨2 :: List.replicate 32 9, rfl⟩ ⟨3 :: List.replicate 32 0, rfl⟩ = .lt ∧
    Integer.cmp (-5) 3 = .lt := by decide

/-- The hypotheses of the address theorems hold for a concrete address. -/
example : ∃ a b, Address.fromCashAddr
      (asciiBytes "bitcoincash:qqqqqqqqqqqqqqqqqqqqqqqqqqqqqqqqqqfnhks603".toList) = .ok a ∧
    Address.fromHash (Prefix.str .bitcoinCash) .P2PKH ⟨List.replicate 20 0, rfl⟩ = some b ∧
    Spec.AddressText a ∧ a.beq b = true := by
  refine ⟨⟨.P2PKH, ⟨List.replicate 20 0, rfl⟩,
      asciiBytes "bitcoincash:qqqqqqqqqqqqqqqqqqqqqqqqqqqqqqqqqqfnhks603".toList,
      Prefix.str .bitcoinCash, some .bitcoinCash⟩,
    ⟨.P2PKH, ⟨List.replicate 20 0, rfl⟩,
      asciiBytes "bitcoincash:qqqqqqqqqqqqqqqqqqqqqqqqqqqqqqqqqqfnhks603".toList,
      Prefix.str .bitcoinCash, some .bitcoinCash⟩, ?_, ?_, ?_, ?_⟩
  · decide +kernel
  · decide +kernel
  · unfold Spec.AddressText; decide +kernel
  · decide +kernel

end BCash
