import Verif.Proofs.Pieces
import Verif.Props.Provenance

/-! # C73: provenance survives writing and reading a script -/

namespace BCash
open Spec

/-! ## Specification -/

/-- Spec: the arrays an array is recorded to be joined from; an array that is not recorded as joined (raw
bytes, a hash, a signature) is its own only part. -/
def Spec.allParts (a : ByteArray) : List ByteArray :=
  match a.function, a.preimage with
  | .plain, some ps => ps
  | _, _ => [a]

/-- Spec: the parts of an array that hold bytes. -/
def Spec.parts (a : ByteArray) : List ByteArray := (allParts a).filter fun p => !p.data.isEmpty

/-- Spec: the parts of an array, if recorded, join to its bytes. -/
def Spec.PartsJoin (a : ByteArray) : Prop :=
  a.function = .plain → ∀ ps, a.preimage = some ps → (ps.map ByteArray.data).flatten = a.data

/-- Spec: the pieces a script operation contributes to the serialised script: for an opcode (or a number or
boolean written as one) a single byte with the name of the operation; for an undefined byte the byte, marked
as such; for a pushed array an unnamed prefix followed, unless the prefix is an opcode that says it all, by the
pieces of the array. -/
inductive Spec.OpPieces (opName : Opcode → String) : Op ByteArray → List ByteArray → Prop
  | code (c) : OpPieces opName (.code c) [.new (opName c) [c.toByte]]
  | invalid (b) : OpPieces opName (.invalid b) [.new "Invalid Opcode" [b]]
  | yes : OpPieces opName (.pushBoolean true) [.new "OP_TRUE" [0x51]]
  | no : OpPieces opName (.pushBoolean false) [.new "OP_FALSE" [0]]
  | int (i v c) : IsMinimalNum v → scriptNum v = i → smallOpcode v = some c →
      OpPieces opName (.pushInteger i) [.new (opName c) [c.toByte]]
  | bigInt (i v form pre) : IsMinimalNum v → scriptNum v = i →
      (Token.push form v).encode = pre ++ v →
      OpPieces opName (.pushInteger i) [.newUnnamed pre, .newUnnamed v]
  | small (a c) : smallOpcode a.data = some c →
      OpPieces opName (.pushByteArray a true) [.newUnnamed [c.toByte]]
  | data (a m form pre) : m = false ∨ smallOpcode a.data = none →
      (Token.push form a.data).encode = pre ++ a.data →
      OpPieces opName (.pushByteArray a m) (.newUnnamed pre :: pieces a)

/-! ## Splitting at the boundary of parts -/

theorem splitParts_boundary (ps : List ByteArray) (X Y : List ByteArray) (hne : ne ps = X ++ Y)
    (len : Nat) (l r : List ByteArray)
    (h : ByteArray.splitParts ps (len + (ByteArray.partsData X).length) true len = .ok (l, r)) :
    ne l = X ∧ ne r = Y := by
  induction ps generalizing X len l r with
  | nil =>
    simp only [ByteArray.splitParts, Except.ok.injEq, Prod.mk.injEq] at h
    have : X = [] ∧ Y = [] := by simpa [ne] using hne
    rw [← h.1, ← h.2, this.1, this.2]
    exact ⟨rfl, rfl⟩
  | cons p ps ih =>
    by_cases h0 : (ByteArray.partsData X).length = 0
    · have hX : X = [] := by
        cases X with
        | nil => rfl
        | cons x X =>
          have : x.data ≠ [] := ne_full (ps := p :: ps) (by rw [hne]; simp)
          have := List.length_pos_iff.mpr this
          simp only [ByteArray.partsData_cons, List.length_append] at h0
          omega
      subst hX
      have : ByteArray.splitParts (p :: ps) len false len = .ok (l, r) := by
        rw [ByteArray.splitParts] at h ⊢
        simpa using h
      obtain ⟨e1, e2⟩ := splitParts_right _ _ _ _ _ this
      rw [e1, e2]
      exact ⟨rfl, hne⟩
    · rw [ByteArray.splitParts] at h
      dsimp only at h
      rw [if_neg (show ¬ (len = len + (ByteArray.partsData X).length) by omega)] at h
      have hle : ¬ (len + p.data.length > len + (ByteArray.partsData X).length) := by
        by_cases hp : p.data = []
        · rw [hp]; simp
        · rw [ne_cons_full hp] at hne
          cases X with
          | nil => simp at h0
          | cons x X =>
            simp only [List.cons_append, List.cons.injEq] at hne
            rw [hne.1]; simp
      simp only [hle, decide_false, Bool.false_and, Bool.false_eq_true, if_false, if_true] at h
      split at h
      · cases h
      · next l' r' h2 =>
        simp only [Except.ok.injEq, Prod.mk.injEq] at h
        rw [← h.1, ← h.2]
        by_cases hp : p.data = []
        · rw [ne_cons_empty hp] at hne ⊢
          exact ih X hne _ _ _ (by simpa [hp] using h2)
        · rw [ne_cons_full hp] at hne ⊢
          cases X with
          | nil => simp at h0
          | cons x X =>
            simp only [List.cons_append, List.cons.injEq] at hne
            obtain ⟨rfl, hne⟩ := hne
            have := ih X hne (len + p.data.length) _ _ (by
              rw [← h2]; congr 1; simp [Nat.add_assoc])
            exact ⟨by rw [this.1], this.2⟩

theorem splitParts_inside (ps : List ByteArray) (d : Bytes) (n : Option String) (Y : List ByteArray)
    (hne : ne ps = .mk d n .plain none :: Y) (len k : Nat) (hk : 0 < k) (hkd : k < d.length)
    (l r : List ByteArray) (h : ByteArray.splitParts ps (len + k) true len = .ok (l, r)) :
    ne r = .mk (d.drop k) none .plain none :: Y := by
  induction ps generalizing l r with
  | nil => simp [ne] at hne
  | cons p ps ih =>
    rw [ByteArray.splitParts] at h
    dsimp only at h
    rw [if_neg (show ¬ (len = len + k) by omega)] at h
    by_cases hp : p.data = []
    · rw [ne_cons_empty hp] at hne
      have : ¬ (len + p.data.length > len + k) := by rw [hp]; simp
      simp only [this, decide_false, Bool.false_and, Bool.false_eq_true, if_false, if_true] at h
      split at h
      · cases h
      · next l' r' h2 =>
        simp only [Except.ok.injEq, Prod.mk.injEq] at h
        rw [← h.2]
        exact ih hne _ _ (by simpa [hp] using h2)
    · rw [ne_cons_full hp] at hne
      simp only [List.cons.injEq] at hne
      obtain ⟨rfl, hne⟩ := hne
      have : len + d.length > len + k := by omega
      simp only [ByteArray.data_mk, this, decide_true, Bool.and_self, if_true] at h
      split at h
      · cases h
      · next sl sr hsp =>
        split at h
        · cases h
        · next l' r' h2 =>
          simp only [Except.ok.injEq, Prod.mk.injEq] at h
          obtain ⟨e1, e2⟩ := splitParts_right _ _ _ _ _ h2
          rw [← h.2, e2]
          rw [ByteArray.split, if_neg (by omega)] at hsp
          simp only [Nat.add_sub_cancel_left, Except.ok.injEq, Prod.mk.injEq] at hsp
          rw [← hsp.2]
          simp only [ByteArray.function_mk, Function.shouldKeepIntact, Bool.false_eq_true, if_false]
          rw [ne_cons_full (by intro hh; have := congrArg List.length hh; simp at this; omega), hne]

/-- Recorded as joined from `ps`. -/
structure PF (b : ByteArray) (ps : List ByteArray) : Prop where
  fn : b.function = .plain
  pre : b.preimage = some ps
  data : b.data = ByteArray.partsData ps

theorem PF.split {b : ByteArray} {ps : List ByteArray} (h : PF b ps) (k : Nat) (hk : k ≤ b.data.length) :
    ∃ l r lp rp, b.splitE k = .ok (l, r) ∧ PF l lp ∧ PF r rp ∧ l.data = b.data.take k ∧
      r.data = b.data.drop k ∧ ByteArray.splitParts ps k true 0 = .ok (lp, rp) := by
  obtain ⟨d, n, f, p⟩ := b
  obtain ⟨h1, h2, h3⟩ := h
  simp only [ByteArray.function_mk, ByteArray.preimage_mk, ByteArray.data_mk] at h1 h2 h3 hk ⊢
  subst h1 h2
  obtain ⟨lp, rp, hp⟩ := ByteArray.splitParts_ok ps k true 0
  obtain ⟨d1, d2⟩ := ByteArray.splitParts_data ps k true 0 lp rp hp (by simp)
  simp only [if_true, Nat.sub_zero] at d1 d2
  refine ⟨.mk (d.take k) none .plain (some lp), .mk (d.drop k) none .plain (some rp), lp, rp, ?_, ⟨rfl, rfl, ?_⟩,
    ⟨rfl, rfl, ?_⟩, rfl, rfl, hp⟩
  · unfold ByteArray.splitE
    rw [ByteArray.split, if_neg (by omega)]
    simp only [Function.shouldKeepIntact, Bool.not_false, if_true, hp]
    rfl
  · simp [d1, h3]
  · simp [d2, h3]

theorem PF.splitAt {b : ByteArray} {ps X Y : List ByteArray} (h : PF b ps) (hne : ne ps = X ++ Y)
    {k : Nat} (hk : (ByteArray.partsData X).length = k) :
    ∃ l r lp rp, b.splitE k = .ok (l, r) ∧ PF l lp ∧ PF r rp ∧ ne lp = X ∧ ne rp = Y ∧
      l.data = ByteArray.partsData X := by
  have hd : b.data = ByteArray.partsData X ++ ByteArray.partsData Y := by
    rw [h.data, ← partsData_ne, hne, ByteArray.partsData_append]
  obtain ⟨l, r, lp, rp, h1, h2, h3, h4, h5, h6⟩ := h.split k (by rw [hd]; simp; omega)
  obtain ⟨e1, e2⟩ := splitParts_boundary ps X Y hne 0 lp rp (by simpa [hk] using h6)
  refine ⟨l, r, lp, rp, h1, h2, h3, e1, e2, ?_⟩
  rw [h4, hd, ← hk, List.take_left']
  rfl

theorem PF.splitIn {b : ByteArray} {ps : List ByteArray} {d : Bytes} {n : Option String} {Y : List ByteArray}
    (h : PF b ps) (hne : ne ps = .mk d n .plain none :: Y) (k : Nat) (hk : 0 < k) (hkd : k < d.length) :
    ∃ l r rp, b.splitE k = .ok (l, r) ∧ PF r rp ∧ l.data = d.take k ∧
      ne rp = .mk (d.drop k) none .plain none :: Y := by
  have hd : b.data = d ++ ByteArray.partsData Y := by
    rw [h.data, ← partsData_ne, hne]; simp
  obtain ⟨l, r, lp, rp, h1, h2, h3, h4, h5, h6⟩ := h.split k (by rw [hd]; simp; omega)
  refine ⟨l, r, rp, h1, h3, ?_, splitParts_inside ps d n Y hne 0 k hk hkd lp rp (by simpa using h6)⟩
  rw [h4, hd, List.take_append_of_le_length (by omega)]

/-- Reading joined arrays part by part. -/
def PFR (b : ByteArray) (X : List ByteArray) : Prop := ∃ ps, PF b ps ∧ ne ps = X

theorem PFR.reader : Reader PFR where
  data := by
    rintro b X ⟨ps, h, rfl⟩
    rw [h.data, partsData_ne]
  splitAt := by
    rintro b X Y ⟨ps, h, hne⟩ k hk
    obtain ⟨l, r, lp, rp, h1, h2, h3, h4, h5, _⟩ := h.splitAt hne hk
    exact ⟨l, r, h1, ⟨lp, h2, h4⟩, ⟨rp, h3, h5⟩⟩
  splitIn := by
    rintro b d n Y ⟨ps, h, hne⟩ k hk hkd
    obtain ⟨l, r, rp, h1, h2, h3, h4⟩ := h.splitIn hne k hk hkd
    exact ⟨l, r, h1, h3, ⟨rp, h2, h4⟩⟩

/-! ## Writing -/

/-- What one operation is written as: its token, and the parts after the first. -/
inductive Written : Op ByteArray → ByteArray → Token → List ByteArray → Prop
  | one (op n b) : (b = 0 ∨ 0x4f ≤ b.toNat) → Written op (.mk [b] n .plain none) (.op b) []
  | push (op pre f a) : ((∃ m, op = .pushByteArray a m) ∨ ∃ i v, op = .pushInteger i ∧ a = .newUnnamed v) →
      (Token.push f a.data).Valid → (Token.push f a.data).encode = pre ++ a.data → PartsJoin a →
      Written op ((ByteArray.newUnnamed pre).concat a) (.push f a.data) (allParts a)

theorem pushBA (a : ByteArray) (m : Bool) (h : a.data.length < 2 ^ 32) :
    (m = true ∧ ∃ c, smallOpcode a.data = some c ∧ special a.data = true ∧
      serializePushBytesBA a m = .ok (.newUnnamed [c.toByte]) ∧ (c.toByte = 0 ∨ 0x4f ≤ c.toByte.toNat)) ∨
    ((m = false ∨ smallOpcode a.data = none) ∧ ∃ pre f,
      serializePushBytesBA a m = .ok ((ByteArray.newUnnamed pre).concat a) ∧
      (Token.push f a.data).Valid ∧ (Token.push f a.data).encode = pre ++ a.data) := by
  have hv := pushToken_valid a.data m h
  unfold serializePushBytesBA
  by_cases hs : (m && special a.data) = true
  · left
    unfold pushToken at hv
    rw [if_pos hs] at hv
    simp only [Bool.and_eq_true] at hs
    obtain ⟨hm, hs⟩ := hs
    subst hm
    obtain ⟨c, h1, h2⟩ := special_cases hs
    have hb : c.toByte = specialByte a.data := by
      unfold codeOrInvalid at h2
      split at h2
      · next hz => cases h2; rw [hz]; rfl
      · split at h2
        · next o ho => cases h2; exact toByte_ofByte ho
        · cases h2
    refine ⟨rfl, c, h1, hs, ?_, ?_⟩
    · rw [prefix_special _ hs, hb]
    · rw [hb]; exact hv
  · right
    unfold pushToken at hv
    rw [if_neg hs] at hv
    simp only [Bool.not_eq_true] at hs
    have hm : m = false ∨ smallOpcode a.data = none := by
      cases m with
      | false => exact .inl rfl
      | true => exact .inr (smallOpcode_none (by simpa using hs))
    refine ⟨hm, ?_⟩
    by_cases h0 : a.data.length = 0
    · have hm : m = false := by
        cases m with
        | false => rfl
        | true => simp [special, h0] at hs
      subst hm
      rw [prefix_empty_nonminimal _ h0]
      rw [if_pos h0] at hv
      refine ⟨_, _, rfl, hv, ?_⟩
      rw [List.length_eq_zero_iff.mp h0]
      rfl
    · obtain ⟨pre, h1, h2⟩ := prefix_general _ m hs h0 h
      rw [h1]
      rw [if_neg h0] at hv
      exact ⟨pre, _, rfl, hv, h2.symm⟩

theorem pieces_push (pre : Bytes) (a : ByteArray) :
    pieces ((ByteArray.newUnnamed pre).concat a) = .newUnnamed pre :: pieces a := by
  rw [ByteArray.concat, (C72_concat _ _ none).1]
  show pieces (.mk pre none .plain none) ++ _ = _
  rw [pieces_leaf]
  rfl

theorem serializeOpBA_written (opName : Opcode → String) (op : Op ByteArray)
    (h : (op.map ByteArray.data).WellFormed) (hj : ∀ a m, op = .pushByteArray a m → PartsJoin a) :
    ∃ x t body, serializeOpBA opName op = .ok x ∧ Written op x t body ∧ OpPieces opName op (pieces x) := by
  have leaf : ∀ n b, pieces (ByteArray.new n [b]) = [.new n [b]] := fun n b => pieces_leaf _ _ _
  have small : ∀ c : Opcode, c ≠ .OP_PUSHDATA1 ∧ c ≠ .OP_PUSHDATA2 ∧ c ≠ .OP_PUSHDATA4 →
      (c.toByte = 0 ∨ 0x4f ≤ c.toByte.toNat) := by
    intro c; cases c <;> decide
  cases op with
  | code c =>
    refine ⟨_, _, _, rfl, .one _ _ _ (small c h), ?_⟩
    rw [leaf]; exact .code c
  | invalid b =>
    simp only [Op.map, Op.WellFormed] at h
    refine ⟨_, _, _, rfl, .one _ _ _ ?_, ?_⟩
    · right
      have h1 : (Opcode.ofByte b).isSome = false := by rw [h.1]; rfl
      have h2 := (ofByte_isSome b).not
      simp only [h1, Bool.false_eq_true, not_false_iff, true_iff, not_or, not_and] at h2
      omega
    · rw [leaf]; exact .invalid b
  | pushBoolean b =>
    cases b
    · refine ⟨_, _, _, rfl, .one _ _ _ (.inl rfl), ?_⟩
      rw [leaf]; exact .no
    · refine ⟨_, _, _, rfl, .one _ _ _ (.inr (by decide)), ?_⟩
      rw [leaf]; exact .yes
  | pushByteArray a m =>
    rcases pushBA a m h with ⟨rfl, c, h1, _, h2, h3⟩ | ⟨h1, pre, f, h2, h3, h4⟩
    · refine ⟨_, _, _, h2, .one _ _ _ h3, ?_⟩
      rw [ByteArray.newUnnamed, pieces_leaf]
      exact .small a c h1
    · refine ⟨_, _, _, h2, .push _ pre f a (.inl ⟨m, rfl⟩) h3 h4 (hj a m rfl), ?_⟩
      rw [pieces_push]
      exact .data a m f pre h1 h4
  | pushInteger i =>
    simp only [Op.map, Op.WellFormed] at h
    have one : ∀ c : Opcode, ∀ v, IsMinimalNum v → scriptNum v = i → smallOpcode v = some c →
        (c.toByte = 0 ∨ 0x4f ≤ c.toByte.toNat) →
        ∃ t body, Written (.pushInteger i) (.new (opName c) [c.toByte]) t body ∧
          OpPieces opName (.pushInteger i) (pieces (.new (opName c) [c.toByte])) := by
      intro c v h1 h2 h3 h4
      refine ⟨_, _, .one _ _ _ h4, ?_⟩
      rw [leaf]; exact .int i v c h1 h2 h3
    simp only [serializeOpBA]
    by_cases c1 : i = -1
    · rw [if_pos c1]
      obtain ⟨t, body, g⟩ := one .OP_1NEGATE [0x81] ((isMinimal_single _).mpr (by decide)) (by rw [c1]; rfl) rfl
        (by decide)
      exact ⟨_, t, body, rfl, g⟩
    rw [if_neg c1]
    by_cases c2 : i = 0
    · rw [if_pos c2]
      obtain ⟨t, body, g⟩ := one .OP_0 [] isMinimal_nil (by rw [c2]; rfl) rfl (by decide)
      exact ⟨_, t, body, rfl, g⟩
    rw [if_neg c2]
    by_cases c3 : 1 ≤ i ∧ i ≤ 16
    · rw [if_pos c3]
      have : i = 1 ∨ i = 2 ∨ i = 3 ∨ i = 4 ∨ i = 5 ∨ i = 6 ∨ i = 7 ∨ i = 8 ∨ i = 9 ∨ i = 10 ∨
        i = 11 ∨ i = 12 ∨ i = 13 ∨ i = 14 ∨ i = 15 ∨ i = 16 := by omega
      have hm : IsMinimalNum [UInt8.ofNat i.toNat] ∧ scriptNum [UInt8.ofNat i.toNat] = i := by
        refine ⟨(isMinimal_single _).mpr ?_, ?_⟩
        · rw [ofNat_toNat_lt (by omega)]; omega
        · rcases this with h | h | h | h | h | h | h | h | h | h | h | h | h | h | h | h <;>
            rw [h] <;> rfl
      have hc : ∃ c, Opcode.ofByte (Opcode.OP_1.toByte + UInt8.ofNat i.toNat - 1) = some c ∧
          smallOpcode [UInt8.ofNat i.toNat] = some c ∧ (c.toByte = 0 ∨ 0x4f ≤ c.toByte.toNat) := by
        rcases this with h | h | h | h | h | h | h | h | h | h | h | h | h | h | h | h <;>
          rw [h] <;> exact ⟨_, rfl, rfl, by decide⟩
      obtain ⟨c, e1, e2, e3⟩ := hc
      rw [e1]
      obtain ⟨t, body, g⟩ := one c _ hm.1 hm.2 e2 e3
      exact ⟨_, t, body, rfl, g⟩
    rw [if_neg c3]
    obtain ⟨v, hv, hlen, hmin, hnum⟩ : ∃ v, encodeInt i = .ok v ∧ v.length ≤ 4 ∧ IsMinimalNum v ∧
        scriptNum v = i := by
      obtain ⟨v, h1, h2, h3, h4⟩ := encodeInt_spec i ⟨by unfold InScriptRange at h; omega, by unfold InScriptRange at h; omega⟩
      exact ⟨v, h1, by assumption, by assumption, by assumption⟩
    rw [hv]
    rcases pushBA (.newUnnamed v) true (by show v.length < _; omega) with
      ⟨_, c, h1, h5, h2, h3⟩ | ⟨h1, pre, f, h2, h3, h4⟩
    · exfalso
      change smallOpcode v = some c at h1
      unfold smallOpcode at h1
      split at h1 <;> cases h1
      all_goals
        (rw [← hnum] at c1 c2 c3; revert c1 c2 c3; decide)
    · refine ⟨_, _, _, h2, .push _ pre f _ (.inr ⟨i, v, rfl, rfl⟩) h3 h4 ?_, ?_⟩
      · intro _ ps hp; cases hp
      · rw [pieces_push, ByteArray.newUnnamed, ByteArray.newUnnamed, pieces_leaf]
        exact .bigInt i v f pre hmin hnum h4

theorem Written.plain {op x t body} (h : Written op x t body) :
    x.function = .plain ∧ ∃ pd n, allParts x = .mk pd n .plain none :: body ∧ pd ≠ [] ∧
      (x = .mk pd n .plain none ∨ x.preimage = some (allParts x)) ∧ PartsJoin x := by
  cases h with
  | one n b hb => exact ⟨rfl, [b], n, rfl, by simp, .inl rfl, by intro _ ps hp; cases hp⟩
  | push pre f a h1 h2 h3 h4 =>
    have hpre : pre ≠ [] := by
      rintro rfl
      have := congrArg List.length h3
      cases f <;> simp [Token.encode] at this <;> omega
    obtain ⟨d, n, f', p⟩ := a
    unfold ByteArray.concat ByteArray.concatNamedOption
    dsimp only
    by_cases hf : f' = .plain
    · subst hf
      rw [if_pos ⟨rfl, rfl⟩]
      cases p with
      | none =>
        refine ⟨rfl, pre, none, rfl, hpre, .inr rfl, ?_⟩
        intro _ ps hp
        cases hp
        simp [ByteArray.newUnnamed]
      | some ps =>
        refine ⟨rfl, pre, none, rfl, hpre, .inr rfl, ?_⟩
        intro _ qs hq
        cases hq
        have := h4 rfl ps rfl
        simp only [ByteArray.data_mk] at this
        simp [ByteArray.newUnnamed, ByteArray.preimage, this]
    · rw [if_neg (by simp [hf])]
      have : allParts (.mk d n f' p) = [.mk d n f' p] := by
        unfold allParts
        cases f' <;> first | rfl | exact absurd rfl hf
      rw [this]
      refine ⟨rfl, pre, none, rfl, hpre, .inr rfl, ?_⟩
      intro _ qs hq
      cases hq
      simp [ByteArray.newUnnamed]

theorem allParts_append {x y : ByteArray} (hx : x.function = .plain) (hy : y.function = .plain) :
    (x.concat y).function = .plain ∧ (x.concat y).preimage = some (allParts x ++ allParts y) := by
  obtain ⟨d, n, f, p⟩ := x
  obtain ⟨d', n', f', p'⟩ := y
  simp only [ByteArray.function_mk] at hx hy
  subst hx hy
  unfold ByteArray.concat ByteArray.concatNamedOption
  dsimp only
  rw [if_pos ⟨rfl, rfl⟩]
  refine ⟨rfl, ?_⟩
  cases p <;> cases p' <;> rfl

theorem foldl_parts (xs : List ByteArray) : ∀ p : ByteArray, p.function = .plain →
    (∀ x ∈ xs, x.function = .plain) → xs ≠ [] →
    (xs.foldl ByteArray.concat p).function = .plain ∧
    (xs.foldl ByteArray.concat p).preimage = some (allParts p ++ (xs.map allParts).flatten) := by
  induction xs with
  | nil => intro p _ _ h; exact absurd rfl h
  | cons x xs ih =>
    intro p hp hxs _
    obtain ⟨e1, e2⟩ := allParts_append hp (hxs x (by simp))
    rw [List.foldl_cons]
    by_cases hn : xs = []
    · subst hn
      exact ⟨e1, by simpa using e2⟩
    · obtain ⟨i1, i2⟩ := ih _ e1 (fun y hy => hxs y (by simp [hy])) hn
      refine ⟨i1, ?_⟩
      rw [i2]
      have : allParts (p.concat x) = allParts p ++ allParts x := by
        conv => lhs; unfold allParts
        rw [e1, e2]
      rw [this]
      simp

theorem allParts_data {x : ByteArray} (h : PartsJoin x) : ByteArray.partsData (allParts x) = x.data := by
  obtain ⟨d, n, f, p⟩ := x
  unfold allParts
  cases f
  case plain =>
    cases p with
    | none => simp [ByteArray.function, ByteArray.preimage]
    | some ps => exact h rfl ps rfl
  all_goals simp [ByteArray.function, ByteArray.preimage]

/-- The written operations, their tokens and parts. -/
inductive AllWritten : List (Op ByteArray) → List ByteArray → Prop
  | nil : AllWritten [] []
  | cons {op x t body ops xs} : Written op x t body → AllWritten ops xs → AllWritten (op :: ops) (x :: xs)

theorem AllWritten.plain {ops xs} (h : AllWritten ops xs) : ∀ x ∈ xs, x.function = .plain ∧ PartsJoin x := by
  induction h with
  | nil => simp
  | cons hw _ ih =>
    intro x hx
    rcases List.mem_cons.mp hx with rfl | hx
    · obtain ⟨h1, _, _, _, _, _, h2⟩ := hw.plain
      exact ⟨h1, h2⟩
    · exact ih x hx

/-- What a read operation keeps. -/
def KeepsParts (op op' : Op ByteArray) : Prop :=
  ∀ a m a' m', op = .pushByteArray a m → op' = .pushByteArray a' m' → parts a' = parts a

theorem read_written {op x t body} (hw : Written op x t body) {b : ByteArray} {ps Y : List ByteArray}
    (h : PF b ps) (hne : ne ps = ne (allParts x) ++ Y) :
    ∃ op' r rp, deserializeOpBA b = .ok (op', r) ∧ KeepsParts op op' ∧ PF r rp ∧ ne rp = Y := by
  obtain ⟨hp, pd, n, hparts, hpd, _, hjoin⟩ := hw.plain
  rw [hparts, ne_cons_full (p := .mk pd n .plain none) hpd] at hne
  cases hw with
  | one n' b' hb =>
    have hpdb : (.mk pd n .plain none : ByteArray) = .mk [b'] n' .plain none := by
      have : allParts (.mk [b'] n' .plain none) = [.mk [b'] n' .plain none] := rfl
      rw [this] at hparts
      exact (List.cons.inj hparts).1.symm
    rw [hpdb] at hne
    obtain ⟨r, h1, rp, h2, h3⟩ := PFR.reader.readOp (Y := Y) ⟨ps, h, by simpa using hne⟩ hb
    refine ⟨_, r, rp, h1, ?_, h2, h3⟩
    intro a m a' m' _ e
    unfold codeOrInvalid at e
    split at e
    · cases e
    · split at e <;> cases e
  | push pre f a h1 h2 h3 h4 =>
    have hd := allParts_data hjoin
    rw [hparts] at hd
    have hpre : pd = pre := by
      rw [ByteArray.data_concat, ByteArray.partsData_cons, allParts_data h4] at hd
      exact List.append_cancel_right hd
    subst hpre
    obtain ⟨a', m', r, g1, ⟨ap, g2, g3⟩, ⟨rp, g4, g5⟩⟩ :=
      PFR.reader.readPush (Y := Y) h2 ⟨ps, h, by simpa using hne⟩ (X := ne (allParts a))
        (by rw [partsData_ne, allParts_data h4]) h3
    refine ⟨_, r, rp, g1, ?_, g4, g5⟩
    intro b m b' m'' e e'
    cases e'
    have hab : b = a := by
      rcases h1 with ⟨_, h1⟩ | ⟨_, _, h1, _⟩
      · rw [h1] at e; cases e; rfl
      · rw [h1] at e; cases e
    rw [hab]
    have : allParts a' = ap := by
      unfold allParts
      rw [g2.fn, g2.pre]
    unfold parts
    rw [this]
    exact g3

theorem read_all {ops xs} (hw : AllWritten ops xs) : ∀ (fuel : Nat) (b : ByteArray) (ps : List ByteArray),
    PF b ps → ne ps = (xs.map fun x => ne (allParts x)).flatten → ops.length ≤ fuel →
    ∃ ops', deserializeOpsBALoop fuel b = .ok ops' ∧ List.Forall₂ KeepsParts ops ops' := by
  induction hw with
  | nil =>
    intro fuel b ps h hne _
    refine ⟨[], ?_, .nil⟩
    have : b.data = [] := by rw [h.data, ← partsData_ne, hne]; rfl
    unfold deserializeOpsBALoop
    rw [if_pos (by simp [ByteArray.len, this])]
  | @cons op x t body ops xs hw _ ih =>
    intro fuel b ps h hne hfuel
    rw [List.map_cons, List.flatten_cons] at hne
    obtain ⟨op', r, rp, h1, h2, h3, h4⟩ := read_written hw h hne
    obtain ⟨_, pd, n, hparts, hpd, _, _⟩ := hw.plain
    have hb : b.data ≠ [] := by
      rw [h.data, ← partsData_ne, hne, hparts, ne_cons_full (p := .mk pd n .plain none) hpd]
      simp [hpd]
    cases fuel with
    | zero => simp at hfuel
    | succ fuel =>
      obtain ⟨ops', i1, i2⟩ := ih fuel r rp h3 h4 (by simpa using hfuel)
      refine ⟨op' :: ops', ?_, .cons h2 i2⟩
      unfold deserializeOpsBALoop
      rw [if_neg (by simpa [ByteArray.len] using hb)]
      simp only [h1, Res.bind_ok, i1]

theorem serializeAll_written (opName : Opcode → String) (ops : List (Op ByteArray))
    (hwf : ∀ op ∈ ops, (op.map ByteArray.data).WellFormed)
    (hj : ∀ op ∈ ops, ∀ a m, op = .pushByteArray a m → PartsJoin a) :
    ∃ xs, serializeAllBA opName ops = .ok xs ∧ AllWritten ops xs ∧
      List.Forall₂ (OpPieces opName) ops (xs.map pieces) := by
  induction ops with
  | nil => exact ⟨[], rfl, .nil, .nil⟩
  | cons op ops ih =>
    obtain ⟨xs, h1, h2, h3⟩ := ih (fun o ho => hwf o (by simp [ho])) (fun o ho => hj o (by simp [ho]))
    obtain ⟨x, t, body, g1, g2, g3⟩ := serializeOpBA_written opName op (hwf op (by simp)) (hj op (by simp))
    refine ⟨x :: xs, ?_, .cons g2 h2, .cons g3 h3⟩
    simp only [serializeAllBA, g1, h1, Res.bind_ok]

theorem AllWritten.length {ops xs} (h : AllWritten ops xs) : ops.length = xs.length ∧
    ops.length ≤ (ByteArray.fromParts xs).data.length := by
  rw [ByteArray.data_fromParts]
  induction h with
  | nil => simp
  | cons hw _ ih =>
    obtain ⟨_, pd, n, hparts, hpd, _, hj⟩ := hw.plain
    have := allParts_data hj
    rw [hparts, ByteArray.partsData_cons] at this
    have hl := congrArg List.length this
    have := List.length_pos_iff.mpr hpd
    simp only [List.length_append, ByteArray.data_mk] at hl
    simp only [List.length_cons, List.map_cons, List.flatten_cons, List.length_append]
    omega

/-! ## C73 -/

/-- **C73** (writing): the pieces of a serialised script are, operation by operation, a named opcode byte, or
a push prefix followed by the pieces of the pushed array. -/
theorem C73_written (opName : Opcode → String) (ops : List (Op ByteArray)) (hne : ops ≠ [])
    (hwf : ∀ op ∈ ops, (op.map ByteArray.data).WellFormed)
    (hj : ∀ op ∈ ops, ∀ a m, op = .pushByteArray a m → PartsJoin a) :
    ∃ b pss, serializeOpsBA opName ops = .ok b ∧ List.Forall₂ (OpPieces opName) ops pss ∧
      pieces b = pss.flatten := by
  obtain ⟨xs, h1, h2, h3⟩ := serializeAll_written opName ops hwf hj
  refine ⟨ByteArray.fromParts xs, xs.map pieces, by simp [serializeOpsBA, h1], h3, ?_⟩
  have hx : xs ≠ [] := by
    intro h; have := h2.length.1; rw [h] at this
    exact hne (List.length_eq_zero_iff.mp this)
  rw [C72_from_parts xs hx]
  clear h1 h2 h3 hx
  induction xs with
  | nil => rfl
  | cons x xs ih => simp [piecesOf, ih]

/-- **C73** (reading back): a script written from operations on arrays with any provenance is read back as the
same operations (in parsed form), and every array read back is recorded as joined from exactly the non-empty
parts of the array written: raw bytes, hashes, signatures and names inside it are all found again, unsplit. -/
theorem C73_read_back (opName : Opcode → String) (ops : List (Op ByteArray))
    (hwf : ∀ op ∈ ops, (op.map ByteArray.data).WellFormed)
    (hj : ∀ op ∈ ops, ∀ a m, op = .pushByteArray a m → PartsJoin a) :
    ∃ b ops', serializeOpsBA opName ops = .ok b ∧ deserializeOpsByteArray b = .ok ops' ∧
      List.Forall₂ ParsedAs (ops.map (Op.map ByteArray.data)) (ops'.map (Op.map ByteArray.data)) ∧
      List.Forall₂ (fun op op' => ∀ a m a' m', op = .pushByteArray a m → op' = .pushByteArray a' m' →
        parts a' = parts a) ops ops' := by
  obtain ⟨xs, h1, h2, _⟩ := serializeAll_written opName ops hwf hj
  have hser : serializeOpsBA opName ops = .ok (ByteArray.fromParts xs) := by simp [serializeOpsBA, h1]
  -- the bytes
  obtain ⟨bs, opsb, e1, e2, e3, _⟩ := C18_ops_roundtrip (ops.map (Op.map ByteArray.data)) (by
    intro op hop
    obtain ⟨o, ho, rfl⟩ := List.mem_map.mp hop
    exact hwf o ho)
  have hbs : (ByteArray.fromParts xs).data = bs := by
    have := (C13_serialise_congruence opName ops ops rfl).2
    rw [hser, e1] at this
    simpa using this
  rcases C21_parsers_agree (ByteArray.fromParts xs) with ⟨ops', g1, g2⟩ | ⟨_, _, _, g2⟩
  swap
  · rw [hbs, e2] at g2; cases g2
  rw [hbs, e2] at g2
  simp only [Res.ok.injEq] at g2
  refine ⟨_, ops', hser, g1, by rw [← g2]; exact e3, ?_⟩
  -- the parts
  have hpl := h2.plain
  have hlen := h2.length
  have main : ∀ ps, PF (ByteArray.fromParts xs) ps → ne ps = (xs.map fun x => ne (allParts x)).flatten →
      List.Forall₂ KeepsParts ops ops' := by
    intro ps hp hn
    obtain ⟨ops2, k1, k2⟩ := read_all h2 (ByteArray.fromParts xs).len _ ps hp hn hlen.2
    unfold deserializeOpsByteArray at g1
    rw [k1] at g1
    simp only [Res.ok.injEq] at g1
    rw [← g1]; exact k2
  have nemap : ∀ ys : List ByteArray, ne ((ys.map allParts).flatten) = (ys.map fun x => ne (allParts x)).flatten := by
    intro ys
    induction ys with
    | nil => rfl
    | cons y ys ih => rw [List.map_cons, List.flatten_cons, ne_append, ih]; rfl
  cases h2 with
  | nil =>
    have : ops' = [] := by cases e3; simpa using g2.symm
    rw [this]; exact .nil
  | @cons op x t body ops xs hw hws =>
    cases hws with
    | nil =>
      obtain ⟨hf, pd, n, hparts, hpd, hor, hjn⟩ := hw.plain
      rcases hor with rfl | hpre
      · -- a single byte
        have hbs1 : ∃ b, pd = [b] ∧ (b = 0 ∨ 0x4f ≤ b.toNat) := by
          generalize hx : (ByteArray.mk pd n .plain none) = x at hw
          cases hw with
          | one n' b hb => cases hx; exact ⟨b, rfl, hb⟩
          | push pre f a _ _ _ _ =>
            exfalso
            have := congrArg ByteArray.preimage hx
            unfold ByteArray.concat ByteArray.concatNamedOption at this
            dsimp only at this
            split at this <;> cases this
        obtain ⟨b, rfl, hb⟩ := hbs1
        have hde : deserializeOps [b] = .ok [codeOrInvalid b] := by
          rw [deserializeOps_cons]
          have := deserializeOp_token (.op b) hb b [] [] rfl
          simp only [List.append_nil] at this
          rw [this]
          rfl
        have hbs' : bs = [b] := hbs.symm
        rw [hbs', hde] at e2
        simp only [Res.ok.injEq] at e2
        rw [g2] at e2
        have hop : ∃ o, ops' = [o] ∧ o.map ByteArray.data = codeOrInvalid b := by
          cases ops' with
          | nil => simp at e2
          | cons o os =>
            simp only [List.map_cons, List.cons.injEq, List.nil_eq, List.map_eq_nil_iff] at e2
            exact ⟨o, by rw [e2.2], e2.1.symm⟩
        obtain ⟨o, rfl, ho⟩ := hop
        refine .cons ?_ .nil
        intro a m a' m' _ eo
        exfalso
        rw [eo] at ho
        unfold codeOrInvalid at ho
        split at ho
        · cases ho
        · split at ho <;> cases ho
      · refine main (allParts x) ⟨hf, hpre, ?_⟩ (by simp)
        show x.data = _
        rw [allParts_data hjn]
    | @cons op2 x2 t2 body2 ops2 xs2 hw2 hws2 =>
      have hp : ∀ y ∈ x2 :: xs2, y.function = .plain := fun y hy => (hpl y (by simp only [List.mem_cons] at hy ⊢; exact .inr hy)).1
      obtain ⟨f1, f2⟩ := foldl_parts (x2 :: xs2) x (hpl x (by simp)).1 hp (by simp)
      refine main _ ⟨f1, f2, ?_⟩ ?_
      · have : ∀ ys : List ByteArray, (∀ y ∈ ys, PartsJoin y) →
            ByteArray.partsData ((ys.map allParts).flatten) = (ys.map ByteArray.data).flatten := by
          intro ys
          induction ys with
          | nil => intro _; rfl
          | cons y ys ih =>
            intro h
            rw [List.map_cons, List.flatten_cons, ByteArray.partsData_append, allParts_data (h y (by simp)),
              ih (fun z hz => h z (by simp [hz]))]
            rfl
        rw [ByteArray.data_fromParts]
        exact (this (x :: x2 :: xs2) (fun y hy => (hpl y hy).2)).symm
      · exact nemap (x :: x2 :: xs2)

/-- **C73** (which arrays): the condition on the pushed arrays holds for everything made by wrapping, naming,
concatenating, hashing and splitting, for the result of any function, and for concatenations of such. -/
theorem C73_arrays (H : Function → Bytes → Bytes) (b a c : ByteArray) (data : Bytes) (f : Function)
    (n : Option String) :
    (Built H b → PartsJoin b) ∧
    (f ≠ .plain → PartsJoin (b.applyFunction data f)) ∧
    (PartsJoin a → PartsJoin c → PartsJoin (a.concatNamedOption c n)) := by
  refine ⟨?_, ?_, ?_⟩
  · intro hb hf ps hp
    rcases C12_preimages_consistent H b b hb (.refl b) ps hp with h | h
    · exact h.2
    · rw [hf] at h; cases h.1
  · intro hf h; exact absurd h hf
  · intro ha hc _ ps hp
    rw [ByteArray.data_concatNamedOption, ← allParts_data ha, ← allParts_data hc]
    unfold ByteArray.concatNamedOption at hp
    dsimp only at hp
    split at hp
    · next h =>
      simp only [ByteArray.preimage_mk, Option.some.injEq] at hp
      rw [← hp]
      have e : ∀ x : ByteArray, x.function = .plain →
          (match x.preimage with | some ps => ps | none => [x]) = allParts x := by
        intro x hx
        obtain ⟨d, m, f, p⟩ := x
        simp only [ByteArray.function_mk] at hx
        subst hx
        cases p <;> rfl
      exact (congrArg ByteArray.partsData (congr (congrArg _ (e a h.1)) (e c h.2))).trans
        (ByteArray.partsData_append _ _)
    · simp only [ByteArray.preimage_mk, Option.some.injEq] at hp
      rw [← hp, allParts_data ha, allParts_data hc]
      simp

/-- Non-vacuity: an input script with a signature (a signature function applied to a message, followed by the
hash type) and a named key hash; both are found in the script read back. -/
example : ∃ sig key b ops', sig = ((ByteArray.new "preimage" [1, 2, 3]).applyFunction [9, 8, 7] .ecdsaSign).concat
      (.newUnnamed [0x41]) ∧
    key = (ByteArray.new "pubkey" [5, 5]).applyFunction [6, 7] .hash160 ∧
    serializeOpsBA (fun _ => "op") [.pushByteArray sig true, .pushByteArray key true, .code .OP_DUP] = .ok b ∧
    b.data = [4, 9, 8, 7, 0x41, 2, 6, 7, 0x76] ∧
    (pieces b).map ByteArray.function = [.plain, .ecdsaSign, .plain, .plain, .hash160, .plain] ∧
    deserializeOpsByteArray b = .ok ops' ∧
    ops'.map (fun | .pushByteArray a _ => (parts a).map ByteArray.function | _ => []) =
      [[.ecdsaSign, .plain], [.hash160], []] :=
  ⟨_, _, _, _, rfl, rfl, rfl, rfl, rfl, rfl, rfl⟩

/-- **C73** fails for the name of a pushed array itself: it is not found on the array read back (though, as
`C73_read_back` says, the named array is its only part). -/
theorem C73_whole_name_fails :
    ∃ a b a', a.name = some "amount" ∧ serializeOpsBA (fun _ => "op") [.pushByteArray a true] = .ok b ∧
      deserializeOpsByteArray b = .ok [.pushByteArray a' true] ∧ a'.data = a.data ∧ a'.name = none :=
  ⟨.new "amount" [7, 7], _, _, rfl, rfl, rfl, rfl, rfl⟩

end BCash
