import Verif.Proofs.ByteArray
import Verif.Props.Integer

/-! # C06, C10–C13: byte arrays -/

namespace BCash
open Spec

/-! ### C10, C11, C13 -/

/-- **C10**: concatenation and splitting act on the bytes as list operations, whatever names,
functions and (nested) recorded preimages the arrays carry; splitting fails exactly beyond the end. -/
theorem C10_concat_split_bytes (a b : ByteArray) (name : Option String) (at_ : Nat) :
    (a.concatNamedOption b name).data = a.data ++ b.data ∧
    (at_ ≤ a.data.length → ∃ l r, a.split at_ = .ok (l, r) ∧
      l.data = a.data.take at_ ∧ r.data = a.data.drop at_) ∧
    (a.data.length < at_ → a.split at_ = .error (.invalidSplit at_ a.data.length)) :=
  ⟨ByteArray.data_concatNamedOption a b name, ByteArray.split_ok a at_, ByteArray.split_err a at_⟩

/-- **C10** (parts): joining any number of arrays joins their bytes. -/
theorem C10_from_parts_bytes (ps : List ByteArray) :
    (ByteArray.fromParts ps).data = (ps.map ByteArray.data).flatten :=
  ByteArray.data_fromParts ps

example : ∃ l r, ((ByteArray.new "a" [1, 2]).concat
      ((ByteArray.newUnnamed [9]).applyFunction [3, 4] .sha256)).split 3 = .ok (l, r) ∧
    l.data = [1, 2, 3] ∧ r.data = [4] ∧
    (r.preimage.map (·.map ByteArray.function)) = some [.unexpectedSplit] :=
  ⟨_, _, rfl, rfl, rfl, rfl⟩

/-- **C11**: splitting anywhere and concatenating gives an equal array; splitting a concatenation at
the length of its first operand gives arrays equal to the operands. -/
theorem C11_split_concat (a b : ByteArray) (at_ : Nat) :
    (∀ l r, a.split at_ = .ok (l, r) → (l.concat r).beq a = true) ∧
    (∃ l r, (a.concat b).split a.len = .ok (l, r) ∧ l.beq a = true ∧ r.beq b = true) := by
  constructor
  · intro l r h
    obtain ⟨_, h1, h2⟩ := ByteArray.split_data h
    simp [ByteArray.beq, h1, h2]
  · obtain ⟨l, r, h, h1, h2⟩ := ByteArray.split_ok (a.concat b) a.len (by simp [ByteArray.len])
    refine ⟨l, r, h, ?_, ?_⟩
    · simp [ByteArray.beq, h1, ByteArray.len]
    · simp [ByteArray.beq, h2, ByteArray.len]

example : ((ByteArray.newUnnamed [1, 2, 3]).split 1).isOk = true := rfl

/-- **C13** (equivalence): equality of byte arrays is equality of bytes, an equivalence. -/
theorem C13_equality (a b c : ByteArray) :
    (a.beq b = true ↔ a.data = b.data) ∧ a.beq a = true ∧ (a.beq b = b.beq a) ∧
    (a.beq b = true → b.beq c = true → a.beq c = true) := by
  refine ⟨by simp [ByteArray.beq], by simp [ByteArray.beq], ?_, ?_⟩
  · simp [ByteArray.beq, eq_comm]
  · simp only [ByteArray.beq, decide_eq_true_eq]; exact Eq.trans

/-- **C13** (congruence): replacing operands by equal arrays gives equal results of concatenation,
joining, naming and splitting (including the same success or failure). -/
theorem C13_congruence (a a' b b' : ByteArray) (at_ : Nat) (n : Option String)
    (ha : a.beq a' = true) (hb : b.beq b' = true) :
    (a.concatNamedOption b n).beq (a'.concatNamedOption b' n) = true ∧
    (a.namedOption n).beq a' = true ∧
    (match a.split at_, a'.split at_ with
      | .ok (l, r), .ok (l', r') => l.beq l' = true ∧ r.beq r' = true
      | .error e, .error e' => e = e'
      | _, _ => False) := by
  simp only [ByteArray.beq, decide_eq_true_eq] at ha hb
  refine ⟨by simp [ByteArray.beq, ha, hb], by simp [ByteArray.beq, ha], ?_⟩
  by_cases h : at_ ≤ a.data.length
  · obtain ⟨l, r, h1, h2, h3⟩ := ByteArray.split_ok a at_ h
    obtain ⟨l', r', h1', h2', h3'⟩ := ByteArray.split_ok a' at_ (ha ▸ h)
    rw [h1, h1']
    simp [ByteArray.beq, h2, h3, h2', h3', ha]
  · rw [ByteArray.split_err a at_ (by omega), ByteArray.split_err a' at_ (by rw [← ha]; omega)]
    simp [ha]

example : (ByteArray.new "x" [1]).beq ((ByteArray.newUnnamed [7]).applyFunction [1] .sha1) = true := by
  decide

/-! ### C12: recorded preimages -/

/-- The hash-like functions whose recorded argument determines the bytes. -/
def Function.isHash : Function → Bool
  | .sha1 | .ripemd160 | .sha256 | .hash256 | .hash160 | .reverse => true
  | _ => false

/-- Byte arrays obtainable by wrapping raw bytes, naming, concatenating, hashing (with the hash
functions `H`) and splitting, in any finite sequence. -/
inductive Built (H : Function → Bytes → Bytes) : ByteArray → Prop
  | raw (n : Option String) (d : Bytes) : Built H (.mk d n .plain none)
  | named {b} (n : Option String) : Built H b → Built H (b.namedOption n)
  | concat {a b} (n : Option String) : Built H a → Built H b → Built H (a.concatNamedOption b n)
  | hash {b f} : f.isHash = true → Built H b → Built H (b.applyFunction (H f b.data) f)
  | splitLeft {b at_ l r} : Built H b → b.split at_ = .ok (l, r) → Built H l
  | splitRight {b at_ l r} : Built H b → b.split at_ = .ok (l, r) → Built H r

/-- `p` is the array itself or occurs somewhere inside its recorded preimages. -/
inductive PartOf : ByteArray → ByteArray → Prop
  | refl (b) : PartOf b b
  | step {p q b ps} : b.preimage = some ps → q ∈ ps → PartOf p q → PartOf p b

/-- What a reader of the provenance expects of one node. -/
def NodeConsistent (H : Function → Bytes → Bytes) (b : ByteArray) : Prop :=
  ∀ ps, b.preimage = some ps →
    (b.function = .plain ∧ (ps.map ByteArray.data).flatten = b.data) ∨
    (b.function.isHash = true ∧ ∃ p, ps = [p] ∧ b.data = H b.function p.data)

/-- Inductive invariant. -/
inductive Cons (H : Function → Bytes → Bytes) : ByteArray → Prop
  | leaf (d n f) : f = .plain ∨ f = .unexpectedSplit → Cons H (.mk d n f none)
  | parts (d n ps) : (∀ p ∈ ps, Cons H p) → ByteArray.partsData ps = d →
      Cons H (.mk d n .plain (some ps))
  | hash (d n f p) : f.isHash = true → Cons H p → d = H f p.data → Cons H (.mk d n f (some [p]))

theorem Cons.named {H b} (n) (h : Cons H b) : Cons H (b.namedOption n) := by
  cases h with
  | leaf d n f hf => exact .leaf _ _ _ hf
  | parts d n ps h1 h2 => exact .parts _ _ _ h1 h2
  | hash d n f p h1 h2 h3 => exact .hash _ _ _ _ h1 h2 h3

theorem Cons.concat {H a b} (n) (ha : Cons H a) (hb : Cons H b) :
    Cons H (a.concatNamedOption b n) := by
  unfold ByteArray.concatNamedOption
  simp only
  have side : ∀ x, Cons H x → x.function = .plain →
      (∀ p ∈ (match x.preimage with | some ps => ps | none => [x]), Cons H p) ∧
      ByteArray.partsData (match x.preimage with | some ps => ps | none => [x]) = x.data := by
    intro x hx hf
    cases hx with
    | leaf d n f h => exact ⟨by simpa using Cons.leaf d n f h, by simp⟩
    | parts d n ps h1 h2 => exact ⟨by simpa using h1, by simpa using h2⟩
    | hash d n f p h1 h2 h3 => simp only [ByteArray.function_mk] at hf; subst hf; simp [Function.isHash] at h1
  split
  · next hc =>
    obtain ⟨a1, a2⟩ := side a ha hc.1
    obtain ⟨b1, b2⟩ := side b hb hc.2
    refine .parts _ _ _ ?_ ?_
    · intro p hp
      rcases List.mem_append.mp hp with h | h
      · exact a1 p h
      · exact b1 p h
    · exact (ByteArray.partsData_append _ _).trans 
        ((congrArg (· ++ _) a2).trans (congrArg (_ ++ ·) b2))
  · refine .parts _ _ _ ?_ (by simp)
    intro p hp
    simp only [List.mem_cons, List.not_mem_nil, or_false] at hp
    rcases hp with h | h <;> subst h <;> assumption

theorem splitParts_mem {P : ByteArray → Prop} (ps : List ByteArray)
    (hps : ∀ p ∈ ps, P p)
    (hsp : ∀ p ∈ ps, ∀ at_ l r, p.split at_ = .ok (l, r) →
      P (if p.function.shouldKeepIntact then l.setFunction .unexpectedSplit else l) ∧
      P (if p.function.shouldKeepIntact then r.setFunction .unexpectedSplit else r))
    (at_ : Nat) (isLeft : Bool) (len : Nat) (l r : List ByteArray)
    (h : ByteArray.splitParts ps at_ isLeft len = .ok (l, r)) :
    (∀ p ∈ l, P p) ∧ (∀ p ∈ r, P p) := by
  induction ps generalizing isLeft len l r with
  | nil =>
    simp only [ByteArray.splitParts, Except.ok.injEq, Prod.mk.injEq] at h
    rw [← h.1, ← h.2]; simp
  | cons part rest ih =>
    have ih' := ih (fun p hp => hps p (by simp [hp])) (fun p hp => hsp p (by simp [hp]))
    rw [ByteArray.splitParts] at h
    simp only at h
    generalize (if len = at_ then false else isLeft) = il at h
    by_cases hc : (decide (len + part.data.length > at_) && il) = true
    · rw [if_pos hc] at h
      split at h
      · simp at h
      · next sl sr h1 =>
        split at h
        · simp at h
        · next l' r' h2 =>
          simp only [Except.ok.injEq, Prod.mk.injEq] at h
          obtain ⟨i1, i2⟩ := ih' _ _ _ _ h2
          obtain ⟨s1, s2⟩ := hsp part (by simp) _ _ _ h1
          rw [← h.1, ← h.2]
          exact ⟨by simpa using ⟨s1, i1⟩, by simpa using ⟨s2, i2⟩⟩
    · rw [if_neg hc] at h
      by_cases hl : il = true
      · rw [if_pos hl] at h
        split at h
        · simp at h
        · next l' r' h2 =>
          simp only [Except.ok.injEq, Prod.mk.injEq] at h
          obtain ⟨i1, i2⟩ := ih' _ _ _ _ h2
          rw [← h.1, ← h.2]
          exact ⟨by simpa using ⟨hps part (by simp), i1⟩, i2⟩
      · rw [if_neg hl] at h
        split at h
        · simp at h
        · next l' r' h2 =>
          simp only [Except.ok.injEq, Prod.mk.injEq] at h
          obtain ⟨i1, i2⟩ := ih' _ _ _ _ h2
          rw [← h.1, ← h.2]
          exact ⟨i1, by simpa using ⟨hps part (by simp), i2⟩⟩

theorem Cons.split {H b} (hb : Cons H b) :
    ∀ at_ l r, b.split at_ = .ok (l, r) →
      (Cons H l ∧ Cons H r) ∧
      (Cons H (if b.function.shouldKeepIntact then l.setFunction .unexpectedSplit else l) ∧
       Cons H (if b.function.shouldKeepIntact then r.setFunction .unexpectedSplit else r)) := by
  induction hb with
  | leaf d n f hf =>
    intro at_ l r h
    rw [ByteArray.split] at h
    split at h
    · simp at h
    · simp only [Except.ok.injEq, Prod.mk.injEq] at h
      rw [← h.1, ← h.2]
      refine ⟨⟨.leaf _ _ _ (.inl rfl), .leaf _ _ _ (.inl rfl)⟩, ?_, ?_⟩ <;> split
      · exact .leaf _ _ _ (.inr rfl)
      · exact .leaf _ _ _ (.inl rfl)
      · exact .leaf _ _ _ (.inr rfl)
      · exact .leaf _ _ _ (.inl rfl)
  | parts d n ps h1 h2 ih =>
    intro at_ l r h
    rw [ByteArray.split] at h
    split at h
    · simp at h
    · simp only [Function.shouldKeepIntact, Bool.not_false, if_true] at h
      split at h
      · simp at h
      · next lp rp hp =>
        simp only [Except.ok.injEq, Prod.mk.injEq] at h
        obtain ⟨m1, m2⟩ := splitParts_mem ps h1 (fun p hp at_ l r h => (ih p hp at_ l r h).2)
          at_ true 0 lp rp hp
        obtain ⟨d1, d2⟩ := ByteArray.splitParts_data ps at_ true 0 lp rp hp (by simp)
        simp only [if_true, Nat.sub_zero, h2] at d1 d2
        rw [← h.1, ← h.2]
        have c1 := Cons.parts (List.take at_ d) none lp m1 d1
        have c2 := Cons.parts (List.drop at_ d) none rp m2 d2
        simp only [ByteArray.function_mk, Function.shouldKeepIntact, Bool.false_eq_true, if_false]
        exact ⟨⟨c1, c2⟩, c1, c2⟩
  | hash d n f p h1 h2 h3 ih =>
    intro at_ l r h
    have hk : f.shouldKeepIntact = true := by cases f <;> simp_all [Function.isHash, Function.shouldKeepIntact]
    rw [ByteArray.split] at h
    split at h
    · simp at h
    · simp only [hk, Bool.not_true, Bool.false_eq_true, if_false, Except.ok.injEq, Prod.mk.injEq] at h
      rw [← h.1, ← h.2]
      simp only [ByteArray.function_mk, hk, if_true, ByteArray.setFunction]
      exact ⟨⟨.leaf _ _ _ (.inr rfl), .leaf _ _ _ (.inr rfl)⟩, .leaf _ _ _ (.inr rfl),
        .leaf _ _ _ (.inr rfl)⟩

theorem Built.cons {H b} (h : Built H b) : Cons H b := by
  induction h with
  | raw n d => exact .leaf _ _ _ (.inl rfl)
  | named n _ ih => exact ih.named n
  | concat n _ _ iha ihb => exact iha.concat n ihb
  | hash hf _ ih => exact .hash _ _ _ _ hf ih rfl
  | splitLeft _ hs ih => exact (ih.split _ _ _ hs).1.1
  | splitRight _ hs ih => exact (ih.split _ _ _ hs).1.2

theorem Cons.node {H b} (h : Cons H b) : NodeConsistent H b := by
  intro ps hps
  cases h with
  | leaf => simp at hps
  | parts d n ps' h1 h2 =>
    simp only [ByteArray.preimage_mk, Option.some.injEq] at hps
    subst hps; left; exact ⟨rfl, h2⟩
  | hash d n f p h1 h2 h3 =>
    simp only [ByteArray.preimage_mk, Option.some.injEq] at hps
    subst hps; right; exact ⟨h1, p, rfl, h3⟩

theorem Cons.part {H p b} (hp : PartOf p b) (h : Cons H b) : Cons H p := by
  induction hp with
  | refl => exact h
  | step hps hq _ ih =>
    apply ih
    cases h with
    | leaf => simp at hps
    | parts d n ps' h1 h2 =>
      simp only [ByteArray.preimage_mk, Option.some.injEq] at hps
      subst hps; exact h1 _ hq
    | hash d n f p h1 h2 h3 =>
      simp only [ByteArray.preimage_mk, Option.some.injEq] at hps
      subst hps; simp at hq; subst hq; exact h2

/-- **C12**: for every array obtained by any sequence of wrapping, naming, concatenating, hashing
and splitting, and for every array nested anywhere in its provenance: the recorded parts of a plain
array concatenate to its bytes, and the recorded argument of a hash hashes to its bytes. -/
theorem C12_preimages_consistent (H : Function → Bytes → Bytes) (b p : ByteArray)
    (hb : Built H b) (hp : PartOf p b) : NodeConsistent H p :=
  (hb.cons.part hp).node

example : ∃ b ps, Built (fun _ d => d.reverse) b ∧ b.preimage = some ps ∧ ps.length = 2 ∧
    ByteArray.partsData ps = [1, 2, 5, 4] := by
  refine ⟨_, _, .concat none (.raw (some "a") [1, 2])
    (.hash (f := .sha256) rfl (.raw none [4, 5])), rfl, rfl, rfl⟩

/-- **C12 fails for signatures**: splitting an array recorded as a signature of some message (a
function that is not kept intact) yields "plain" arrays whose recorded parts are the message, not
the signature bytes. -/
theorem C12_signature_split_fails :
    ∃ (msg : ByteArray) (sig : Bytes) (l r : ByteArray) (ps : List ByteArray),
      (msg.applyFunction sig .ecdsaSign).split 1 = .ok (l, r) ∧
      r.function = .plain ∧ r.preimage = some ps ∧ ByteArray.partsData ps ≠ r.data :=
  ⟨.newUnnamed [1, 2, 3], [9, 9], _, _, _, rfl, rfl, rfl, by decide⟩

/-! ### C06: `from_int` -/

theorem fromInt_bytes (m n : Nat) (hm : m < 2 ^ 31) :
    (if (leBytes 4 m).length < n then leBytes 4 m ++ List.replicate (n - (leBytes 4 m).length) 0
      else if (leBytes 4 m).length > n then (leBytes 4 m).take n else leBytes 4 m) = leBytes n m := by
  simp only [leBytes_length]
  split
  · rw [leBytes_pad 4 _ m (by omega)]; congr 1; omega
  · split
    · exact leBytes_take 4 n m (by omega)
    · congr 1; omega

theorem pow256 (k : Nat) : 256 ^ k * 128 = 2 ^ (8 * (k + 1) - 1) := by
  rw [show (256 : Nat) = 2 ^ 8 by rfl, ← Nat.pow_mul, show (128 : Nat) = 2 ^ 7 by rfl, ← Nat.pow_add]
  congr 1; 

theorem scriptNum_fixed (k : Nat) (x : Int) (hm : x.natAbs < 2 ^ (8 * (k + 1) - 1)) :
    scriptNum (if x < 0 then
        (leBytes (k + 1) x.natAbs).set ((leBytes (k + 1) x.natAbs).length - 1)
          ((leBytes (k + 1) x.natAbs).getD ((leBytes (k + 1) x.natAbs).length - 1) 0 ||| 0x80)
      else leBytes (k + 1) x.natAbs) = x := by
  rw [← pow256] at hm
  have hq : x.natAbs / 256 ^ k < 128 := Nat.div_lt_of_lt_mul hm
  have hb : (UInt8.ofNat (x.natAbs / 256 ^ k)).toNat = x.natAbs / 256 ^ k := by
    rw [UInt8.toNat_ofNat']; exact Nat.mod_eq_of_lt (Nat.lt_trans hq (by decide))
  have hv : (leVal (leBytes k x.natAbs) : Int) + 256 ^ k * ((x.natAbs / 256 ^ k : Nat) : Int) = x.natAbs := by
    rw [leVal_leBytes]
    have := Nat.mod_add_div x.natAbs (256 ^ k)
    have h2 : (256 : Int) ^ k = ((256 ^ k : Nat) : Int) := by rw [Int.natCast_pow]; rfl
    rw [h2]
    exact_mod_cast this
  split
  · next hneg =>
    have hset : (leBytes (k + 1) x.natAbs).set ((leBytes (k + 1) x.natAbs).length - 1)
          ((leBytes (k + 1) x.natAbs).getD ((leBytes (k + 1) x.natAbs).length - 1) 0 ||| 0x80)
        = leBytes k x.natAbs ++ [UInt8.ofNat (x.natAbs / 256 ^ k) ||| 0x80] := by
      rw [leBytes_length, leBytes_succ_snoc]
      simp [List.getD, leBytes_length]
    rw [hset, scriptNum_snoc, or80_toNat _ (by omega), if_neg (by omega), leBytes_length, hb]
    have : ((x.natAbs / 256 ^ k + 128 : Nat) : Int) - 128 = ((x.natAbs / 256 ^ k : Nat) : Int) := by omega
    rw [this, hv]; omega
  · rw [leBytes_succ_snoc, scriptNum_snoc, if_pos (by omega), leBytes_length, hb, hv]; omega

/-- **C06**: for every script integer and every width below 2^28 bytes, the fixed-width encoding
succeeds exactly when the width is positive and the magnitude fits in `8n-1` bits; it then has
exactly `n` bytes whose script number value is the integer; otherwise it is the range error. -/
theorem C06_num2bin_partial (x n : Int) (hx : InScriptRange x) (hn : n < 2 ^ 28) :
    (∀ b, ByteArray.fromInt x n = .ok b → b.len = n.toNat ∧ scriptNum b.data = x) ∧
    ((∃ b, ByteArray.fromInt x n = .ok b) ↔ 0 < n ∧ x.natAbs < 2 ^ (8 * n.toNat - 1)) ∧
    ((∃ b, ByteArray.fromInt x n = .ok b) ∨
      ByteArray.fromInt x n = .err (.fromInteger x n)) := by
  have hx31 : x.natAbs < 2 ^ 31 := by unfold InScriptRange at hx; omega
  unfold ByteArray.fromInt
  by_cases h0 : n ≤ 0
  · rw [if_pos h0]
    refine ⟨by simp, by simp; omega, .inr rfl⟩
  rw [if_neg h0, if_neg (by simp only [InI32]; omega)]
  obtain ⟨k, hk⟩ : ∃ k : Nat, n = (k : Int) + 1 := ⟨(n - 1).toNat, by omega⟩
  have hkn : n.toNat = k + 1 := by omega
  simp only [fromInt_bytes x.natAbs n.toNat hx31]
  -- the bound
  have hbound : (x < -((2 : Int) ^ (min (n * 8 - 1) 31).toNat - 1) ∨
      x > (2 : Int) ^ (min (n * 8 - 1) 31).toNat - 1) ↔ ¬ x.natAbs < 2 ^ (8 * n.toNat - 1) := by
    have hc : ∀ e : Nat, ((2 : Int) ^ e) = ((2 ^ e : Nat) : Int) := fun e => by
      rw [Int.natCast_pow]; rfl
    rw [hc]
    by_cases h4 : n < 4
    · have : (min (n * 8 - 1) 31).toNat = 8 * n.toNat - 1 := by omega
      rw [this]
      generalize 2 ^ (8 * n.toNat - 1) = N
      omega
    · have : (min (n * 8 - 1) 31).toNat = 31 := by omega
      rw [this]
      have hle : 2 ^ 31 ≤ 2 ^ (8 * n.toNat - 1) := Nat.pow_le_pow_right (by omega) (by omega)
      generalize 2 ^ (8 * n.toNat - 1) = N at *
      omega
  by_cases hc : x.natAbs < 2 ^ (8 * n.toNat - 1)
  · rw [if_neg (fun h => hbound.mp h hc)]
    refine ⟨?_, ?_, .inl ⟨_, rfl⟩⟩
    · intro b hb
      simp only [Res.ok.injEq] at hb
      subst hb
      constructor
      · simp only [ByteArray.len, ByteArray.data_mk]; split <;> simp
      · simp only [ByteArray.data_mk]
        rw [hkn] at hc ⊢
        exact scriptNum_fixed k x hc
    · exact ⟨fun _ => ⟨by omega, hc⟩, fun _ => ⟨_, rfl⟩⟩
  · rw [if_pos (hbound.mpr hc)]
    exact ⟨by simp, by simp; omega, .inr rfl⟩

example : ByteArray.fromInt (-300) 4 = .ok (.mk [0x2c, 1, 0, 0x80] none .num2bin none) := rfl
example : ByteArray.fromInt 128 1 = .err (.fromInteger 128 1) := rfl
example : InScriptRange (-300) := by decide

/-- **C06 fails** for widths of 2^28 bytes and more: the width check overflows and panics, although
every script integer fits in such a width. -/
theorem C06_num2bin_fails (x n : Int) (hn : 2 ^ 28 ≤ n) : ByteArray.fromInt x n = .panic := by
  unfold ByteArray.fromInt
  rw [if_neg (by omega), if_pos (by simp only [InI32]; omega)]

end BCash
