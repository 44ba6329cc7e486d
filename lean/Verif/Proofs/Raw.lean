import Mathlib.Tactic.Tauto
import Verif.Spec.Raw
import Verif.Props.Codec

/-! # Lemmas about raw transactions -/

namespace BCash
open Spec Codec
namespace RawProofs
variable {α β R S : Type}

/-- The inputs a codec accepts are exactly the encodings of valid raw values; writing what was read gives the
encoding back if it is canonical and something shorter otherwise. -/
structure Exact (c : Codec α) (enc : R → Bytes) (valid canon : R → Prop) (mean : R → α) : Prop where
  read : ∀ r rest, valid r → c.deserRest (enc r ++ rest) = .ok (mean r, rest)
  inv : ∀ data v rest, c.deserRest data = .ok (v, rest) → ∃ r, valid r ∧ data = enc r ++ rest ∧ mean r = v
  ser : ∀ r, valid r → ∃ bs, c.ser (mean r) = some bs ∧ (canon r → bs = enc r) ∧
    (¬ canon r → bs.length < (enc r).length)

theorem Exact.int (k : Nat) : Exact (int k) (fun v => leBytes k v.toNat) (fun _ => True) (fun _ => True) id where
  read r rest _ := by
    obtain ⟨bs, w, h1, h2, h3⟩ := RoundTrips.int k r trivial
    subst h2
    simp only [Codec.int, Option.some.injEq] at h1
    rw [h1]; exact h3 rest
  inv data v rest h := by
    simp only [Codec.int] at h
    obtain ⟨⟨l, r⟩, h1, h2⟩ := Res.bind_eq_ok.mp h
    obtain ⟨e1, e2⟩ := splitBytes_ok h1
    dsimp only at h2
    rw [if_neg (by simp [e2])] at h2
    simp only [Res.ok.injEq, Prod.mk.injEq] at h2
    obtain ⟨rfl, rfl⟩ := h2
    refine ⟨_, trivial, ?_, rfl⟩
    rw [e1]
    congr 1
    have hlt := leVal_lt l
    rw [e2, show 256 ^ k = 2 ^ (8 * k) by rw [Nat.pow_mul]] at hlt
    show l = leBytes k (BitVec.ofNat (8 * k) (leVal l)).toNat
    rw [BitVec.toNat_ofNat, Nat.mod_eq_of_lt hlt]
    conv_lhs => rw [← leBytes_leVal l, e2]
  ser r _ := ⟨_, rfl, fun _ => rfl, fun h => absurd trivial h⟩

theorem Exact.fixed (n : Nat) : Exact (fixed n) (fun v => v.1) (fun _ => True) (fun _ => True) id where
  read r rest _ := by
    obtain ⟨bs, w, h1, h2, h3⟩ := RoundTrips.fixed n r trivial
    subst h2
    simp only [Codec.fixed, Option.some.injEq] at h1
    rw [h1]; exact h3 rest
  inv data v rest h := by
    simp only [Codec.fixed] at h
    obtain ⟨⟨l, r⟩, h1, h2⟩ := Res.bind_eq_ok.mp h
    obtain ⟨e1, e2⟩ := splitBytes_ok h1
    dsimp only at h2
    split at h2
    · simp only [Res.ok.injEq, Prod.mk.injEq] at h2
      obtain ⟨rfl, rfl⟩ := h2
      exact ⟨_, trivial, e1, rfl⟩
    · rename_i hn; exact absurd e2 hn
  ser r _ := ⟨_, rfl, fun _ => rfl, fun h => absurd trivial h⟩

theorem Exact.seq {a : Codec α} {b : Codec β} {ea : R → Bytes} {eb : S → Bytes} {va ca : R → Prop}
    {vb cb : S → Prop} {ma : R → α} {mb : S → β} (ha : Exact a ea va ca ma) (hb : Exact b eb vb cb mb) :
    Exact (a.seq b) (fun p : R × S => ea p.1 ++ eb p.2) (fun p => va p.1 ∧ vb p.2) (fun p => ca p.1 ∧ cb p.2)
      (fun p => (ma p.1, mb p.2)) where
  read r rest h := by
    simp only [Codec.seq]
    rw [List.append_assoc, ha.read _ _ h.1]
    simp only [Res.bind_ok]
    rw [hb.read _ _ h.2]; rfl
  inv data v rest h := by
    simp only [Codec.seq] at h
    obtain ⟨⟨x, r1⟩, h1, h2⟩ := Res.bind_eq_ok.mp h
    obtain ⟨⟨y, r2⟩, h3, h4⟩ := Res.bind_eq_ok.mp h2
    simp only [Res.ok.injEq, Prod.mk.injEq] at h4
    obtain ⟨rfl, rfl⟩ := h4
    obtain ⟨r, v1, e1, m1⟩ := ha.inv _ _ _ h1
    obtain ⟨s, v2, e2, m2⟩ := hb.inv _ _ _ h3
    exact ⟨(r, s), ⟨v1, v2⟩, by rw [e1, List.append_assoc]; exact congrArg _ e2, by simp [m1, m2]⟩
  ser r h := by
    obtain ⟨b1, s1, c1, n1⟩ := ha.ser r.1 h.1
    obtain ⟨b2, s2, c2, n2⟩ := hb.ser r.2 h.2
    refine ⟨b1 ++ b2, by simp [Codec.seq, s1, s2], fun hc => by rw [c1 hc.1, c2 hc.2], fun hn => ?_⟩
    have l1 : b1.length ≤ (ea r.1).length := by
      by_cases hc : ca r.1
      · rw [c1 hc]; exact Nat.le_refl _
      · exact Nat.le_of_lt (n1 hc)
    have l2 : b2.length ≤ (eb r.2).length := by
      by_cases hc : cb r.2
      · rw [c2 hc]; exact Nat.le_refl _
      · exact Nat.le_of_lt (n2 hc)
    simp only [List.length_append]
    by_cases hc : ca r.1
    · have := n2 (fun hc2 => hn ⟨hc, hc2⟩); omega
    · have := n1 hc; omega

theorem Exact.imap {c : Codec α} {enc : R → Bytes} {valid canon : R → Prop} {mean : R → α}
    (h : Exact c enc valid canon mean) (pk : α → β) (from_ : β → α) (hf : ∀ a, from_ (pk a) = a) :
    Exact (c.imap pk from_) enc valid canon (fun r => pk (mean r)) where
  read r rest hv := by
    simp only [Codec.imap]
    rw [h.read r rest hv]; rfl
  inv data v rest hd := by
    simp only [Codec.imap] at hd
    obtain ⟨⟨x, r1⟩, h1, h2⟩ := Res.bind_eq_ok.mp hd
    simp only [Res.ok.injEq, Prod.mk.injEq] at h2
    obtain ⟨rfl, rfl⟩ := h2
    obtain ⟨r, v1, e1, m1⟩ := h.inv _ _ _ h1
    exact ⟨r, v1, e1, by rw [m1]⟩
  ser r hv := by
    simp only [Codec.imap, hf]
    exact h.ser r hv

/-- Other names for the raw values. -/
theorem Exact.rename {c : Codec α} {enc : R → Bytes} {valid canon : R → Prop} {mean : R → α}
    (h : Exact c enc valid canon mean) (f : S → R) (g : R → S) (hfg : ∀ r, f (g r) = r)
    {enc' : S → Bytes} {valid' canon' : S → Prop} {mean' : S → α}
    (he : ∀ s, enc' s = enc (f s)) (hv : ∀ s, valid' s ↔ valid (f s)) (hc : ∀ s, canon' s ↔ canon (f s))
    (hm : ∀ s, mean' s = mean (f s)) : Exact c enc' valid' canon' mean' where
  read s rest hs := by rw [he, hm]; exact h.read _ _ ((hv s).mp hs)
  inv data v rest hd := by
    obtain ⟨r, v1, e1, m1⟩ := h.inv _ _ _ hd
    exact ⟨g r, (hv _).mpr (by rwa [hfg]), by rw [he, hfg]; exact e1, by rw [hm, hfg]; exact m1⟩
  ser s hs := by
    obtain ⟨bs, s1, c1, n1⟩ := h.ser (f s) ((hv s).mp hs)
    exact ⟨bs, by rw [hm]; exact s1, fun hh => by rw [he]; exact c1 ((hc s).mp hh),
      fun hh => by rw [he]; exact n1 (fun h' => hh ((hc s).mpr h'))⟩

/-! ### Sizes -/

theorem encode_length (f : SizeForm) (n : Nat) :
    (f.encode n).length = match f with | .one => 1 | .three => 3 | .five => 5 | .nine => 9 := by
  cases f <;> simp [SizeForm.encode]

theorem readSize_form (f : SizeForm) (n : Nat) (h : f.Fits n) (rest : Bytes) :
    readSize (f.encode n ++ rest) = .ok (n, rest) := by
  unfold readSize
  have : readVarInt (f.encode n ++ rest) = .ok (n, rest) := by
    cases f with
    | one =>
      simp only [SizeForm.Fits] at h
      have e : SizeForm.one.encode n = [UInt8.ofNat n] := rfl
      have hn : (UInt8.ofNat n).toNat = n := ofNat_toNat_lt (by omega)
      rw [e, List.singleton_append, readVarInt_cases]
      simp [varIntTail, hn, h]
    | three =>
      rw [SizeForm.encode, List.cons_append, readVarInt_cases]
      have : varIntTail 0xfd = 2 := by decide
      rw [this, if_neg (by omega), readLE_append (leBytes_length _ _), leVal_leBytes_of_lt (by simpa [SizeForm.Fits] using h)]
    | five =>
      rw [SizeForm.encode, List.cons_append, readVarInt_cases]
      have : varIntTail 0xfe = 4 := by decide
      rw [this, if_neg (by omega), readLE_append (leBytes_length _ _), leVal_leBytes_of_lt (by simpa [SizeForm.Fits] using h)]
    | nine =>
      rw [SizeForm.encode, List.cons_append, readVarInt_cases]
      have : varIntTail 0xff = 8 := by decide
      rw [this, if_neg (by omega), readLE_append (leBytes_length _ _), leVal_leBytes_of_lt (by simpa [SizeForm.Fits] using h)]
  rw [this]; rfl

theorem readSize_inv {data rest : Bytes} {n : Nat} (h : readSize data = .ok (n, rest)) :
    ∃ f : SizeForm, f.Fits n ∧ data = f.encode n ++ rest := by
  obtain ⟨b, xs, hl, hi, hm⟩ := readVarInt_ok (readSize_ok h)
  have hx := leVal_lt xs
  by_cases h1 : b.toNat < 253
  · have ht : varIntTail b = 0 := by simp [varIntTail, h1]
    rw [ht] at hl hm
    have hxs : xs = [] := List.eq_nil_of_length_eq_zero hl
    simp only [if_true] at hm
    refine ⟨.one, by simp only [SizeForm.Fits]; omega, ?_⟩
    rw [hi, hxs, hm]
    simp [SizeForm.encode, leBytes]
  · by_cases h2 : b = 253
    · subst h2
      rw [show varIntTail 253 = 2 by decide] at hl hm
      rw [if_neg (by omega)] at hm
      refine ⟨.three, ?_, ?_⟩
      · rw [hl] at hx; simp only [SizeForm.Fits]; omega
      · rw [hi, hm, SizeForm.encode, ← hl, leBytes_leVal]; rfl
    · by_cases h3 : b = 254
      · subst h3
        rw [show varIntTail 254 = 4 by decide] at hl hm
        rw [if_neg (by omega)] at hm
        refine ⟨.five, ?_, ?_⟩
        · rw [hl] at hx; simp only [SizeForm.Fits]; omega
        · rw [hi, hm, SizeForm.encode, ← hl, leBytes_leVal]; rfl
      · have hb : b = 255 := by
          apply UInt8.toNat_inj.mp
          have := b.toNat_lt
          have e2 := (toNat_eq_iff b 253 (by omega)).not.mpr h2
          have e3 := (toNat_eq_iff b 254 (by omega)).not.mpr h3
          show b.toNat = 255
          omega
        subst hb
        rw [show varIntTail 255 = 8 by decide] at hl hm
        rw [if_neg (by omega)] at hm
        refine ⟨.nine, ?_, ?_⟩
        · rw [hl] at hx; simp only [SizeForm.Fits]; omega
        · rw [hi, hm, SizeForm.encode, ← hl, leBytes_leVal]; rfl

theorem fits_lt {f : SizeForm} {n : Nat} (h : f.Fits n) : n < 2 ^ 64 := by
  cases f <;> simp only [SizeForm.Fits] at h <;> omega

/-- Writing a size gives the shortest form. -/
theorem encodeVarInt_form {f : SizeForm} {n : Nat} (h : f.Fits n) :
    (f.Shortest n → encodeVarInt (UInt64.ofNat n) = f.encode n) ∧
    (¬ f.Shortest n → (encodeVarInt (UInt64.ofNat n)).length < (f.encode n).length) := by
  have hn : (UInt64.ofNat n).toNat = n := by
    rw [UInt64.toNat_ofNat']; exact Nat.mod_eq_of_lt (fits_lt h)
  rw [encode_length]
  unfold encodeVarInt
  rw [hn]
  dsimp only
  cases f <;> simp only [SizeForm.Fits, SizeForm.Shortest] at * <;>
    (split
     · constructor
       · intro hs; first | rfl | (exfalso; omega)
       · intro hs; first | exact absurd trivial hs | (simp; done) | (simp; omega)
     · split
       · constructor
         · intro hs; first | rfl | (exfalso; omega)
         · intro hs; first | exact absurd trivial hs | (simp; done) | (simp; omega)
       · split
         · constructor
           · intro hs; first | rfl | (exfalso; omega)
           · intro hs; first | exact absurd trivial hs | (simp; done) | (simp; omega)
         · constructor
           · intro hs; first | rfl | (exfalso; omega)
           · intro hs; first | exact absurd trivial hs | (simp; done) | (simp; omega))

/-! ### Vectors -/

theorem Exact.many {c : Codec α} {enc : R → Bytes} {valid canon : R → Prop} {mean : R → α}
    (h : Exact c enc valid canon mean) (rs : List R) :
    (∀ r ∈ rs, valid r) → (∀ rest, c.deserMany rs.length ((rs.map enc).flatten ++ rest) = .ok (rs.map mean, rest)) ∧
      ∃ bs, c.serMany (rs.map mean) = some bs ∧ ((∀ r ∈ rs, canon r) → bs = (rs.map enc).flatten) ∧
        (¬ (∀ r ∈ rs, canon r) → bs.length < ((rs.map enc).flatten).length) := by
  induction rs with
  | nil => intro _; exact ⟨fun _ => rfl, [], rfl, fun _ => rfl, fun hn => absurd (by simp) hn⟩
  | cons r rs ih =>
    intro hv
    obtain ⟨i1, bs, i2, i3, i4⟩ := ih (fun x hx => hv x (by simp [hx]))
    obtain ⟨b1, s1, c1, n1⟩ := h.ser r (hv r (by simp))
    have l1 : b1.length ≤ (enc r).length := by
      by_cases hc : canon r
      · rw [c1 hc]; exact Nat.le_refl _
      · exact Nat.le_of_lt (n1 hc)
    have l2 : bs.length ≤ ((rs.map enc).flatten).length := by
      by_cases hc : ∀ r ∈ rs, canon r
      · rw [i3 hc]; exact Nat.le_refl _
      · exact Nat.le_of_lt (i4 hc)
    refine ⟨fun rest => ?_, b1 ++ bs, by simp [serMany, s1, i2], fun hc => ?_, fun hn => ?_⟩
    · simp only [List.length_cons, deserMany, List.map_cons, List.flatten_cons]
      rw [List.append_assoc, h.read r _ (hv r (by simp))]
      simp only [Res.bind_ok]
      rw [i1]; rfl
    · simp only [List.map_cons, List.flatten_cons]
      rw [c1 (hc r (by simp)), i3 (fun x hx => hc x (by simp [hx]))]
    · simp only [List.map_cons, List.flatten_cons, List.length_append]
      by_cases hc : canon r
      · have := i4 (fun hh => hn (by
          intro x hx
          simp only [List.mem_cons] at hx
          rcases hx with rfl | hx
          · exact hc
          · exact hh x hx))
        omega
      · have := n1 hc; omega

theorem Exact.many_inv {c : Codec α} {enc : R → Bytes} {valid canon : R → Prop} {mean : R → α}
    (h : Exact c enc valid canon mean) : ∀ (n : Nat) (data : Bytes) (vs : List α) (rest : Bytes),
    c.deserMany n data = .ok (vs, rest) →
    ∃ rs : List R, rs.length = n ∧ (∀ r ∈ rs, valid r) ∧ data = (rs.map enc).flatten ++ rest ∧ rs.map mean = vs
  | 0, data, vs, rest, hd => by
    simp only [deserMany, Res.ok.injEq, Prod.mk.injEq] at hd
    exact ⟨[], rfl, by simp, by simp [hd.2], by simp [hd.1]⟩
  | n + 1, data, vs, rest, hd => by
    simp only [deserMany] at hd
    obtain ⟨⟨x, r1⟩, h1, h2⟩ := Res.bind_eq_ok.mp hd
    obtain ⟨⟨xs, r2⟩, h3, h4⟩ := Res.bind_eq_ok.mp h2
    simp only [Res.ok.injEq, Prod.mk.injEq] at h4
    obtain ⟨rfl, rfl⟩ := h4
    obtain ⟨r, v1, e1, m1⟩ := h.inv _ _ _ h1
    obtain ⟨rs, q1, q2, q3, q4⟩ := Exact.many_inv h n _ _ _ h3
    refine ⟨r :: rs, by simp [q1], ?_, ?_, by simp [m1, q4]⟩
    · intro y hy
      simp only [List.mem_cons] at hy
      rcases hy with rfl | hy
      · exact v1
      · exact q2 y hy
    · simp only [List.map_cons, List.flatten_cons, List.append_assoc]
      rw [e1]
      exact congrArg _ q3

theorem Exact.vec {c : Codec α} {enc : R → Bytes} {valid canon : R → Prop} {mean : R → α} (sz : Nat)
    (h : Exact c enc valid canon mean) :
    Exact (vec sz c) (fun p : SizeForm × List R => p.1.encode p.2.length ++ (p.2.map enc).flatten)
      (fun p => p.1.Fits p.2.length ∧ p.2.length * sz < 2 ^ 63 ∧ ∀ r ∈ p.2, valid r)
      (fun p => p.1.Shortest p.2.length ∧ ∀ r ∈ p.2, canon r) (fun p => p.2.map mean) where
  read p rest hv := by
    simp only [Codec.vec]
    rw [List.append_assoc, readSize_form _ _ hv.1]
    simp only [Res.bind_ok]
    rw [if_neg (by unfold isizeMax; omega)]
    exact (h.many p.2 hv.2.2).1 rest
  inv data v rest hd := by
    simp only [Codec.vec] at hd
    obtain ⟨⟨n, r1⟩, h1, h2⟩ := Res.bind_eq_ok.mp hd
    dsimp only at h2
    split at h2
    · cases h2
    · rename_i hsz
      obtain ⟨rs, q1, q2, q3, q4⟩ := h.many_inv _ _ _ _ h2
      obtain ⟨f, f1, f2⟩ := readSize_inv h1
      subst q1
      exact ⟨(f, rs), ⟨f1, by unfold isizeMax at hsz; dsimp only; omega, q2⟩,
        by rw [f2, q3, List.append_assoc], q4⟩
  ser p hv := by
    obtain ⟨_, bs, s1, c1, n1⟩ := h.many p.2 hv.2.2
    obtain ⟨e1, e2⟩ := encodeVarInt_form hv.1
    refine ⟨encodeVarInt (UInt64.ofNat p.2.length) ++ bs, by simp [Codec.vec, s1], fun hc => ?_, fun hn => ?_⟩
    · rw [e1 hc.1, c1 hc.2]
    · have l1 : bs.length ≤ ((p.2.map enc).flatten).length := by
        by_cases hc : ∀ r ∈ p.2, canon r
        · rw [c1 hc]; exact Nat.le_refl _
        · exact Nat.le_of_lt (n1 hc)
      simp only [List.length_append]
      by_cases hc : p.1.Shortest p.2.length
      · rw [e1 hc]
        have := n1 (fun hh => hn ⟨hc, hh⟩)
        omega
      · have := e2 hc; omega

/-! ### Scripts -/

theorem serialize_tokens (ts : List Token) (hv : ∀ t ∈ ts, t.Valid) :
    ∃ bs', serializeOps (ts.map tokenOp) = .ok bs' ∧ ((∀ t ∈ ts, t.ShortPrefix) → bs' = encodeTokens ts) ∧
      (¬ (∀ t ∈ ts, t.ShortPrefix) → bs'.length < (encodeTokens ts).length) := by
  induction ts with
  | nil => exact ⟨[], rfl, fun _ => rfl, by simp⟩
  | cons t ts ih =>
    obtain ⟨bs', h1, h3, h4⟩ := ih (fun t ht => hv t (by simp [ht]))
    obtain ⟨t', u1, u2, u3, u4⟩ := serializeOp_tokenOp t (hv t (by simp))
    have he : encodeTokens (t :: ts) = t.encode ++ encodeTokens ts := by simp [encodeTokens]
    have l1 : t'.encode.length ≤ t.encode.length := by
      by_cases hs : t.ShortPrefix
      · rw [u3 hs]; exact Nat.le_refl _
      · exact Nat.le_of_lt (u4 hs)
    have l2 : bs'.length ≤ (encodeTokens ts).length := by
      by_cases hs : ∀ t ∈ ts, t.ShortPrefix
      · rw [h3 hs]; exact Nat.le_refl _
      · exact Nat.le_of_lt (h4 hs)
    refine ⟨t'.encode ++ bs', by simp only [List.map_cons]; exact serializeOps_cons_ok u2 h1, ?_, ?_⟩
    · intro hall
      rw [he, u3 (hall t (by simp)), h3 (fun x hx => hall x (by simp [hx]))]
    · intro hn
      rw [he]
      simp only [List.length_append]
      by_cases hs : t.ShortPrefix
      · have := h4 (fun hh => hn (by
          intro x hx
          simp only [List.mem_cons] at hx
          rcases hx with rfl | hx
          · exact hs
          · exact hh x hx))
        omega
      · have := u4 hs; omega

theorem varInt_mono {m n : Nat} (h : m ≤ n) (hn : n < 2 ^ 64) :
    (encodeVarInt (UInt64.ofNat m)).length ≤ (encodeVarInt (UInt64.ofNat n)).length := by
  rw [C01_varint_length, C01_varint_length, UInt64.toNat_ofNat', UInt64.toNat_ofNat', Nat.mod_eq_of_lt hn,
    Nat.mod_eq_of_lt (Nat.lt_of_le_of_lt h hn)]
  repeat (first | omega | split)

theorem Exact.script : Exact script RawScript.encode RawScript.Valid RawScript.Canonical
    (fun r => r.tokens.map tokenOp) where
  read r rest hv := by
    simp only [Codec.script, Codec.bytes, RawScript.encode]
    rw [List.append_assoc, readSize_form _ _ hv.1]
    simp only [Res.bind_ok]
    rw [splitBytes_append rfl]
    simp only [Res.bind_ok]
    rw [deserializeOpsContents_ok.mpr (deserializeOps_tokens r.tokens hv.2)]
    rfl
  inv data v rest hd := by
    simp only [Codec.script, Codec.bytes] at hd
    obtain ⟨⟨code, r1⟩, h1, h2⟩ := Res.bind_eq_ok.mp hd
    obtain ⟨⟨n, r2⟩, h3, h4⟩ := Res.bind_eq_ok.mp h1
    obtain ⟨ops, h5, h6⟩ := Res.bind_eq_ok.mp h2
    simp only [Res.ok.injEq, Prod.mk.injEq] at h6
    obtain ⟨rfl, rfl⟩ := h6
    obtain ⟨e1, e2⟩ := splitBytes_ok h4
    obtain ⟨f, f1, f2⟩ := readSize_inv h3
    obtain ⟨ts, t1, t2, t3⟩ := deserializeOps_ok _ _ (deserializeOpsContents_ok.mp h5)
    dsimp only at e1 e2 t2
    subst t2
    refine ⟨⟨f, ts⟩, ⟨by rw [e2]; exact f1, t1⟩, ?_, t3.symm⟩
    rw [f2, RawScript.encode, e2, List.append_assoc]
    exact congrArg _ e1
  ser r hv := by
    obtain ⟨bs, s1, s2, s3⟩ := serialize_tokens r.tokens hv.2
    obtain ⟨e1, e2⟩ := encodeVarInt_form hv.1
    have hs : Script.serOps (r.tokens.map tokenOp) = some bs := by simp [Script.serOps, s1]
    refine ⟨encodeVarInt (UInt64.ofNat bs.length) ++ bs, by simp [Codec.script, hs, Codec.bytes], fun hc => ?_,
      fun hn => ?_⟩
    · rw [s2 hc.2, e1 hc.1]; rfl
    · have l1 : bs.length ≤ (encodeTokens r.tokens).length := by
        by_cases hc : ∀ t ∈ r.tokens, t.ShortPrefix
        · rw [s2 hc]; exact Nat.le_refl _
        · exact Nat.le_of_lt (s3 hc)
      have l2 := varInt_mono l1 (fits_lt hv.1)
      have l3 : (encodeVarInt (UInt64.ofNat (encodeTokens r.tokens).length)).length ≤
          (r.size.encode (encodeTokens r.tokens).length).length := by
        by_cases hc : r.size.Shortest (encodeTokens r.tokens).length
        · rw [e1 hc]; exact Nat.le_refl _
        · exact Nat.le_of_lt (e2 hc)
      simp only [RawScript.encode, List.length_append]
      by_cases hc : r.size.Shortest (encodeTokens r.tokens).length
      · have := s3 (fun hh => hn ⟨hc, hh⟩)
        omega
      · have := e2 hc; omega

/-! ### Transactions -/

theorem Exact.u32 : Exact Codec.u32 (fun x : UInt32 => leBytes 4 x.toNat) (fun _ => True) (fun _ => True) id :=
  ((Exact.int 4).imap UInt32.ofBitVec UInt32.toBitVec (fun _ => rfl)).rename UInt32.toBitVec UInt32.ofBitVec
    (fun _ => rfl) (fun _ => rfl) (fun _ => Iff.rfl) (fun _ => Iff.rfl) (fun _ => rfl)

theorem Exact.u64 : Exact Codec.u64 (fun x : UInt64 => leBytes 8 x.toNat) (fun _ => True) (fun _ => True) id :=
  ((Exact.int 8).imap UInt64.ofBitVec UInt64.toBitVec (fun _ => rfl)).rename UInt64.toBitVec UInt64.ofBitVec
    (fun _ => rfl) (fun _ => rfl) (fun _ => Iff.rfl) (fun _ => Iff.rfl) (fun _ => rfl)

theorem Exact.i32 : Exact Codec.i32 (fun x : UInt32 => leBytes 4 x.toNat) (fun _ => True) (fun _ => True)
    Int32.ofUInt32 := Exact.u32.imap Int32.ofUInt32 Int32.toUInt32 (fun _ => rfl)

def inputMean (r : RawInput) : TxInput :=
  ⟨⟨r.txid, r.vout⟩, r.script.tokens.map tokenOp, r.sequence, none, none, none, none⟩
def outputMean (r : RawOutput) : TxOutput := ⟨r.value, r.script.tokens.map tokenOp⟩
def txMean (r : RawTx) : UnhashedTx :=
  ⟨Int32.ofUInt32 r.version, r.inputs.map inputMean, r.outputs.map outputMean, r.lockTime⟩

theorem Exact.txInput : Exact Codec.txInput RawInput.encode (fun i => i.script.Valid) (fun i => i.script.Canonical)
    inputMean := by
  unfold Codec.txInput Codec.txOutpoint
  refine Exact.rename (Exact.imap (Exact.seq (Exact.imap (Exact.seq (Exact.fixed 32) Exact.u32) _ _ (fun _ => rfl))
    (Exact.seq Exact.script Exact.u32)) _ _ (fun _ => rfl))
    (fun i : RawInput => ((i.txid, i.vout), i.script, i.sequence))
    (fun p => ⟨p.1.1, p.1.2, p.2.1, p.2.2⟩) (fun _ => rfl) ?_ ?_ ?_ (fun _ => rfl)
  · intro i; simp [RawInput.encode, List.append_assoc]
  · intro i; simp
  · intro i; simp

theorem Exact.txOutput : Exact Codec.txOutput RawOutput.encode (fun i => i.script.Valid)
    (fun i => i.script.Canonical) outputMean := by
  unfold Codec.txOutput
  refine Exact.rename (Exact.imap (Exact.seq Exact.u64 Exact.script) _ _ (fun _ => rfl))
    (fun i : RawOutput => (i.value, i.script)) (fun p => ⟨p.1, p.2⟩) (fun _ => rfl) ?_ ?_ ?_ (fun _ => rfl)
  · intro i; simp [RawOutput.encode]
  · intro i; simp
  · intro i; simp

theorem Exact.unhashedTx (sz : Layout) : Exact (Codec.unhashedTx sz) RawTx.encode (RawTx.Valid sz) RawTx.Canonical
    txMean := by
  unfold Codec.unhashedTx
  refine Exact.rename (Exact.imap (Exact.seq Exact.i32 (Exact.seq (Exact.vec sz.txInput Exact.txInput)
    (Exact.seq (Exact.vec sz.txOutput Exact.txOutput) Exact.u32))) _ _ (fun _ => rfl))
    (fun r : RawTx => (r.version, (r.inputCount, r.inputs), (r.outputCount, r.outputs), r.lockTime))
    (fun p => ⟨p.1, p.2.1.1, p.2.1.2, p.2.2.1.1, p.2.2.1.2, p.2.2.2⟩) (fun _ => rfl) ?_ ?_ ?_ (fun _ => rfl)
  · intro i; simp [RawTx.encode, List.append_assoc]
  · intro i; simp [RawTx.Valid]; tauto
  · intro i; simp [RawTx.Canonical]; tauto

/-! ### What is read -/

theorem tokenReads_mean (t : Token) : TokenReads t (tokenOp t) := by
  cases t with
  | op b =>
    simp only [tokenOp]
    unfold codeOrInvalid
    split
    · rename_i h; subst h; exact .opcode .OP_0
    · split
      · rename_i o ho
        have := toByte_ofByte ho
        rw [← this]; exact .opcode o
      · rename_i hno
        refine .undefined b fun o ho => ?_
        rw [← ho, ofByte_toByte] at hno
        cases hno
  | push f d => exact .push f d _ (by simp)

theorem tokenReads_unique {t : Token} {o : Op Bytes} (h : TokenReads t o) : o = tokenOp t := by
  cases h with
  | opcode o =>
    simp only [tokenOp]
    unfold codeOrInvalid
    split
    · rename_i h
      have : o = .OP_0 := by
        have := ofByte_toByte o
        rw [h] at this
        exact (Option.some.inj (this.symm.trans (by rfl : Opcode.ofByte 0 = some .OP_0)))
      rw [this]
    · rw [ofByte_toByte]
  | undefined b hb =>
    simp only [tokenOp]
    unfold codeOrInvalid
    rw [if_neg (fun h => hb .OP_0 (by rw [h]; rfl))]
    cases ho : Opcode.ofByte b with
    | none => rfl
    | some o => exact absurd (toByte_ofByte ho) (hb o)
  | push f d m hm =>
    simp only [tokenOp, Op.pushByteArray.injEq, true_and]
    cases m
    · simp only [Bool.false_eq_true, false_iff] at hm; simp [hm]
    · simp only [true_iff] at hm; simp [hm]

theorem forall₂_iff_map {α β : Type} {Rel : α → β → Prop} {f : α → β} (h : ∀ a b, Rel a b ↔ b = f a) (l : List α)
    (l' : List β) : List.Forall₂ Rel l l' ↔ l' = l.map f := by
  induction l generalizing l' with
  | nil => cases l' <;> simp
  | cons a l ih => cases l' <;> simp [h, ih]

theorem scriptReads_iff (r : RawScript) (s : Script) : ScriptReads r s ↔ s = r.tokens.map tokenOp :=
  forall₂_iff_map (f := tokenOp) (fun t _ => ⟨tokenReads_unique, fun h => h ▸ tokenReads_mean t⟩) _ _

theorem inputReads_iff (r : RawInput) (i : TxInput) : InputReads r i ↔ i = inputMean r := by
  obtain ⟨⟨h, v⟩, s, q, a, b, c, d⟩ := i
  simp [InputReads, scriptReads_iff, inputMean, and_assoc]

theorem outputReads_iff (r : RawOutput) (o : TxOutput) : OutputReads r o ↔ o = outputMean r := by
  obtain ⟨v, s⟩ := o
  simp [OutputReads, scriptReads_iff, outputMean]

theorem txReads_iff (r : RawTx) (t : UnhashedTx) : TxReads r t ↔ t = txMean r := by
  obtain ⟨v, i, o, l⟩ := t
  simp only [TxReads, txMean, forall₂_iff_map inputReads_iff, forall₂_iff_map outputReads_iff, UnhashedTx.mk.injEq]
  constructor
  · rintro ⟨h1, h2, h3, h4⟩
    exact ⟨by rw [← h1], h2, h3, h4⟩
  · rintro ⟨h1, h2, h3, h4⟩
    exact ⟨by rw [h1], h2, h3, h4⟩

/-! ### Rewriting a value of any type -/

/-- What is read satisfies `V` and is written with at most as many bytes as were read. -/
def Rewrites (c : Codec α) (V : α → Prop) : Prop :=
  ∀ data v rest, c.deserRest data = .ok (v, rest) → V v ∧ ∃ bs, c.ser v = some bs ∧ bs.length + rest.length ≤ data.length

theorem Exact.rewrites {c : Codec α} {enc : R → Bytes} {valid canon : R → Prop} {mean : R → α}
    (h : Exact c enc valid canon mean) {V : α → Prop} (hV : ∀ r, valid r → V (mean r)) : Rewrites c V := by
  intro data v rest hd
  obtain ⟨r, v1, e1, rfl⟩ := h.inv _ _ _ hd
  obtain ⟨bs, s1, c1, n1⟩ := h.ser r v1
  refine ⟨hV r v1, bs, s1, ?_⟩
  rw [e1, List.length_append]
  by_cases hc : canon r
  · rw [c1 hc]; exact Nat.le_refl _
  · have := n1 hc; omega

theorem tokenOp_wellFormed (t : Token) (hv : t.Valid) : (tokenOp t).WellFormed := by
  cases t with
  | op b =>
    simp only [Token.Valid] at hv
    simp only [tokenOp]
    unfold codeOrInvalid
    split
    · exact ⟨by decide, by decide, by decide⟩
    · rename_i h0
      have hb : 0x4f ≤ b.toNat := by
        rcases hv with h | h
        · exact absurd h h0
        · exact h
      split
      · rename_i o ho
        have := toByte_ofByte ho
        refine ⟨?_, ?_, ?_⟩ <;> rintro rfl <;> rw [← this] at hb <;> revert hb <;> decide
      · rename_i hno
        exact ⟨hno, by omega⟩
  | push f d =>
    simp only [tokenOp, Op.WellFormed]
    cases f <;> simp only [Token.Valid] at hv <;> omega

theorem script_ok (r : RawScript) (hv : r.Valid) : Script.Ok (r.tokens.map tokenOp) := by
  refine ⟨?_, fun bs hbs => ?_⟩
  · intro op hop
    obtain ⟨t, ht, rfl⟩ := List.mem_map.mp hop
    exact tokenOp_wellFormed t (hv.2 t ht)
  · obtain ⟨bs', s1, s2, s3⟩ := serialize_tokens r.tokens hv.2
    simp only [Script.serOps, s1, Option.some.injEq] at hbs
    subst hbs
    have := fits_lt hv.1
    by_cases hc : ∀ t ∈ r.tokens, t.ShortPrefix
    · rw [s2 hc]; exact this
    · have := s3 hc; omega

theorem Rewrites.bool : Rewrites Codec.bool (fun _ => True) := by
  intro data v rest hd
  refine ⟨trivial, _, rfl, ?_⟩
  have := Consumes.bool _ _ _ hd
  simp; omega

theorem Rewrites.bytes : Rewrites Codec.bytes (fun v => v.length < 2 ^ 64) := by
  intro data v rest hd
  simp only [Codec.bytes] at hd
  obtain ⟨⟨n, r2⟩, h3, h4⟩ := Res.bind_eq_ok.mp hd
  obtain ⟨e1, e2⟩ := splitBytes_ok h4
  obtain ⟨f, f1, f2⟩ := readSize_inv h3
  dsimp only at e1 e2
  refine ⟨by dsimp only; rw [e2]; exact fits_lt f1, _, rfl, ?_⟩
  obtain ⟨q1, q2⟩ := encodeVarInt_form f1
  have : (encodeVarInt (UInt64.ofNat n)).length ≤ (f.encode n).length := by
    by_cases hc : f.Shortest n
    · rw [q1 hc]; exact Nat.le_refl _
    · exact Nat.le_of_lt (q2 hc)
  rw [f2, e1, e2]
  simp only [List.length_append, e2]
  omega

theorem Rewrites.seq {a : Codec α} {b : Codec β} {V : α → Prop} {W : β → Prop} (ha : Rewrites a V)
    (hb : Rewrites b W) : Rewrites (a.seq b) (fun p => V p.1 ∧ W p.2) := by
  intro data v rest hd
  simp only [Codec.seq] at hd
  obtain ⟨⟨x, r1⟩, h1, h2⟩ := Res.bind_eq_ok.mp hd
  obtain ⟨⟨y, r2⟩, h3, h4⟩ := Res.bind_eq_ok.mp h2
  simp only [Res.ok.injEq, Prod.mk.injEq] at h4
  obtain ⟨rfl, rfl⟩ := h4
  obtain ⟨v1, b1, s1, l1⟩ := ha _ _ _ h1
  obtain ⟨v2, b2, s2, l2⟩ := hb _ _ _ h3
  refine ⟨⟨v1, v2⟩, b1 ++ b2, by simp [Codec.seq, s1, s2], ?_⟩
  rw [List.length_append]
  dsimp only at l1 l2 ⊢
  omega

theorem Rewrites.many {c : Codec α} {V : α → Prop} (h : Rewrites c V) : ∀ (n : Nat) (data : Bytes) (vs : List α)
    (rest : Bytes), c.deserMany n data = .ok (vs, rest) →
    vs.length = n ∧ (∀ v ∈ vs, V v) ∧ ∃ bs, c.serMany vs = some bs ∧ bs.length + rest.length ≤ data.length
  | 0, data, vs, rest, hd => by
    simp only [deserMany, Res.ok.injEq, Prod.mk.injEq] at hd
    obtain ⟨rfl, rfl⟩ := hd
    exact ⟨rfl, by simp, [], rfl, by simp⟩
  | n + 1, data, vs, rest, hd => by
    simp only [deserMany] at hd
    obtain ⟨⟨x, r1⟩, h1, h2⟩ := Res.bind_eq_ok.mp hd
    obtain ⟨⟨xs, r2⟩, h3, h4⟩ := Res.bind_eq_ok.mp h2
    simp only [Res.ok.injEq, Prod.mk.injEq] at h4
    obtain ⟨rfl, rfl⟩ := h4
    obtain ⟨v1, b1, s1, l1⟩ := h _ _ _ h1
    obtain ⟨q1, q2, b2, s2, l2⟩ := Rewrites.many h n _ _ _ h3
    refine ⟨by simp [q1], ?_, b1 ++ b2, by simp [serMany, s1, s2], ?_⟩
    · intro y hy
      simp only [List.mem_cons] at hy
      rcases hy with rfl | hy
      · exact v1
      · exact q2 y hy
    · rw [List.length_append]
      dsimp only at l1 l2 ⊢
      omega

theorem Rewrites.vec {c : Codec α} {V : α → Prop} (sz : Nat) (h : Rewrites c V) :
    Rewrites (vec sz c) (fun vs => VecOk sz vs ∧ ∀ v ∈ vs, V v) := by
  intro data v rest hd
  simp only [Codec.vec] at hd
  obtain ⟨⟨n, r1⟩, h1, h2⟩ := Res.bind_eq_ok.mp hd
  dsimp only at h2
  split at h2
  · cases h2
  · rename_i hsz
    obtain ⟨q1, q2, bs, s1, l1⟩ := h.many _ _ _ _ h2
    obtain ⟨f, f1, f2⟩ := readSize_inv h1
    subst q1
    refine ⟨⟨⟨fits_lt f1, by unfold isizeMax at hsz; omega⟩, q2⟩, encodeVarInt (UInt64.ofNat v.length) ++ bs,
      by simp [Codec.vec, s1], ?_⟩
    obtain ⟨q1, q2⟩ := encodeVarInt_form f1
    have : (encodeVarInt (UInt64.ofNat v.length)).length ≤ (f.encode v.length).length := by
      by_cases hc : f.Shortest v.length
      · rw [q1 hc]; exact Nat.le_refl _
      · exact Nat.le_of_lt (q2 hc)
    rw [f2]
    simp only [List.length_append]
    omega

theorem Rewrites.imap {c : Codec α} {V : α → Prop} {W : β → Prop} (h : Rewrites c V) (pk : α → β) (from_ : β → α)
    (hf : ∀ a, from_ (pk a) = a) (hW : ∀ a, V a → W (pk a)) : Rewrites (c.imap pk from_) W := by
  intro data v rest hd
  simp only [Codec.imap] at hd
  obtain ⟨⟨x, r1⟩, h1, h2⟩ := Res.bind_eq_ok.mp hd
  simp only [Res.ok.injEq, Prod.mk.injEq] at h2
  obtain ⟨rfl, rfl⟩ := h2
  obtain ⟨v1, bs, s1, l1⟩ := h _ _ _ h1
  exact ⟨hW _ v1, bs, by simp only [Codec.imap, hf]; exact s1, l1⟩

theorem Rewrites.script : Rewrites Codec.script Script.Ok := Exact.script.rewrites script_ok

theorem Rewrites.txPreimage : Rewrites Codec.txPreimage (fun p => p.scriptCode.Ok) := by
  have u32 := Exact.u32.rewrites (V := fun _ => True) (fun _ _ => trivial)
  have i32 := Exact.i32.rewrites (V := fun _ => True) (fun _ _ => trivial)
  have u64 := Exact.u64.rewrites (V := fun _ => True) (fun _ _ => trivial)
  have hash := (Exact.fixed 32).rewrites (V := fun _ => True) (fun _ _ => trivial)
  have outpoint : Rewrites Codec.txOutpoint (fun _ => True) := by
    unfold Codec.txOutpoint
    exact (hash.seq u32).imap _ _ (fun _ => rfl) (fun _ _ => trivial)
  unfold Codec.txPreimage
  exact (i32.seq (hash.seq (hash.seq (outpoint.seq (Rewrites.script.seq (u64.seq (u32.seq (hash.seq
    (u32.seq u32))))))))).imap _ _ (fun _ => rfl) (fun _ h => h.2.2.2.2.1)

theorem rewrites (t : Ty) : Rewrites t.codec t.Ok := by
  induction t with
  | int k => exact (Exact.int k).rewrites (fun _ _ => trivial)
  | bool => exact Rewrites.bool
  | bytes => exact Rewrites.bytes
  | fixed n => exact (Exact.fixed n).rewrites (fun _ _ => trivial)
  | script => exact Rewrites.script
  | vec sz t ih => exact Rewrites.vec sz ih
  | struct a b iha ihb => exact iha.seq ihb
  | outpoint =>
    show Rewrites Codec.txOutpoint (fun _ => True)
    unfold Codec.txOutpoint
    exact (((Exact.fixed 32).seq Exact.u32).rewrites (V := fun _ => True) (fun _ _ => trivial)).imap _ _
      (fun _ => rfl) (fun _ _ => trivial)
  | input => exact Exact.txInput.rewrites (fun r hr => script_ok r.script hr)
  | output => exact Exact.txOutput.rewrites (fun r hr => script_ok r.script hr)
  | unhashedTx sz =>
    refine (Exact.unhashedTx sz).rewrites (fun r hr => ?_)
    obtain ⟨h1, h2, h3, h4, h5, h6⟩ := hr
    refine ⟨⟨?_, ?_⟩, ?_, ⟨?_, ?_⟩, ?_⟩
    · simp only [txMean, List.length_map]; exact fits_lt h1
    · simp only [txMean, List.length_map]; omega
    · intro i hi
      obtain ⟨r', hr', rfl⟩ := List.mem_map.mp hi
      exact script_ok _ (h3 r' hr')
    · simp only [txMean, List.length_map]; exact fits_lt h4
    · simp only [txMean, List.length_map]; omega
    · intro i hi
      obtain ⟨r', hr', rfl⟩ := List.mem_map.mp hi
      exact script_ok _ (h6 r' hr')
  | preimage => exact Rewrites.txPreimage
  | tx =>
    show Rewrites Codec.tx (fun v => v.raw.length < 2 ^ 64)
    unfold Codec.tx
    exact Rewrites.bytes.imap _ _ (fun _ => rfl) (fun _ h => h)

theorem script_same {s s' : Script} (h : s.SameParsed s') : Codec.script.ser s' = Codec.script.ser s := by
  simp only [Codec.script, h.2]

theorem input_same {i j : TxInput} (h : i.SameWire j) : Codec.txInput.ser j = Codec.txInput.ser i := by
  obtain ⟨h1, h2, h3, _⟩ := h
  simp only [Codec.txInput, Codec.imap, Codec.seq, h1, h3, script_same h2]

theorem output_same {i j : TxOutput} (h : i.SameWire j) : Codec.txOutput.ser j = Codec.txOutput.ser i := by
  obtain ⟨h1, h2⟩ := h
  simp only [Codec.txOutput, Codec.imap, Codec.seq, h1, script_same h2]

theorem many_same {c : Codec α} {Rel : α → α → Prop} (h : ∀ v w, Rel v w → c.ser w = c.ser v) {vs ws : List α}
    (hr : List.Forall₂ Rel vs ws) : c.serMany ws = c.serMany vs ∧ ws.length = vs.length := by
  induction hr with
  | nil => exact ⟨rfl, rfl⟩
  | cons h1 _ ih => simp [serMany, h _ _ h1, ih.1, ih.2]

theorem same_ser (t : Ty) : ∀ v w : t.Val, t.Same v w → t.codec.ser w = t.codec.ser v := by
  induction t with
  | int k => rintro v w rfl; rfl
  | bool => rintro v w rfl; rfl
  | bytes => rintro v w rfl; rfl
  | fixed n => rintro v w rfl; rfl
  | script => exact fun v w h => script_same h
  | vec sz t ih =>
    intro v w h
    obtain ⟨h1, h2⟩ := many_same ih h
    show (Codec.vec sz t.codec).ser w = (Codec.vec sz t.codec).ser v
    simp only [Codec.vec]
    rw [h1, h2]
  | struct a b iha ihb =>
    intro v w h
    show (a.codec.seq b.codec).ser w = (a.codec.seq b.codec).ser v
    simp only [Codec.seq, iha _ _ h.1, ihb _ _ h.2]
  | outpoint => rintro v w rfl; rfl
  | input => exact fun v w h => input_same h
  | output => exact fun v w h => output_same h
  | unhashedTx sz =>
    rintro v w ⟨h1, h2, h3, h4⟩
    obtain ⟨i1, i2⟩ := many_same (fun _ _ h => input_same h) h2
    obtain ⟨o1, o2⟩ := many_same (fun _ _ h => output_same h) h3
    show (Codec.unhashedTx sz).ser w = (Codec.unhashedTx sz).ser v
    simp only [Codec.unhashedTx, Codec.imap, Codec.seq, Codec.vec, h1, h4, i1, i2, o1, o2]
  | preimage =>
    rintro v w ⟨h1, h2⟩
    show Codec.txPreimage.ser w = Codec.txPreimage.ser v
    rw [h2]
    simp only [Codec.txPreimage, Codec.imap, Codec.seq, script_same h1]
  | tx =>
    rintro v w ⟨h1, _⟩
    show Codec.tx.ser w = Codec.tx.ser v
    simp only [Codec.tx, Codec.imap, h1]

end RawProofs
end BCash
