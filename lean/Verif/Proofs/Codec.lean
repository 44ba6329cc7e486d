import Mathlib.Data.List.Forall2
import Verif.Model.Tx
import Verif.Props.VarInt
import Verif.Props.Script

/-! # Serialisation combinators: closure lemmas -/

namespace BCash
namespace Codec
variable {α β : Type}

/-! ## Predicates on codecs -/

/-- Deserialising the serialisation of a valid value, followed by anything, gives a related value and
exactly what followed. -/
def RoundTrips (c : Codec α) (V : α → Prop) (R : α → α → Prop) : Prop :=
  ∀ v, V v → ∃ bs w, c.ser v = some bs ∧ R v w ∧ ∀ rest, c.deserRest (bs ++ rest) = .ok (w, rest)

/-- Deserialisation consumes a prefix, and does not depend on what follows it. -/
def Local (c : Codec α) : Prop :=
  ∀ bs v rest, c.deserRest bs = .ok (v, rest) →
    ∃ used, bs = used ++ rest ∧ ∀ ext, c.deserRest (used ++ ext) = .ok (v, ext)

/-- Serialisations are prefix-free and determine what `K` sees of the value. -/
def Unambiguous {κ : Type} (c : Codec α) (V : α → Prop) (K : α → κ) : Prop :=
  ∀ v v' b b' r r', V v → V v' → c.ser v = some b → c.ser v' = some b' → b ++ r = b' ++ r' →
    K v = K v' ∧ r = r'

def NoPanic (c : Codec α) : Prop := ∀ bs, c.deserRest bs ≠ .panic

/-- Every decoded value consumes at least one byte. -/
def Consumes (c : Codec α) : Prop :=
  ∀ bs v rest, c.deserRest bs = .ok (v, rest) → rest.length < bs.length

/-! ## Primitives -/

theorem splitBytes_append {x : Bytes} {n : Nat} (h : x.length = n) (rest : Bytes) :
    splitBytes (x ++ rest) n = .ok (x, rest) := by
  subst h; simp [splitBytes]

theorem splitBytes_ok {b l r : Bytes} {n : Nat} (h : splitBytes b n = .ok (l, r)) :
    b = l ++ r ∧ l.length = n := by
  unfold splitBytes at h
  split at h
  · simp at h
  · simp only [Res.ok.injEq, Prod.mk.injEq] at h
    obtain ⟨rfl, rfl⟩ := h
    simp; omega

theorem splitBytes_ne_panic (b : Bytes) (n : Nat) : splitBytes b n ≠ .panic := by
  unfold splitBytes; split <;> simp

theorem readSize_encode (n : Nat) (h : n < 2 ^ 64) (rest : Bytes) :
    readSize (encodeVarInt (UInt64.ofNat n) ++ rest) = .ok (n, rest) := by
  unfold readSize
  rw [readVarInt_encode]
  have : (UInt64.ofNat n).toNat = n := by
    rw [UInt64.toNat_ofNat']; omega
  rw [this]; rfl

theorem readSize_ok {b r : Bytes} {n : Nat} (h : readSize b = .ok (n, r)) :
    readVarInt b = .ok (n, r) := by
  unfold readSize at h
  cases hb : readVarInt b with
  | ok p => rw [hb] at h; simpa using h
  | error e => rw [hb] at h; simp at h

theorem readSize_ne_panic (b : Bytes) : readSize b ≠ .panic := by
  unfold readSize
  cases readVarInt b <;> simp

theorem readSize_local {b r : Bytes} {n : Nat} (h : readSize b = .ok (n, r)) :
    ∃ used, used ≠ [] ∧ b = used ++ r ∧ ∀ ext, readSize (used ++ ext) = .ok (n, ext) := by
  have h1 := readSize_ok h
  obtain ⟨x, xs, hl, hi, hm⟩ := readVarInt_ok h1
  refine ⟨x :: xs, by simp, by simp [hi], fun ext => ?_⟩
  subst hi
  unfold readSize
  rw [List.cons_append, readVarInt_cases]
  rw [readVarInt_cases] at h1
  by_cases c : varIntTail x = 0
  · have : xs = [] := List.eq_nil_of_length_eq_zero (by omega)
    simp [c, hm, this]
  · rw [if_neg c, readLE_append hl]
    simp [hm, c]

/-! ## Round trips -/

theorem RoundTrips.bytes : RoundTrips bytes (fun v => v.length < 2 ^ 64) Eq := by
  intro v hv
  refine ⟨_, v, rfl, rfl, fun rest => ?_⟩
  simp only [Codec.bytes]
  rw [List.append_assoc, readSize_encode _ hv]
  simp only [Res.bind_ok]
  exact splitBytes_append rfl rest

theorem RoundTrips.fixed (n : Nat) : RoundTrips (fixed n) (fun _ => True) Eq := by
  intro v _
  refine ⟨_, v, rfl, rfl, fun rest => ?_⟩
  simp only [Codec.fixed]
  rw [splitBytes_append v.2]
  simp [v.2]

theorem RoundTrips.bool : RoundTrips bool (fun _ => True) Eq := by
  intro v _
  refine ⟨_, v, rfl, rfl, fun rest => ?_⟩
  simp only [Codec.bool]
  rw [splitBytes_append (by rfl)]
  cases v <;> rfl

theorem RoundTrips.int (k : Nat) : RoundTrips (int k) (fun _ => True) Eq := by
  intro v _
  refine ⟨_, v, rfl, rfl, fun rest => ?_⟩
  simp only [Codec.int]
  rw [splitBytes_append (leBytes_length _ _)]
  have hv : v.toNat < 256 ^ k := by
    have := v.isLt
    rwa [show 256 ^ k = 2 ^ (8 * k) by rw [Nat.pow_mul]]
  simp [leBytes_length, leVal_leBytes_of_lt hv]

theorem RoundTrips.seq {a : Codec α} {b : Codec β} {V W R S} (ha : RoundTrips a V R)
    (hb : RoundTrips b W S) :
    RoundTrips (a.seq b) (fun p => V p.1 ∧ W p.2) (fun p q => R p.1 q.1 ∧ S p.2 q.2) := by
  intro v hv
  obtain ⟨b1, w1, h1, r1, d1⟩ := ha v.1 hv.1
  obtain ⟨b2, w2, h2, r2, d2⟩ := hb v.2 hv.2
  refine ⟨b1 ++ b2, (w1, w2), by simp [Codec.seq, h1, h2], ⟨r1, r2⟩, fun rest => ?_⟩
  simp only [Codec.seq]
  rw [List.append_assoc, d1]
  simp only [Res.bind_ok]
  rw [d2]; rfl

theorem RoundTrips.imap {c : Codec α} {V R} {pk : α → β} {from_ : β → α} {V' : β → Prop}
    {R' : β → β → Prop} (hc : RoundTrips c V R) (hV : ∀ v, V' v → V (from_ v))
    (hR : ∀ v w, R (from_ v) w → R' v (pk w)) : RoundTrips (c.imap pk from_) V' R' := by
  intro v hv
  obtain ⟨bs, w, h1, r1, d1⟩ := hc (from_ v) (hV v hv)
  refine ⟨bs, pk w, h1, hR v w r1, fun rest => ?_⟩
  simp only [Codec.imap]
  rw [d1]; rfl

theorem RoundTrips.mono {c : Codec α} {V V' R R'} (hc : RoundTrips c V R) (hV : ∀ v, V' v → V v)
    (hR : ∀ v w, V' v → R v w → R' v w) : RoundTrips c V' R' := by
  intro v hv
  obtain ⟨bs, w, h1, r1, d1⟩ := hc v (hV v hv)
  exact ⟨bs, w, h1, hR v w hv r1, d1⟩

theorem RoundTrips.many {c : Codec α} {V R} (hc : RoundTrips c V R) (vs : List α)
    (hv : ∀ v ∈ vs, V v) : ∃ bs ws, c.serMany vs = some bs ∧ List.Forall₂ R vs ws ∧
      ∀ rest, c.deserMany vs.length (bs ++ rest) = .ok (ws, rest) := by
  induction vs with
  | nil => exact ⟨[], [], rfl, .nil, fun _ => rfl⟩
  | cons v vs ih =>
    obtain ⟨b1, w1, h1, r1, d1⟩ := hc v (hv v (by simp))
    obtain ⟨b2, ws, h2, r2, d2⟩ := ih (fun x hx => hv x (by simp [hx]))
    refine ⟨b1 ++ b2, w1 :: ws, by simp [serMany, h1, h2], .cons r1 r2, fun rest => ?_⟩
    simp only [List.length_cons, deserMany]
    rw [List.append_assoc, d1]
    simp only [Res.bind_ok]
    rw [d2]; rfl

theorem RoundTrips.vec {c : Codec α} {V R} (sz : Nat) (hc : RoundTrips c V R) :
    RoundTrips (vec sz c)
      (fun vs => vs.length < 2 ^ 64 ∧ vs.length * sz ≤ isizeMax ∧ ∀ v ∈ vs, V v)
      (List.Forall₂ R) := by
  intro vs hv
  obtain ⟨bs, ws, h1, r1, d1⟩ := hc.many vs hv.2.2
  refine ⟨encodeVarInt (UInt64.ofNat vs.length) ++ bs, ws, by simp [Codec.vec, h1], r1, fun rest => ?_⟩
  simp only [Codec.vec]
  rw [List.append_assoc, readSize_encode _ hv.1]
  simp only [Res.bind_ok]
  rw [if_neg (by omega), d1]

theorem deserializeOpsContents_cases (code : Bytes) :
    (∃ ops, deserializeOpsContents code = .ok ops ∧ deserializeOps code = .ok ops) ∨
    (∃ e e', deserializeOpsContents code = .err e ∧ deserializeOps code = .err e') := by
  unfold deserializeOpsContents
  rcases C21_parsers_agree (.newUnnamed code) with ⟨ops, h1, h2⟩ | ⟨e, e', h1, h2⟩
  · rw [h1]; exact .inl ⟨_, rfl, h2⟩
  · rw [h1]; exact .inr ⟨_, _, rfl, h2⟩

theorem deserializeOpsContents_ok {code : Bytes} {ops : List (Op Bytes)} :
    deserializeOpsContents code = .ok ops ↔ deserializeOps code = .ok ops := by
  rcases deserializeOpsContents_cases code with ⟨ops', h1, h2⟩ | ⟨e, e', h1, h2⟩
  · rw [h1, h2]
  · rw [h1, h2]; simp

theorem RoundTrips.script : RoundTrips script
    (fun s => (∀ op ∈ s, op.WellFormed) ∧ ∀ bs, s.serOps = some bs → bs.length < 2 ^ 64)
    (fun s s' => List.Forall₂ ParsedAs s s' ∧ s'.serOps = s.serOps) := by
  intro s hs
  obtain ⟨bs, ops', h1, h2, h3, h4⟩ := C18_ops_roundtrip s hs.1
  have e1 : s.serOps = some bs := by simp [Script.serOps, h1]
  have e2 : Script.serOps ops' = some bs := by simp [Script.serOps, h4]
  obtain ⟨cs, w, c1, c2, c3⟩ := RoundTrips.bytes bs (hs.2 bs e1)
  subst c2
  refine ⟨cs, ops', by simp [Codec.script, e1, c1], ⟨h3, by rw [e1, e2]⟩, fun rest => ?_⟩
  simp only [Codec.script]
  rw [c3]
  simp only [Res.bind_ok]
  rw [deserializeOpsContents_ok.mpr h2]; rfl

/-! ## Locality -/

theorem Local.splitBytes {b l r : Bytes} {n : Nat} (h : splitBytes b n = .ok (l, r)) :
    b = l ++ r ∧ ∀ ext, BCash.splitBytes (l ++ ext) n = .ok (l, ext) := by
  obtain ⟨h1, h2⟩ := splitBytes_ok h
  exact ⟨h1, fun ext => splitBytes_append h2 ext⟩

theorem Local.bytes : Local bytes := by
  intro bs v rest h
  simp only [Codec.bytes] at h
  obtain ⟨⟨n, r⟩, h1, h2⟩ := Res.bind_eq_ok.mp h
  obtain ⟨used, _, e, d⟩ := readSize_local h1
  obtain ⟨e2, d2⟩ := Local.splitBytes h2
  refine ⟨used ++ v, by rw [e, List.append_assoc]; exact congrArg _ e2, fun ext => ?_⟩
  simp only [Codec.bytes]
  rw [List.append_assoc, d]
  exact d2 ext

theorem Local.fixed (n : Nat) : Local (fixed n) := by
  intro bs v rest h
  simp only [Codec.fixed] at h
  obtain ⟨⟨l, r⟩, h1, h2⟩ := Res.bind_eq_ok.mp h
  obtain ⟨e, d⟩ := Local.splitBytes h1
  obtain ⟨_, hl⟩ := splitBytes_ok h1
  simp only [hl, dite_true, Res.ok.injEq, Prod.mk.injEq] at h2
  obtain ⟨rfl, rfl⟩ := h2
  refine ⟨l, e, fun ext => ?_⟩
  simp only [Codec.fixed]
  rw [d]; simp [hl]

theorem Local.bool : Local bool := by
  intro bs v rest h
  simp only [Codec.bool] at h
  obtain ⟨⟨l, r⟩, h1, h2⟩ := Res.bind_eq_ok.mp h
  obtain ⟨e, d⟩ := Local.splitBytes h1
  cases l with
  | nil => simp at h2
  | cons x tl =>
    simp only [Res.ok.injEq, Prod.mk.injEq] at h2
    obtain ⟨rfl, rfl⟩ := h2
    refine ⟨x :: tl, e, fun ext => ?_⟩
    simp only [Codec.bool]
    rw [d]; rfl

theorem Local.int (k : Nat) : Local (int k) := by
  intro bs v rest h
  simp only [Codec.int] at h
  obtain ⟨⟨l, r⟩, h1, h2⟩ := Res.bind_eq_ok.mp h
  obtain ⟨e, d⟩ := Local.splitBytes h1
  obtain ⟨_, hl⟩ := splitBytes_ok h1
  simp only [hl, ne_eq, not_true, if_false, Res.ok.injEq, Prod.mk.injEq] at h2
  obtain ⟨rfl, rfl⟩ := h2
  refine ⟨l, e, fun ext => ?_⟩
  simp only [Codec.int]
  rw [d]; simp [hl]

theorem Local.seq {a : Codec α} {b : Codec β} (ha : Local a) (hb : Local b) : Local (a.seq b) := by
  intro bs v rest h
  simp only [Codec.seq] at h
  obtain ⟨⟨x, r1⟩, h1, h2⟩ := Res.bind_eq_ok.mp h
  obtain ⟨⟨y, r2⟩, h3, h4⟩ := Res.bind_eq_ok.mp h2
  obtain ⟨u1, e1, d1⟩ := ha _ _ _ h1
  obtain ⟨u2, e2, d2⟩ := hb _ _ _ h3
  simp only [Res.ok.injEq, Prod.mk.injEq] at h4
  obtain ⟨rfl, rfl⟩ := h4
  refine ⟨u1 ++ u2, by rw [e1, List.append_assoc]; exact congrArg _ e2, fun ext => ?_⟩
  simp only [Codec.seq]
  rw [List.append_assoc, d1]
  simp only [Res.bind_ok]
  rw [d2]; rfl

theorem Local.imap {c : Codec α} (hc : Local c) (pk : α → β) (from_ : β → α) :
    Local (c.imap pk from_) := by
  intro bs v rest h
  simp only [Codec.imap] at h
  obtain ⟨⟨x, r1⟩, h1, h2⟩ := Res.bind_eq_ok.mp h
  obtain ⟨u1, e1, d1⟩ := hc _ _ _ h1
  simp only [Res.ok.injEq, Prod.mk.injEq] at h2
  obtain ⟨rfl, rfl⟩ := h2
  refine ⟨u1, e1, fun ext => ?_⟩
  simp only [Codec.imap]
  rw [d1]; rfl

theorem Local.many {c : Codec α} (hc : Local c) (n : Nat) :
    ∀ bs vs rest, c.deserMany n bs = .ok (vs, rest) →
      ∃ used, bs = used ++ rest ∧ ∀ ext, c.deserMany n (used ++ ext) = .ok (vs, ext) := by
  induction n with
  | zero =>
    intro bs vs rest h
    simp only [deserMany, Res.ok.injEq, Prod.mk.injEq] at h
    obtain ⟨rfl, rfl⟩ := h
    exact ⟨[], rfl, fun _ => rfl⟩
  | succ n ih =>
    intro bs vs rest h
    simp only [deserMany] at h
    obtain ⟨⟨x, r1⟩, h1, h2⟩ := Res.bind_eq_ok.mp h
    obtain ⟨⟨y, r2⟩, h3, h4⟩ := Res.bind_eq_ok.mp h2
    obtain ⟨u1, e1, d1⟩ := hc _ _ _ h1
    obtain ⟨u2, e2, d2⟩ := ih _ _ _ h3
    simp only [Res.ok.injEq, Prod.mk.injEq] at h4
    obtain ⟨rfl, rfl⟩ := h4
    refine ⟨u1 ++ u2, by rw [e1, List.append_assoc]; exact congrArg _ e2, fun ext => ?_⟩
    simp only [deserMany]
    rw [List.append_assoc, d1]
    simp only [Res.bind_ok]
    rw [d2]; rfl

theorem Local.vec {c : Codec α} (sz : Nat) (hc : Local c) : Local (vec sz c) := by
  intro bs v rest h
  simp only [Codec.vec] at h
  obtain ⟨⟨n, r⟩, h1, h2⟩ := Res.bind_eq_ok.mp h
  obtain ⟨used, _, e, d⟩ := readSize_local h1
  simp only at h2
  split at h2
  · cases h2
  · next hsz =>
    obtain ⟨u2, e2, d2⟩ := hc.many n _ _ _ h2
    refine ⟨used ++ u2, by rw [e, List.append_assoc]; exact congrArg _ e2, fun ext => ?_⟩
    simp only [Codec.vec]
    rw [List.append_assoc, d]
    simp only [Res.bind_ok]
    rw [if_neg hsz, d2]

theorem Local.script : Local script := by
  intro bs v rest h
  simp only [Codec.script] at h
  obtain ⟨⟨x, r1⟩, h1, h2⟩ := Res.bind_eq_ok.mp h
  obtain ⟨ops, h3, h4⟩ := Res.bind_eq_ok.mp h2
  obtain ⟨u1, e1, d1⟩ := Local.bytes _ _ _ h1
  simp only [Res.ok.injEq, Prod.mk.injEq] at h4
  obtain ⟨rfl, rfl⟩ := h4
  refine ⟨u1, e1, fun ext => ?_⟩
  simp only [Codec.script]
  rw [d1]
  simp only [Res.bind_ok]
  rw [h3]; rfl

/-! ## Unambiguity -/

theorem Unambiguous.ofRoundTrip {c : Codec α} {V} (h : RoundTrips c V Eq) : Unambiguous c V id := by
  intro v v' b b' r r' hv hv' hb hb' he
  obtain ⟨x, w, h1, h2, h3⟩ := h v hv
  obtain ⟨x', w', h1', h2', h3'⟩ := h v' hv'
  subst h2; subst h2'
  rw [hb] at h1; rw [hb'] at h1'
  simp only [Option.some.injEq] at h1 h1'
  subst h1; subst h1'
  have := h3 r
  rw [he, h3'] at this
  simp only [Res.ok.injEq, Prod.mk.injEq] at this
  exact ⟨this.1.symm, this.2.symm⟩

theorem Unambiguous.seq {κ κ' : Type} {a : Codec α} {b : Codec β} {V W} {K : α → κ} {L : β → κ'}
    (ha : Unambiguous a V K) (hb : Unambiguous b W L) :
    Unambiguous (a.seq b) (fun p => V p.1 ∧ W p.2) (fun p => (K p.1, L p.2)) := by
  intro v v' x x' r r' hv hv' hx hx' he
  simp only [Codec.seq] at hx hx'
  obtain ⟨x1, e1, hx⟩ := Option.bind_eq_some_iff.mp hx
  obtain ⟨x2, e2, hx⟩ := Option.bind_eq_some_iff.mp hx
  obtain ⟨y1, f1, hx'⟩ := Option.bind_eq_some_iff.mp hx'
  obtain ⟨y2, f2, hx'⟩ := Option.bind_eq_some_iff.mp hx'
  simp only [Option.some.injEq] at hx hx'
  subst hx; subst hx'
  rw [List.append_assoc, List.append_assoc] at he
  obtain ⟨g1, g2⟩ := ha _ _ _ _ _ _ hv.1 hv'.1 e1 f1 he
  obtain ⟨g3, g4⟩ := hb _ _ _ _ _ _ hv.2 hv'.2 e2 f2 g2
  exact ⟨by simp only [g1, g3], g4⟩

theorem Unambiguous.imap {κ κ' : Type} {c : Codec α} {V : α → Prop} {K : α → κ} {pk : α → β}
    {from_ : β → α} {V' : β → Prop} {K' : β → κ'} (hc : Unambiguous c V K)
    (hV : ∀ v, V' v → V (from_ v)) (hK : ∀ v v', K (from_ v) = K (from_ v') → K' v = K' v') :
    Unambiguous (c.imap pk from_) V' K' := by
  intro v v' x x' r r' hv hv' hx hx' he
  obtain ⟨g1, g2⟩ := hc _ _ _ _ _ _ (hV _ hv) (hV _ hv') hx hx' he
  exact ⟨hK _ _ g1, g2⟩

theorem Unambiguous.many {κ : Type} {c : Codec α} {V : α → Prop} {K : α → κ}
    (hc : Unambiguous c V K) (vs : List α) :
    ∀ vs' b b' r r', vs.length = vs'.length → (∀ v ∈ vs, V v) → (∀ v ∈ vs', V v) →
      c.serMany vs = some b → c.serMany vs' = some b' → b ++ r = b' ++ r' →
      vs.map K = vs'.map K ∧ r = r' := by
  induction vs with
  | nil =>
    intro vs' b b' r r' hl _ _ hb hb' he
    cases vs' with
    | nil =>
      simp only [serMany, Option.some.injEq] at hb hb'
      subst hb; subst hb'
      exact ⟨rfl, by simpa using he⟩
    | cons _ _ => simp at hl
  | cons v vs ih =>
    intro vs' b b' r r' hl hv hv' hb hb' he
    cases vs' with
    | nil => simp at hl
    | cons v' vs' =>
      simp only [serMany] at hb hb'
      obtain ⟨x1, e1, hx⟩ := Option.bind_eq_some_iff.mp hb
      obtain ⟨x2, e2, hx⟩ := Option.bind_eq_some_iff.mp hx
      obtain ⟨y1, f1, hx'⟩ := Option.bind_eq_some_iff.mp hb'
      obtain ⟨y2, f2, hx'⟩ := Option.bind_eq_some_iff.mp hx'
      simp only [Option.some.injEq] at hx hx'
      subst hx; subst hx'
      rw [List.append_assoc, List.append_assoc] at he
      obtain ⟨g1, g2⟩ := hc _ _ _ _ _ _ (hv v (by simp)) (hv' v' (by simp)) e1 f1 he
      obtain ⟨g3, g4⟩ := ih vs' _ _ _ _ (by simpa using hl) (fun x hx => hv x (by simp [hx]))
        (fun x hx => hv' x (by simp [hx])) e2 f2 g2
      exact ⟨by simp [g1, g3], g4⟩

theorem Unambiguous.vec {κ : Type} {c : Codec α} {V : α → Prop} {K : α → κ} (sz : Nat)
    (hc : Unambiguous c V K) :
    Unambiguous (vec sz c) (fun vs => vs.length < 2 ^ 64 ∧ ∀ v ∈ vs, V v) (List.map K) := by
  intro v v' x x' r r' hv hv' hx hx' he
  simp only [Codec.vec] at hx hx'
  obtain ⟨x1, e1, hx⟩ := Option.bind_eq_some_iff.mp hx
  obtain ⟨y1, f1, hx'⟩ := Option.bind_eq_some_iff.mp hx'
  simp only [Option.some.injEq] at hx hx'
  subst hx; subst hx'
  rw [List.append_assoc, List.append_assoc] at he
  have h1 := readSize_encode v.length hv.1 (x1 ++ r)
  rw [he, readSize_encode v'.length hv'.1] at h1
  simp only [Res.ok.injEq, Prod.mk.injEq] at h1
  exact Unambiguous.many hc v v' _ _ _ _ h1.1.symm hv.2 hv'.2 e1 f1 h1.2.symm

theorem Unambiguous.script : Unambiguous script
    (fun s => ∀ bs, s.serOps = some bs → bs.length < 2 ^ 64) Script.serOps := by
  intro v v' x x' r r' hv hv' hx hx' he
  simp only [Codec.script] at hx hx'
  obtain ⟨x1, e1, hx⟩ := Option.bind_eq_some_iff.mp hx
  obtain ⟨y1, f1, hx'⟩ := Option.bind_eq_some_iff.mp hx'
  obtain ⟨g1, g2⟩ := Unambiguous.ofRoundTrip RoundTrips.bytes _ _ _ _ _ _ (hv x1 e1) (hv' y1 f1)
    hx hx' he
  simp only [id] at g1
  exact ⟨by rw [e1, f1, g1], g2⟩

/-! ## Panics -/

theorem NoPanic.bytes : NoPanic bytes := by
  intro bs h
  simp only [Codec.bytes] at h
  cases h1 : readSize bs with
  | ok p => rw [h1] at h; exact splitBytes_ne_panic _ _ h
  | err e => rw [h1] at h; simp at h
  | panic => exact readSize_ne_panic _ h1

theorem NoPanic.fixed (n : Nat) : NoPanic (fixed n) := by
  intro bs h
  simp only [Codec.fixed] at h
  cases h1 : splitBytes bs n with
  | ok p => rw [h1] at h; simp only [Res.bind_ok] at h; split at h <;> simp at h
  | err e => rw [h1] at h; simp at h
  | panic => exact splitBytes_ne_panic _ _ h1

theorem NoPanic.bool : NoPanic bool := by
  intro bs h
  simp only [Codec.bool] at h
  cases h1 : splitBytes bs 1 with
  | ok p =>
    obtain ⟨l, r⟩ := p
    have := (splitBytes_ok h1).2
    rw [h1] at h
    cases l with
    | nil => simp at this
    | cons x tl => simp at h
  | err e => rw [h1] at h; simp at h
  | panic => exact splitBytes_ne_panic _ _ h1

theorem NoPanic.int (k : Nat) : NoPanic (int k) := by
  intro bs h
  simp only [Codec.int] at h
  cases h1 : splitBytes bs k with
  | ok p =>
    have := (splitBytes_ok h1).2
    rw [h1] at h
    simp [this] at h
  | err e => rw [h1] at h; simp at h
  | panic => exact splitBytes_ne_panic _ _ h1

theorem NoPanic.seq {a : Codec α} {b : Codec β} (ha : NoPanic a) (hb : NoPanic b) :
    NoPanic (a.seq b) := by
  intro bs h
  simp only [Codec.seq] at h
  cases h1 : a.deserRest bs with
  | ok p =>
    rw [h1] at h
    simp only [Res.bind_ok] at h
    cases h2 : b.deserRest p.2 with
    | ok q => rw [h2] at h; simp at h
    | err e => rw [h2] at h; simp at h
    | panic => exact hb _ h2
  | err e => rw [h1] at h; simp at h
  | panic => exact ha _ h1

theorem NoPanic.imap {c : Codec α} (hc : NoPanic c) (pk : α → β) (from_ : β → α) :
    NoPanic (c.imap pk from_) := by
  intro bs h
  simp only [Codec.imap] at h
  cases h1 : c.deserRest bs with
  | ok p => rw [h1] at h; simp at h
  | err e => rw [h1] at h; simp at h
  | panic => exact hc _ h1

theorem NoPanic.script : NoPanic script := by
  intro bs h
  simp only [Codec.script] at h
  cases h1 : Codec.bytes.deserRest bs with
  | ok p =>
    rw [h1] at h
    simp only [Res.bind_ok] at h
    rcases deserializeOpsContents_cases p.1 with ⟨_, h2, _⟩ | ⟨_, _, h2, _⟩ <;> rw [h2] at h <;> simp at h
  | err e => rw [h1] at h; simp at h
  | panic => exact NoPanic.bytes _ h1

theorem NoPanic.many {c : Codec α} (hc : NoPanic c) (n : Nat) (bs : Bytes) :
    c.deserMany n bs ≠ .panic := by
  induction n generalizing bs with
  | zero => simp [deserMany]
  | succ n ih =>
    intro h
    simp only [deserMany] at h
    cases h1 : c.deserRest bs with
    | ok p =>
      rw [h1] at h
      simp only [Res.bind_ok] at h
      cases h2 : c.deserMany n p.2 with
      | ok q => rw [h2] at h; simp at h
      | err e => rw [h2] at h; simp at h
      | panic => exact ih _ h2
    | err e => rw [h1] at h; simp at h
    | panic => exact hc _ h1

theorem vec_panic_iff {c : Codec α} (hc : NoPanic c) (sz : Nat) (bs : Bytes) :
    (vec sz c).deserRest bs = .panic ↔
      ∃ n rest, readVarInt bs = .ok (n, rest) ∧ n * sz > isizeMax := by
  simp only [Codec.vec, readSize]
  cases h1 : readVarInt bs with
  | error e => simp
  | ok p =>
    simp only [Res.ofExcept_ok, Res.bind_ok, Except.ok.injEq]
    split
    · next h => simp only [true_iff]; exact ⟨p.1, p.2, rfl, h⟩
    · next h =>
      constructor
      · intro h2; exact absurd h2 (hc.many _ _)
      · rintro ⟨n, r, rfl, h2⟩; exact absurd h2 h

/-! ## Progress -/

theorem Consumes.of_local {c : Codec α} (hl : Local c)
    (h : ∀ v rest, c.deserRest rest ≠ .ok (v, rest)) : Consumes c := by
  intro bs v rest hd
  obtain ⟨used, e, d⟩ := hl _ _ _ hd
  cases used with
  | nil => exact absurd (by simpa using d rest) (h v rest)
  | cons x tl => subst e; simp; omega

theorem readSize_lt {b r : Bytes} {n : Nat} (h : readSize b = .ok (n, r)) : r.length < b.length := by
  obtain ⟨used, h1, rfl, _⟩ := readSize_local h
  cases used with
  | nil => exact absurd rfl h1
  | cons x tl => simp; omega

theorem splitBytes_len {b l r : Bytes} {n : Nat} (h : splitBytes b n = .ok (l, r)) :
    b.length = n + r.length := by
  obtain ⟨rfl, h1⟩ := splitBytes_ok h
  simp [h1]

theorem deserRest_le {c : Codec α} (hl : Local c) {bs rest : Bytes} {v : α}
    (h : c.deserRest bs = .ok (v, rest)) : rest.length ≤ bs.length := by
  obtain ⟨used, rfl, _⟩ := hl _ _ _ h
  simp

theorem Consumes.bytes : Consumes bytes := by
  intro bs v rest h
  simp only [Codec.bytes] at h
  obtain ⟨⟨n, r⟩, h1, h2⟩ := Res.bind_eq_ok.mp h
  have := readSize_lt h1
  have := splitBytes_len h2
  dsimp only at *
  omega

theorem Consumes.fixed {n : Nat} (hn : 0 < n) : Consumes (fixed n) := by
  intro bs v rest h
  simp only [Codec.fixed] at h
  obtain ⟨⟨l, r⟩, h1, h2⟩ := Res.bind_eq_ok.mp h
  have := splitBytes_len h1
  have hl := (splitBytes_ok h1).2
  simp only [hl, dite_true, Res.ok.injEq, Prod.mk.injEq] at h2
  obtain ⟨rfl, rfl⟩ := h2
  omega

theorem Consumes.int {n : Nat} (hn : 0 < n) : Consumes (int n) := by
  intro bs v rest h
  simp only [Codec.int] at h
  obtain ⟨⟨l, r⟩, h1, h2⟩ := Res.bind_eq_ok.mp h
  have := splitBytes_len h1
  have hl := (splitBytes_ok h1).2
  simp only [hl, ne_eq, not_true, if_false, Res.ok.injEq, Prod.mk.injEq] at h2
  obtain ⟨rfl, rfl⟩ := h2
  omega

theorem Consumes.bool : Consumes bool := by
  intro bs v rest h
  simp only [Codec.bool] at h
  obtain ⟨⟨l, r⟩, h1, h2⟩ := Res.bind_eq_ok.mp h
  have := splitBytes_len h1
  cases l with
  | nil => simp at h2
  | cons x tl =>
    simp only [Res.ok.injEq, Prod.mk.injEq] at h2
    obtain ⟨rfl, rfl⟩ := h2
    omega

theorem Consumes.script : Consumes script := by
  intro bs v rest h
  simp only [Codec.script] at h
  obtain ⟨⟨x, r1⟩, h1, h2⟩ := Res.bind_eq_ok.mp h
  obtain ⟨ops, h3, h4⟩ := Res.bind_eq_ok.mp h2
  have := Consumes.bytes _ _ _ h1
  simp only [Res.ok.injEq, Prod.mk.injEq] at h4
  obtain ⟨rfl, rfl⟩ := h4
  omega

theorem Consumes.vec {c : Codec α} (hl : Local c) (sz : Nat) : Consumes (vec sz c) := by
  intro bs v rest h
  simp only [Codec.vec] at h
  obtain ⟨⟨n, r⟩, h1, h2⟩ := Res.bind_eq_ok.mp h
  have h3 := readSize_lt h1
  simp only at h2
  split at h2
  · cases h2
  · obtain ⟨u, e, _⟩ := hl.many n _ _ _ h2
    subst e
    simp at h3
    omega

theorem Consumes.seq_left {a : Codec α} {b : Codec β} (ha : Consumes a) (hb : Local b) :
    Consumes (a.seq b) := by
  intro bs v rest h
  simp only [Codec.seq] at h
  obtain ⟨⟨x, r1⟩, h1, h2⟩ := Res.bind_eq_ok.mp h
  obtain ⟨⟨y, r2⟩, h3, h4⟩ := Res.bind_eq_ok.mp h2
  have := ha _ _ _ h1
  have := deserRest_le hb h3
  dsimp only at *
  simp only [Res.ok.injEq, Prod.mk.injEq] at h4
  obtain ⟨rfl, rfl⟩ := h4
  omega

theorem Consumes.seq_right {a : Codec α} {b : Codec β} (ha : Local a) (hb : Consumes b) :
    Consumes (a.seq b) := by
  intro bs v rest h
  simp only [Codec.seq] at h
  obtain ⟨⟨x, r1⟩, h1, h2⟩ := Res.bind_eq_ok.mp h
  obtain ⟨⟨y, r2⟩, h3, h4⟩ := Res.bind_eq_ok.mp h2
  have := deserRest_le ha h1
  have := hb _ _ _ h3
  dsimp only at *
  simp only [Res.ok.injEq, Prod.mk.injEq] at h4
  obtain ⟨rfl, rfl⟩ := h4
  omega

theorem Consumes.imap {c : Codec α} (hc : Consumes c) (pk : α → β) (from_ : β → α) :
    Consumes (c.imap pk from_) := by
  intro bs v rest h
  simp only [Codec.imap] at h
  obtain ⟨⟨x, r1⟩, h1, h2⟩ := Res.bind_eq_ok.mp h
  simp only [Res.ok.injEq, Prod.mk.injEq] at h2
  obtain ⟨rfl, rfl⟩ := h2
  exact hc _ _ _ h1

end Codec
end BCash
