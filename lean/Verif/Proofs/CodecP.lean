import Verif.Model.CodecP
import Verif.Proofs.Codec

/-! # The codecs with provenance agree with the codecs on contents -/

namespace BCash

/-- Spec: two outcomes agree: both succeed with related results, both fail with the same error, or both
panic. -/
inductive Spec.Agree {ε α β : Type} (R : α → β → Prop) : Res ε α → Res ε β → Prop
  | ok {a b} : R a b → Spec.Agree R (.ok a) (.ok b)
  | err (e) : Spec.Agree R (.err e) (.err e)
  | panic : Spec.Agree R .panic .panic

open Spec

theorem Spec.Agree.bind {ε α β γ δ : Type} {R : α → β → Prop} {S : γ → δ → Prop} {x : Res ε α} {y : Res ε β}
    {f : α → Res ε γ} {g : β → Res ε δ} (h : Agree R x y) (hf : ∀ a b, R a b → Agree S (f a) (g b)) :
    Agree S (x.bind f) (y.bind g) := by
  cases h with
  | ok hab => exact hf _ _ hab
  | err e => exact .err e
  | panic => exact .panic

theorem Spec.Agree.refl {ε α : Type} {R : α → α → Prop} (hR : ∀ a, R a a) (x : Res ε α) : Agree R x x := by
  cases x with
  | ok a => exact .ok (hR a)
  | err e => exact .err e
  | panic => exact .panic

theorem Spec.Agree.mono {ε α β : Type} {R S : α → β → Prop} {x : Res ε α} {y : Res ε β} (h : Agree R x y)
    (hRS : ∀ a b, R a b → S a b) : Agree S x y := by
  cases h with
  | ok hab => exact .ok (hRS _ _ hab)
  | err e => exact .err e
  | panic => exact .panic

/-- through a common contents-level outcome -/
theorem Spec.Agree.join {ε α β γ : Type} {R : α → γ → Prop} {S : β → γ → Prop} {T : α → β → Prop}
    {x : Res ε α} {y : Res ε β} {z : Res ε γ} (h1 : Agree R x z) (h2 : Agree S y z)
    (h : ∀ a b c, R a c → S b c → T a b) : Agree T x y := by
  cases h1 with
  | ok hac => cases h2 with | ok hbc => exact .ok (h _ _ _ hac hbc)
  | err e => cases h2; exact .err e
  | panic => cases h2; exact .panic

/-- The same contents. -/
def SameData (a : ByteArray) (b : Bytes) : Prop := a.data = b

theorem splitE_bytes (b : ByteArray) (n : Nat) :
    Agree (fun x y => x.1.data = y.1 ∧ x.2.data = y.2) (b.splitE n) (splitBytes b.data n) := by
  unfold ByteArray.splitE splitBytes
  by_cases h : b.data.length < n
  · rw [ByteArray.split_err b n h, if_pos h]; exact .err _
  · obtain ⟨l, r, h1, h2, h3⟩ := ByteArray.split_ok b n (by omega)
    rw [h1, if_neg h]
    exact .ok ⟨h2, h3⟩

theorem readSizeP_bytes (b : ByteArray) :
    Agree (fun x y => x.1 = y.1 ∧ x.2.data = y.2) (readSizeP b) (readSize b.data) := by
  unfold readSizeP
  cases h : readVarInt b.data with
  | error e => unfold readSize; rw [h]; exact .err _
  | ok p =>
    obtain ⟨n, r⟩ := p
    have hr : readSize b.data = .ok (n, r) := by unfold readSize; rw [h]; rfl
    obtain ⟨used, _, hu, _⟩ := Codec.readSize_local hr
    rw [hr]
    simp only [Res.ofExcept_ok, Res.bind_ok]
    have hlen : b.len - r.length = used.length := by unfold ByteArray.len; rw [hu]; simp
    rw [hlen]
    obtain ⟨l, r', h1, h2, h3⟩ := ByteArray.split_ok b used.length (by rw [hu]; simp)
    unfold ByteArray.splitE
    rw [h1]
    simp only [Res.ofExcept_ok, Res.bind_ok]
    refine .ok ⟨rfl, ?_⟩
    rw [h3, hu, List.drop_left']
    rfl

/-! ## The parser of scripts -/

theorem splitE_congr {a b : ByteArray} (h : a.data = b.data) (n : Nat) :
    Agree (fun x y => x.1.data = y.1.data ∧ x.2.data = y.2.data) (a.splitE n) (b.splitE n) :=
  (splitE_bytes a n).join (by rw [h]; exact splitE_bytes b n)
    (by rintro x y z ⟨h1, h2⟩ ⟨h3, h4⟩; exact ⟨by rw [h1, h3], by rw [h2, h4]⟩)

/-- operation and rest, up to provenance -/
def SameOpP (x y : Op ByteArray × ByteArray) : Prop :=
  x.1.map ByteArray.data = y.1.map ByteArray.data ∧ x.2.data = y.2.data

theorem deserializeOpBA_congr {a b : ByteArray} (h : a.data = b.data) :
    Agree SameOpP (deserializeOpBA a) (deserializeOpBA b) := by
  unfold deserializeOpBA
  refine (splitE_congr h 1).bind ?_
  rintro ⟨l, r⟩ ⟨l', r'⟩ ⟨h1, h2⟩
  dsimp only at h1 h2 ⊢
  rw [h1]
  split
  · exact .panic
  · next byte tl _ =>
    have push : ∀ (n : Nat) (r r' : ByteArray), r.data = r'.data →
        Agree SameOpP ((r.splitE n).bind fun (pushed, remainder) =>
          match serializePushPrefix pushed.data true with
          | none => .err .pushTooLarge
          | some (pre, _) =>
            match pre with
            | [] => .panic
            | p0 :: _ => .ok (.pushByteArray pushed (p0 = byte), remainder))
          ((r'.splitE n).bind fun (pushed, remainder) =>
          match serializePushPrefix pushed.data true with
          | none => .err .pushTooLarge
          | some (pre, _) =>
            match pre with
            | [] => .panic
            | p0 :: _ => .ok (.pushByteArray pushed (p0 = byte), remainder)) := by
      intro n r r' hr
      refine (splitE_congr hr n).bind ?_
      rintro ⟨x, y⟩ ⟨x', y'⟩ ⟨g1, g2⟩
      dsimp only at g1 g2 ⊢
      rw [g1]
      split
      · exact .err _
      · split
        · exact .panic
        · exact .ok ⟨by simp [Op.map, g1], g2⟩
    split
    · exact .ok ⟨rfl, h2⟩
    split
    · exact push _ _ _ h2
    split
    · refine (splitE_congr h2 1).bind ?_
      rintro ⟨x, y⟩ ⟨x', y'⟩ ⟨g1, g2⟩
      dsimp only at g1 g2 ⊢
      rw [g1]
      split
      · exact .panic
      · exact push _ _ _ g2
    split
    · refine (splitE_congr h2 2).bind ?_
      rintro ⟨x, y⟩ ⟨x', y'⟩ ⟨g1, g2⟩
      dsimp only at g1 g2 ⊢
      rw [g1]
      refine (Agree.refl (R := Eq) (fun _ => rfl) _).bind ?_
      rintro n _ rfl
      exact push _ _ _ g2
    split
    · refine (splitE_congr h2 4).bind ?_
      rintro ⟨x, y⟩ ⟨x', y'⟩ ⟨g1, g2⟩
      dsimp only at g1 g2 ⊢
      rw [g1]
      refine (Agree.refl (R := Eq) (fun _ => rfl) _).bind ?_
      rintro n _ rfl
      exact push _ _ _ g2
    · refine .ok ⟨?_, h2⟩
      unfold codeOrInvalid
      split
      · rfl
      · split <;> rfl

theorem deserializeOpsBALoop_congr (fuel : Nat) : ∀ {a b : ByteArray}, a.data = b.data →
    Agree (fun x y => x.map (Op.map ByteArray.data) = y.map (Op.map ByteArray.data))
      (deserializeOpsBALoop fuel a) (deserializeOpsBALoop fuel b) := by
  induction fuel with
  | zero =>
    intro a b h
    unfold deserializeOpsBALoop
    have hl : a.len = b.len := congrArg List.length h
    rw [hl]
    by_cases h0 : b.len = 0
    · simp only [h0, if_true]; exact .ok rfl
    · simp only [h0, if_false]; exact .panic
  | succ fuel ih =>
    intro a b h
    unfold deserializeOpsBALoop
    have hl : a.len = b.len := congrArg List.length h
    rw [hl]
    by_cases h0 : b.len = 0
    · rw [if_pos h0, if_pos h0]; exact .ok rfl
    · rw [if_neg h0, if_neg h0]
      refine (deserializeOpBA_congr h).bind ?_
      rintro ⟨op, r⟩ ⟨op', r'⟩ ⟨g1, g2⟩
      dsimp only at g1 g2 ⊢
      refine (ih g2).bind ?_
      intro ops ops' hops
      exact .ok (by rw [List.map_cons, List.map_cons, g1, hops])

theorem deserializeOpsByteArray_bytes (b : ByteArray) :
    Agree (fun x y => x.map (Op.map ByteArray.data) = y) (deserializeOpsByteArray b)
      (deserializeOpsContents b.data) := by
  unfold deserializeOpsContents deserializeOpsByteArray
  have h := deserializeOpsBALoop_congr b.len (a := b) (b := .newUnnamed b.data) rfl
  have e : b.len = (ByteArray.newUnnamed b.data).len := rfl
  rw [e] at h ⊢
  generalize deserializeOpsBALoop _ (ByteArray.newUnnamed b.data) = y at h
  generalize deserializeOpsBALoop _ b = x at h
  cases h with
  | ok h => exact .ok h
  | err e => exact .err e
  | panic => exact .panic

/-! ## Refinement -/

variable {α β γ δ : Type}

/-- The codec `p` with provenance does on contents (`e` forgets provenance) what `c` does. -/
structure Refines (p : CodecP α) (c : Codec β) (e : α → β) : Prop where
  ser : ∀ v, (p.ser v).map ByteArray.data = c.ser (e v)
  deser : ∀ b, Agree (fun x y => e x.1 = y.1 ∧ x.2.data = y.2) (p.deserRest b) (c.deserRest b.data)

/-- The same for the fields of a struct. -/
structure RefinesFields (p : CodecP.Fields α) (c : Codec β) (e : α → β) : Prop where
  ser : ∀ v, (p.sers v).map ByteArray.partsData = c.ser (e v)
  deser : ∀ b, Agree (fun x y => e x.1 = y.1 ∧ x.2.data = y.2) (p.deserRest b) (c.deserRest b.data)

namespace Refines
open CodecP

theorem bytes : Refines CodecP.bytes Codec.bytes ByteArray.data where
  ser v := by simp [CodecP.bytes, Codec.bytes, ByteArray.new, ByteArray.len]
  deser b := by
    refine (readSizeP_bytes b).bind ?_
    rintro ⟨n, r⟩ ⟨n', r'⟩ ⟨h1, h2⟩
    dsimp only at h1 h2 ⊢
    subst h1 h2
    exact splitE_bytes r n

/-- forgetting provenance -/
def fixedE {n : Nat} (b : FixedP n) : FixedBytes n := ⟨b.1.data, b.2⟩

theorem fixed (n : Nat) : Refines (CodecP.fixed n) (Codec.fixed n) fixedE where
  ser v := rfl
  deser b := by
    refine (splitE_bytes b n).bind ?_
    rintro ⟨l, r⟩ ⟨l', r'⟩ ⟨h1, h2⟩
    dsimp only at h1 h2 ⊢
    subst h1 h2
    unfold FixedP.fromByteArray
    split
    · exact .ok ⟨rfl, rfl⟩
    · exact .err _

theorem many {p : CodecP α} {c : Codec β} {e : α → β} (h : Refines p c e) (vs : List α) :
    (p.serMany vs).map ByteArray.partsData = c.serMany (vs.map e) := by
  induction vs with
  | nil => rfl
  | cons v vs ih =>
    rw [List.map_cons, CodecP.serMany, Codec.serMany, ← h.ser v, ← ih]
    cases p.ser v with
    | none => rfl
    | some b =>
      cases p.serMany vs with
      | none => rfl
      | some bs => simp

theorem deserMany {p : CodecP α} {c : Codec β} {e : α → β} (h : Refines p c e) (n : Nat) : ∀ (b : ByteArray),
    Agree (fun x y => x.1.map e = y.1 ∧ x.2.data = y.2) (p.deserMany n b) (c.deserMany n b.data) := by
  induction n with
  | zero => intro b; exact .ok ⟨rfl, rfl⟩
  | succ n ih =>
    intro b
    refine (h.deser b).bind ?_
    rintro ⟨v, r⟩ ⟨v', r'⟩ ⟨h1, h2⟩
    dsimp only at h1 h2 ⊢
    subst h1 h2
    refine (ih r).bind ?_
    rintro ⟨vs, r⟩ ⟨vs', r'⟩ ⟨h1, h2⟩
    dsimp only at h1 h2 ⊢
    subst h1 h2
    exact .ok ⟨rfl, rfl⟩

theorem vec {p : CodecP α} {c : Codec β} {e : α → β} (sz : Nat) (h : Refines p c e) :
    Refines (CodecP.vec sz p) (Codec.vec sz c) (List.map e) where
  ser v := by
    simp only [CodecP.vec, Codec.vec, ← h.many v]
    cases p.serMany v with
    | none => rfl
    | some bs => simp [ByteArray.new, ByteArray.data_fromParts, ByteArray.partsData]
  deser b := by
    refine (readSizeP_bytes b).bind ?_
    rintro ⟨n, r⟩ ⟨n', r'⟩ ⟨h1, h2⟩
    dsimp only at h1 h2 ⊢
    subst h1 h2
    split
    · exact .panic
    · exact h.deserMany n r

theorem bool : Refines CodecP.bool Codec.bool id where
  ser v := rfl
  deser b := by
    refine (splitE_bytes b 1).bind ?_
    rintro ⟨l, r⟩ ⟨l', r'⟩ ⟨h1, h2⟩
    dsimp only at h1 h2 ⊢
    subst h1 h2
    cases l.data with
    | nil => exact .panic
    | cons x tl => exact .ok ⟨rfl, rfl⟩

theorem int (k : Nat) : Refines (CodecP.int k) (Codec.int k) id where
  ser v := rfl
  deser b := by
    refine (splitE_bytes b k).bind ?_
    rintro ⟨l, r⟩ ⟨l', r'⟩ ⟨h1, h2⟩
    dsimp only at h1 h2 ⊢
    subst h1 h2
    split
    · exact .panic
    · exact .ok ⟨rfl, rfl⟩

/-- forgetting provenance -/
def scriptE (s : ScriptP) : Script := s.map (Op.map ByteArray.data)

theorem script (opName : Opcode → String) : Refines (CodecP.script opName) Codec.script scriptE where
  ser s := by
    have h := (C13_serialise_congruence opName s s rfl).2
    simp only [CodecP.script, Codec.script, Script.serOps, scriptE]
    rw [← h]
    cases serializeOpsBA opName s with
    | ok b =>
      simp only [Res.map_ok, Option.bind_some]
      exact bytes.ser b
    | err e => rfl
    | panic => rfl
  deser b := by
    refine (bytes.deser b).bind ?_
    rintro ⟨l, r⟩ ⟨l', r'⟩ ⟨h1, h2⟩
    dsimp only at h1 h2 ⊢
    subst h1 h2
    refine (deserializeOpsByteArray_bytes l).bind ?_
    rintro ops ops' rfl
    exact .ok ⟨rfl, rfl⟩

theorem struct {p : CodecP.Fields α} {c : Codec β} {e : α → β} (h : RefinesFields p c e) :
    Refines (CodecP.struct p) c e where
  ser v := by
    rw [← h.ser v]
    simp only [CodecP.struct]
    cases p.sers v with
    | none => rfl
    | some bs => simp [ByteArray.data_fromParts, ByteArray.partsData]
  deser := h.deser

theorem imap' {p : CodecP α} {c : Codec β} {e : α → β} (h : Refines p c e) {pack : α → γ} {unpack : γ → α}
    {pack' : β → δ} {unpack' : δ → β} {e' : γ → δ} (h1 : ∀ v, e (unpack v) = unpack' (e' v))
    (h2 : ∀ b v r, p.deserRest b = .ok (v, r) → e' (pack v) = pack' (e v)) :
    Refines (p.imap pack unpack) (c.imap pack' unpack') e' where
  ser v := by simp only [CodecP.imap, Codec.imap, ← h1]; exact h.ser _
  deser b := by
    simp only [CodecP.imap, Codec.imap]
    have h3 := h.deser b
    have h4 := h2 b
    cases hp : p.deserRest b with
    | ok x =>
      rw [hp] at h3
      generalize c.deserRest b.data = y at h3
      cases h3 with
      | @ok _ y g =>
        obtain ⟨l, r⟩ := x
        obtain ⟨l', r'⟩ := y
        obtain ⟨g1, g2⟩ := g
        dsimp only at g1 g2
        subst g1 g2
        exact .ok ⟨h4 _ _ hp, rfl⟩
    | err e =>
      rw [hp] at h3
      generalize c.deserRest b.data = y at h3
      cases h3; exact .err _
    | panic =>
      rw [hp] at h3
      generalize c.deserRest b.data = y at h3
      cases h3; exact .panic

theorem imap {p : CodecP α} {c : Codec β} {e : α → β} (h : Refines p c e) {pack : α → γ} {unpack : γ → α}
    {pack' : β → δ} {unpack' : δ → β} {e' : γ → δ} (h1 : ∀ v, e (unpack v) = unpack' (e' v))
    (h2 : ∀ v, e' (pack v) = pack' (e v)) :
    Refines (p.imap pack unpack) (c.imap pack' unpack') e' where
  ser v := by simp only [CodecP.imap, Codec.imap, ← h1]; exact h.ser _
  deser b := by
    refine (h.deser b).bind ?_
    rintro ⟨l, r⟩ ⟨l', r'⟩ ⟨g1, g2⟩
    dsimp only at g1 g2 ⊢
    subst g1 g2
    exact .ok ⟨h2 l, rfl⟩

end Refines

namespace RefinesFields
open CodecP

/-- no fields -/
def _root_.BCash.Codec.unit : Codec Unit where
  ser _ := some []
  deserRest data := .ok ((), data)

theorem nil : RefinesFields Fields.nil Codec.unit id where
  ser _ := rfl
  deser _ := .ok ⟨rfl, rfl⟩

theorem field {p : CodecP α} {c : Codec β} {e : α → β} {q : Fields γ} {d : Codec δ} {f : γ → δ} (name : String)
    (h : Refines p c e) (hq : RefinesFields q d f) :
    RefinesFields (Fields.field name p q) (c.seq d) (fun v => (e v.1, f v.2)) where
  ser v := by
    simp only [Fields.field, Codec.seq, ← h.ser v.1, ← hq.ser v.2]
    cases p.ser v.1 with
    | none => rfl
    | some b =>
      cases q.sers v.2 with
      | none => rfl
      | some bs =>
        obtain ⟨d, n, f', pr⟩ := b
        simp [ByteArray.named]
  deser b := by
    refine (h.deser b).bind ?_
    rintro ⟨l, r⟩ ⟨l', r'⟩ ⟨g1, g2⟩
    dsimp only at g1 g2 ⊢
    subst g1 g2
    refine (hq.deser r).bind ?_
    rintro ⟨l, r⟩ ⟨l', r'⟩ ⟨g1, g2⟩
    dsimp only at g1 g2 ⊢
    subst g1 g2
    exact .ok ⟨rfl, rfl⟩

/-- the last field -/
theorem last {p : CodecP α} {c : Codec β} {e : α → β} {q : Fields γ} (name : String) (h : Refines p c e)
    (hq : RefinesFields q Codec.unit (fun _ => ())) :
    RefinesFields (Fields.field name p q) c (fun v => e v.1) where
  ser v := by
    simp only [Fields.field, ← h.ser v.1]
    have := hq.ser v.2
    cases p.ser v.1 with
    | none => rfl
    | some b =>
      cases hs : q.sers v.2 with
      | none => rw [hs] at this; cases this
      | some bs =>
        rw [hs] at this
        simp only [Codec.unit, Option.map_some, Option.some.injEq] at this
        obtain ⟨d, n, f', pr⟩ := b
        simp [ByteArray.named, this]
  deser b := by
    rw [show c.deserRest b.data = (c.deserRest b.data).bind fun x => .ok x by cases c.deserRest b.data <;> rfl]
    refine (h.deser b).bind ?_
    rintro ⟨l, r⟩ ⟨l', r'⟩ ⟨g1, g2⟩
    dsimp only at g1 g2 ⊢
    subst g1 g2
    have := hq.deser r
    dsimp only [Codec.unit] at this
    cases hc : q.deserRest r with
    | ok x =>
      rw [hc] at this
      cases this with
      | ok hx => exact .ok ⟨rfl, hx.2⟩
    | err e => rw [hc] at this; cases this
    | panic => rw [hc] at this; cases this

theorem skip {q : Fields γ} {d : Codec δ} {f : γ → δ} (default : α) (hq : RefinesFields q d f) :
    RefinesFields (Fields.skip default q) d (fun v => f v.2) where
  ser v := hq.ser v.2
  deser b := by
    rw [show d.deserRest b.data = (d.deserRest b.data).bind fun x => .ok x by cases d.deserRest b.data <;> rfl]
    refine (hq.deser b).bind ?_
    rintro ⟨l, r⟩ ⟨l', r'⟩ ⟨g1, g2⟩
    dsimp only at g1 g2 ⊢
    subst g1 g2
    exact .ok ⟨rfl, rfl⟩

theorem unit : RefinesFields Fields.nil Codec.unit (fun _ => ()) := nil

end RefinesFields

/-! ## Transactions -/

/-- Forgetting provenance. -/
def TxOutpointP.erase (o : TxOutpointP) : TxOutpoint := ⟨⟨o.txHash.1.data, o.txHash.2⟩, o.vout⟩
def ScriptP.erase (s : ScriptP) : Script := s.map (Op.map ByteArray.data)
def TxInputP.erase (i : TxInputP) : TxInput :=
  ⟨i.prevOut.erase, ScriptP.erase i.script, i.sequence, i.lockScript.map ScriptP.erase, i.value, i.isP2sh,
    i.sigHashFlags⟩
def TxOutputP.erase (o : TxOutputP) : TxOutput := ⟨o.value, ScriptP.erase o.script⟩
def UnhashedTxP.erase (t : UnhashedTxP) : UnhashedTx :=
  ⟨t.version, t.inputs.map TxInputP.erase, t.outputs.map TxOutputP.erase, t.lockTime⟩
def TxPreimageP.erase (p : TxPreimageP) : TxPreimage :=
  ⟨p.version, ⟨p.hashPrevouts.1.data, p.hashPrevouts.2⟩, ⟨p.hashSequence.1.data, p.hashSequence.2⟩,
    p.outpoint.erase, ScriptP.erase p.scriptCode, p.value, p.sequence,
    ⟨p.hashOutputs.1.data, p.hashOutputs.2⟩, p.lockTime, p.sigHashType⟩
def TxP.erase (t : TxP) : Tx := ⟨t.unhashedTx.erase, ⟨t.hash.1.data, t.hash.2⟩, t.raw.data⟩

namespace Refines
open RefinesFields

theorem u32 : Refines CodecP.u32 Codec.u32 id := (int 4).imap (fun _ => rfl) (fun _ => rfl)
theorem i32 : Refines CodecP.i32 Codec.i32 id := u32.imap (fun _ => rfl) (fun _ => rfl)
theorem u64 : Refines CodecP.u64 Codec.u64 id := (int 8).imap (fun _ => rfl) (fun _ => rfl)

theorem txOutpoint : Refines CodecP.txOutpoint Codec.txOutpoint TxOutpointP.erase :=
  (struct (field _ (fixed 32) (last _ u32 unit))).imap (fun _ => rfl) (fun _ => rfl)

theorem skips4 {α1 α2 α3 α4 : Type} {a : α1} {b : α2} {c : α3} {d : α4} :
    RefinesFields (CodecP.Fields.skip a (.skip b (.skip c (.skip d .nil)))) Codec.unit (fun _ => ()) :=
  skip a (skip b (skip c (skip d unit)))

theorem txInput (opName) : Refines (CodecP.txInput opName) Codec.txInput TxInputP.erase :=
  (struct (field _ txOutpoint (field _ (script opName) (last _ u32 skips4)))).imap' (fun _ => rfl) (by
    intro b v r h
    simp only [CodecP.struct, CodecP.Fields.field, CodecP.Fields.skip, CodecP.Fields.nil, Res.bind_ok] at h
    obtain ⟨x, _, h⟩ := Res.bind_eq_ok.mp h
    obtain ⟨y, hy, h⟩ := Res.bind_eq_ok.mp h
    obtain ⟨z, _, hy⟩ := Res.bind_eq_ok.mp hy
    obtain ⟨w, hw, hy⟩ := Res.bind_eq_ok.mp hy
    obtain ⟨u, _, hw⟩ := Res.bind_eq_ok.mp hw
    cases hw; cases hy; cases h
    rfl)

theorem txOutput (opName) : Refines (CodecP.txOutput opName) Codec.txOutput TxOutputP.erase :=
  (struct (field _ u64 (last _ (script opName) unit))).imap (fun _ => rfl) (fun _ => rfl)

theorem unhashedTx (opName sz) :
    Refines (CodecP.unhashedTx opName sz) (Codec.unhashedTx sz) UnhashedTxP.erase :=
  (struct (field _ i32 (field _ (vec _ (txInput opName)) (field _ (vec _ (txOutput opName))
    (last _ u32 unit))))).imap (fun _ => rfl) (fun _ => rfl)

theorem txPreimage (opName) : Refines (CodecP.txPreimage opName) Codec.txPreimage TxPreimageP.erase :=
  (struct (field _ i32 (field _ (fixed 32) (field _ (fixed 32) (field _ txOutpoint (field _ (script opName)
    (field _ u64 (field _ u32 (field _ (fixed 32) (field _ u32 (last _ u32 unit))))))))))).imap
    (fun _ => rfl) (fun _ => rfl)

theorem tx : Refines CodecP.tx Codec.tx TxP.erase :=
  (struct (skip _ (skip _ (last _ bytes unit)))).imap' (fun _ => rfl) (by
    intro b v r h
    simp only [CodecP.struct, CodecP.Fields.field, CodecP.Fields.skip, CodecP.Fields.nil, Res.bind_ok] at h
    obtain ⟨x, hx, h⟩ := Res.bind_eq_ok.mp h
    obtain ⟨y, hy, hx⟩ := Res.bind_eq_ok.mp hx
    obtain ⟨z, _, hy⟩ := Res.bind_eq_ok.mp hy
    cases hy; cases hx; cases h
    rfl)

end Refines
end BCash
