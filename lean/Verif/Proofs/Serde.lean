import Verif.Spec.Stored
import Verif.Proofs.Codec
import Verif.Props.Hash

/-! # Storing values with serde: closure lemmas -/

namespace BCash
namespace Serde
open Spec
variable {α β σ : Type}

/-- Valid values can be written, and reading gives a related value. -/
def Keeps (f : Format) (s : Serde α) (V : α → Prop) (R : α → α → Prop) : Prop :=
  ∀ v, V v → ∃ x w, s.write f v = some x ∧ s.read f x = .ok w ∧ R v w

/-- Nothing is written as `null`. -/
def NotNull (f : Format) (s : Serde α) : Prop := ∀ v, s.write f v ≠ some .null

/-- Reading does not depend on the arrangement of a document. -/
def Robust (known opt : String → Prop) (f : Format) (s : Serde α) : Prop :=
  ∀ x y v, Rearranged known opt x y → s.read f x = .ok v → s.read f y = .ok v

/-- Reading panics only when some text of the document has `P`. -/
def PanicsOnly (f : Format) (P : Bytes → Prop) (s : Serde α) : Prop :=
  ∀ x, s.read f x = .panic → ∃ t, HasText t x ∧ P t

theorem Keeps.mono {f} {s : Serde α} {V V' R R'} (h : Keeps f s V R) (hV : ∀ v, V' v → V v)
    (hR : ∀ v w, R v w → R' v w) : Keeps f s V' R' := fun v hv => by
  obtain ⟨x, w, a, b, c⟩ := h v (hV v hv)
  exact ⟨x, w, a, b, hR _ _ c⟩

/-! ## Integers, booleans, texts -/

theorem Keeps.int {f} {lo hi : Int} {toInt : α → Int} {ofInt : Int → α}
    (h : ∀ v, lo ≤ toInt v ∧ toInt v ≤ hi ∧ ofInt (toInt v) = v) :
    Keeps f (Serde.int lo hi toInt ofInt) (fun _ => True) Eq := fun v _ => by
  obtain ⟨h1, h2, h3⟩ := h v
  refine ⟨_, v, rfl, ?_, rfl⟩
  simp [Serde.int, h1, h2, h3]

theorem Keeps.u8 {f} : Keeps f Serde.u8 (fun _ => True) Eq := Keeps.int fun v => by
  have := v.toNat_lt
  refine ⟨by omega, by omega, by simp⟩
theorem Keeps.u32 {f} : Keeps f Serde.u32 (fun _ => True) Eq := Keeps.int fun v => by
  have := v.toNat_lt
  refine ⟨by omega, by omega, by simp⟩
theorem Keeps.u64 {f} : Keeps f Serde.u64 (fun _ => True) Eq := Keeps.int fun v => by
  have := v.toNat_lt
  refine ⟨by omega, by omega, by simp⟩
theorem Keeps.i32 {f} : Keeps f Serde.i32 (fun _ => True) Eq := Keeps.int fun v => by
  have h1 := v.toInt_lt
  have h2 := v.le_toInt
  refine ⟨by omega, by omega, by simp⟩
theorem Keeps.bool {f} : Keeps f Serde.bool (fun _ => True) Eq := fun v _ => ⟨_, v, rfl, rfl, rfl⟩
theorem Keeps.string {f} : Keeps f Serde.string (fun _ => True) Eq := fun v _ => ⟨_, v, rfl, rfl, rfl⟩
theorem Keeps.phantom {f} : Keeps f Serde.phantom (fun _ => True) Eq := fun v _ => ⟨_, v, rfl, rfl, rfl⟩

theorem Robust.atom {known opt f} {s : Serde α} (h1 : ∀ vs v, s.read f (.seq vs) ≠ .ok v)
    (h2 : ∀ vs v, s.read f (.map vs) ≠ .ok v) : Robust known opt f s := by
  intro x y v h hx
  cases h with
  | same => exact hx
  | seq => exact absurd hx (h1 _ _)
  | map => exact absurd hx (h2 _ _)

theorem Robust.int {known opt f} {lo hi : Int} {toInt : α → Int} {ofInt : Int → α} :
    Robust known opt f (Serde.int lo hi toInt ofInt) := .atom (by simp [Serde.int]) (by simp [Serde.int])
theorem Robust.bool {known opt f} : Robust known opt f Serde.bool :=
  .atom (by simp [Serde.bool]) (by simp [Serde.bool])
theorem Robust.string {known opt f} : Robust known opt f Serde.string :=
  .atom (by simp [Serde.string]) (by simp [Serde.string])
theorem Robust.phantom {known opt f} : Robust known opt f Serde.phantom :=
  .atom (by simp [Serde.phantom]) (by simp [Serde.phantom])

theorem PanicsOnly.never {f P} {s : Serde α} (h : ∀ x, s.read f x ≠ .panic) : PanicsOnly f P s :=
  fun x hx => absurd hx (h x)

theorem int_ne_panic {f} {lo hi : Int} {toInt : α → Int} {ofInt : Int → α} (x : SVal) :
    (Serde.int lo hi toInt ofInt).read f x ≠ .panic := by
  cases x <;> simp [Serde.int]
  split <;> simp

/-! ## Options and vectors -/

theorem Keeps.option {f} {s : Serde α} {V R} (h : Keeps f s V R) (hn : NotNull f s) :
    Keeps f (Serde.option s) (fun v => ∀ x, v = some x → V x) (Option.Rel R) := by
  intro v hv
  cases v with
  | none => exact ⟨.null, none, rfl, rfl, .none⟩
  | some v =>
    obtain ⟨x, w, a, b, c⟩ := h v (hv v rfl)
    refine ⟨x, some w, a, ?_, .some c⟩
    have : x ≠ .null := fun e => hn v (e ▸ a)
    cases x with
    | null => exact absurd rfl this
    | _ => simp [Serde.option, b, Res.map]

theorem map_ok {ε : Type} {x : Res ε α} {g : α → β} {v : β} (h : x.map g = .ok v) :
    ∃ a, x = .ok a ∧ g a = v := by
  cases x <;> simp_all [Res.map]

theorem Robust.option {known opt f} {s : Serde α} (h : Robust known opt f s) : Robust known opt f (Serde.option s) := by
  intro x y v hxy hx
  cases hxy with
  | same => exact hx
  | seq hs =>
    obtain ⟨a, e, rfl⟩ := map_ok hx
    show Res.map some (s.read f _) = _
    rw [h _ _ _ (.seq hs) e]; rfl
  | map hs =>
    obtain ⟨a, e, rfl⟩ := map_ok hx
    show Res.map some (s.read f _) = _
    rw [h _ _ _ (.map hs) e]; rfl

theorem map_panic {ε : Type} {x : Res ε α} {g : α → β} (h : x.map g = .panic) : x = .panic := by
  cases x <;> simp_all [Res.map]

theorem bind_panic {ε : Type} {x : Res ε α} {g : α → Res ε β} (h : x.bind g = .panic) :
    x = .panic ∨ ∃ a, x = .ok a ∧ g a = .panic := by
  cases x <;> simp_all [Res.bind]

theorem PanicsOnly.option {f P} {s : Serde α} (h : PanicsOnly f P s) : PanicsOnly f P (Serde.option s) := by
  intro x hx
  cases x with
  | null => simp [Serde.option] at hx
  | _ => exact h _ (map_panic hx)

theorem readAll_ok {read : SVal → Res SerdeError α} {vs : List SVal} {xs : List α} :
    readAll read vs = .ok xs ↔ List.Forall₂ (fun v x => read v = .ok x) vs xs := by
  induction vs generalizing xs with
  | nil => simp [readAll, eq_comm]
  | cons v vs ih =>
    simp only [readAll]
    constructor
    · intro h
      obtain ⟨x, h1, h2⟩ := Res.bind_eq_ok.mp h
      obtain ⟨ys, h3, h4⟩ := Res.bind_eq_ok.mp h2
      simp only [Res.ok.injEq] at h4
      subst h4
      exact .cons h1 (ih.mp h3)
    · intro h
      cases h with
      | cons h1 h2 => simp [h1, ih.mpr h2, Res.bind]

theorem readAll_panic {read : SVal → Res SerdeError α} {vs : List SVal}
    (h : readAll read vs = .panic) : ∃ v ∈ vs, read v = .panic := by
  induction vs with
  | nil => simp [readAll] at h
  | cons v vs ih =>
    rcases bind_panic h with h | ⟨x, _, h⟩
    · exact ⟨v, List.mem_cons_self, h⟩
    · rcases bind_panic h with h | ⟨y, _, h⟩
      · obtain ⟨w, hw, e⟩ := ih h
        exact ⟨w, List.mem_cons_of_mem _ hw, e⟩
      · cases h

theorem writeAll {f} {s : Serde α} {V R} (h : Keeps f s V R) (vs : List α) (hv : ∀ v ∈ vs, V v) :
    ∃ xs ws, vs.mapM (s.write f) = some xs ∧ List.Forall₂ (fun v x => s.read f v = .ok x) xs ws ∧
      List.Forall₂ R vs ws := by
  induction vs with
  | nil => exact ⟨[], [], rfl, .nil, .nil⟩
  | cons v vs ih =>
    obtain ⟨xs, ws, a, b, c⟩ := ih fun w hw => hv w (List.mem_cons_of_mem _ hw)
    obtain ⟨x, w, a', b', c'⟩ := h v (hv v List.mem_cons_self)
    exact ⟨x :: xs, w :: ws, by simp [a, a'], .cons b' b, .cons c' c⟩

theorem Keeps.vec {f} {s : Serde α} {V R} (h : Keeps f s V R) :
    Keeps f (Serde.vec s) (fun vs => ∀ v ∈ vs, V v) (List.Forall₂ R) := by
  intro vs hv
  obtain ⟨xs, ws, a, b, c⟩ := writeAll h vs hv
  exact ⟨.seq xs, ws, by simp [Serde.vec, a], readAll_ok.mpr b, c⟩

theorem Robust.readAll {known opt f} {s : Serde α} (h : Robust known opt f s) {vs ws : List SVal} {xs : List α}
    (hs : List.Forall₂ (Rearranged known opt) vs ws) (hx : readAll (s.read f) vs = .ok xs) :
    BCash.readAll (s.read f) ws = .ok xs := by
  rw [readAll_ok] at hx ⊢
  induction hs generalizing xs with
  | nil => exact hx
  | cons h1 _ ih =>
    cases hx with
    | cons a b => exact .cons (h _ _ _ h1 a) (ih b)

theorem Robust.vec {known opt f} {s : Serde α} (h : Robust known opt f s) : Robust known opt f (Serde.vec s) := by
  intro x y v hxy hx
  cases hxy with
  | same => exact hx
  | seq hs => exact h.readAll hs hx
  | map => simp [Serde.vec] at hx

theorem PanicsOnly.vec {f P} {s : Serde α} (h : PanicsOnly f P s) : PanicsOnly f P (Serde.vec s) := by
  intro x hx
  cases x with
  | seq vs =>
    obtain ⟨v, hv, e⟩ := readAll_panic hx
    obtain ⟨t, ht, hp⟩ := h v e
    exact ⟨t, .elem hv ht, hp⟩
  | _ => simp [Serde.vec] at hx

theorem Keeps.imap {f} {s : Serde α} {V R} {pack : α → β} {unpack : β → α} {V' : β → Prop}
    {R' : β → β → Prop} (h : Keeps f s V R) (hV : ∀ v, V' v → V (unpack v))
    (hR : ∀ v w, R (unpack v) w → R' v (pack w)) : Keeps f (s.imap pack unpack) V' R' := by
  intro v hv
  obtain ⟨x, w, a, b, c⟩ := h _ (hV v hv)
  exact ⟨x, pack w, a, by simp [Serde.imap, b, Res.map], hR _ _ c⟩

theorem Robust.imap {known opt f} {s : Serde α} (h : Robust known opt f s) (pack : α → β) (unpack : β → α) :
    Robust known opt f (s.imap pack unpack) := by
  intro x y v hxy hx
  simp only [Serde.imap] at hx ⊢
  cases e : s.read f x <;> simp only [e, Res.map] at hx
  · rw [h _ _ _ hxy e]; simpa [Res.map] using hx
  · cases hx
  · cases hx

theorem PanicsOnly.imap {f P} {s : Serde α} (h : PanicsOnly f P s) (pack : α → β) (unpack : β → α) :
    PanicsOnly f P (s.imap pack unpack) := fun x hx => h x (map_panic hx)

/-! ## Byte strings -/

theorem u8s {f : Format} (d : Bytes) : ∃ vs, (vec u8).write f d = some (.seq vs) ∧
    readAll (u8.read f) vs = .ok d := by
  obtain ⟨xs, ws, a, b, c⟩ := writeAll (f := f) Keeps.u8 d fun _ _ => trivial
  have : d = ws := by
    clear a b
    induction c with
    | nil => rfl
    | cons h _ ih => rw [h, ih]
  subst this
  exact ⟨xs, by simp [Serde.vec, a], readAll_ok.mpr b⟩

theorem Keeps.byteArray {f : Format} (hf : f.human = true ∨ f.bytesFromSeq = true) :
    Keeps f Serde.byteArray (fun _ => True) Eq := by
  intro v _
  cases hh : f.human with
  | true => exact ⟨_, v, by simp [Serde.byteArray, hh]; rfl, by simp [Serde.byteArray, hh, hexDecode_hexEncode], rfl⟩
  | false =>
    obtain ⟨vs, a, b⟩ := u8s (f := f) v
    have hb : f.bytesFromSeq = true := by simpa [hh] using hf
    exact ⟨_, v, by simpa [Serde.byteArray, hh] using a,
      by simpa [Serde.byteArray, hh, hb, Serde.vec] using b, rfl⟩

theorem Keeps.hash {f : Format} (n : Nat) : Keeps f (Serde.hash n) (fun _ => True) Eq := by
  intro v _
  cases hh : f.human with
  | true =>
    refine ⟨_, v, by simp [Serde.hash, hh]; rfl, ?_, rfl⟩
    simp [Serde.hash, hh, Hash.toJson, Hash.fromJson, hexDecode_hexEncode, v.2, Res.mapErr]
  | false =>
    obtain ⟨vs, a, b⟩ := u8s (f := f) v.1
    refine ⟨_, v, by simpa [Serde.hash, hh] using a, ?_, rfl⟩
    simp [Serde.hash, hh, b, Res.bind, v.2]

theorem Keeps.pubkey {f : Format} : Keeps f Serde.pubkey (fun _ => True) Eq := by
  intro v _
  cases hh : f.human with
  | true =>
    refine ⟨_, v, by simp [Serde.pubkey, hh]; rfl, ?_, rfl⟩
    simp [Serde.pubkey, hh, Pubkey.toJson, hexDecode_hexEncode, v.2]
  | false =>
    obtain ⟨vs, a, b⟩ := u8s (f := f) v.1
    refine ⟨_, v, by simpa [Serde.pubkey, hh] using a, ?_, rfl⟩
    simp [Serde.pubkey, hh, Serde.vec, b, Res.bind, v.2]

theorem Keeps.script {f : Format} {V R} (h : Codec.RoundTrips Codec.script V R) :
    Keeps f Serde.script V R := by
  intro v hv
  obtain ⟨bs, w, a, b, c⟩ := h v hv
  have c' : Codec.script.deser bs = .ok w := by
    have := c []
    simp only [List.append_nil] at this
    simp [Codec.deser, this, Res.bind]
  cases hh : f.human with
  | true =>
    refine ⟨_, w, by simp [Serde.script, hh, a]; rfl, ?_, b⟩
    simp [Serde.script, hh, hexDecode_hexEncode, Res.bind, c', Res.mapErr]
  | false =>
    obtain ⟨vs, d, e⟩ := u8s (f := f) bs
    refine ⟨_, w, by simpa [Serde.script, hh, a] using d, ?_, b⟩
    simp [Serde.script, hh, Serde.vec, e, Res.bind, c', Res.mapErr]

theorem i32_read {f : Format} {v : Int} (h : InI32 v) :
    ∃ n : Int32, Serde.i32.read f (.num v) = .ok n ∧ n.toInt = v := by
  refine ⟨Int32.ofInt v, ?_, ?_⟩
  · have : -2 ^ 31 ≤ v ∧ v ≤ 2 ^ 31 - 1 := by unfold InI32 at h; omega
    simp only [Serde.i32, Serde.int]
    rw [if_pos this]
  · unfold InI32 at h
    rw [Int32.toInt_ofInt]
    have hs : Int32.size = 4294967296 := rfl
    rw [Int.bmod_def, hs]
    omega

theorem Keeps.integer {f : Format} :
    Keeps f Serde.integer (fun v => Integer.new v = .ok v) Eq := by
  intro v hv
  refine ⟨_, v, rfl, ?_, rfl⟩
  have hi : InI32 v := by
    by_contra h
    rw [Integer.new, if_neg h] at hv
    split at hv <;> cases hv
  obtain ⟨n, a, b⟩ := i32_read (f := f) hi
  show (Serde.i32.read f (.num v)).bind _ = _
  rw [a]
  show Res.ofExcept _ (Integer.new n.toInt) = _
  rw [b, hv]; rfl

theorem Keeps.uinteger {f : Format} :
    Keeps f Serde.uinteger (fun v => UInteger.new v = .ok v) Eq := by
  intro v hv
  refine ⟨_, v, rfl, ?_, rfl⟩
  have hi : InI32 v := by
    by_contra h
    rw [UInteger.new, if_neg h] at hv
    split at hv <;> cases hv
  obtain ⟨n, a, b⟩ := i32_read (f := f) hi
  show (Serde.i32.read f (.num v)).bind _ = _
  rw [a]
  show Res.ofExcept _ (UInteger.new n.toInt) = _
  rw [b, hv]; rfl

theorem Robust.bind {known opt f} {s : Serde α} {t : Serde β} {g : α → Res SerdeError β} (h : Robust known opt f s)
    (ht : ∀ x, t.read f x = (s.read f x).bind g) : Robust known opt f t := by
  intro x y v hxy hx
  rw [ht] at hx ⊢
  obtain ⟨a, e, h'⟩ := Res.bind_eq_ok.mp hx
  rw [h _ _ _ hxy e]; exact h'

theorem Robust.byteArray {known opt f} : Robust known opt f Serde.byteArray := by
  intro x y v hxy hx
  cases hxy with
  | same => exact hx
  | seq hs =>
    simp only [Serde.byteArray] at hx ⊢
    split at hx
    · cases hx
    · split at hx
      · rename_i h1 h2
        rw [if_neg h1, if_pos h2]
        exact Robust.readAll Robust.int hs hx
      · cases hx
  | map =>
    simp only [Serde.byteArray] at hx
    split at hx <;> cases hx

theorem Robust.hash {known opt f} (n : Nat) : Robust known opt f (Serde.hash n) := by
  intro x y v hxy hx
  cases hxy with
  | same => exact hx
  | seq hs =>
    simp only [Serde.hash] at hx ⊢
    split at hx
    · cases hx
    · rename_i h1
      rw [if_neg h1]
      obtain ⟨a, e, h'⟩ := Res.bind_eq_ok.mp hx
      rw [Robust.readAll (s := Serde.u8) Robust.int hs e]; exact h'
  | map =>
    simp only [Serde.hash] at hx
    split at hx <;> cases hx

theorem Robust.pubkey {known opt f} : Robust known opt f Serde.pubkey := by
  cases hh : f.human with
  | true => exact .atom (by simp [Serde.pubkey, hh]) (by simp [Serde.pubkey, hh])
  | false =>
    exact Robust.bind (s := Serde.vec Serde.u8) (Robust.vec Robust.int) fun x => by
      simp only [Serde.pubkey, hh]; rfl

theorem Robust.script {known opt f} : Robust known opt f Serde.script := by
  cases hh : f.human with
  | true => exact .atom (by simp [Serde.script, hh, Res.bind]) (by simp [Serde.script, hh, Res.bind])
  | false =>
    exact Robust.bind (s := Serde.vec Serde.u8) (Robust.vec Robust.int) fun x => by
      simp only [Serde.script, hh]; rfl

theorem Robust.integer {known opt f} : Robust known opt f Serde.integer :=
  Robust.bind (s := Serde.i32) Robust.int fun _ => rfl
theorem Robust.uinteger {known opt f} : Robust known opt f Serde.uinteger :=
  Robust.bind (s := Serde.i32) Robust.int fun _ => rfl

theorem vec_u8_ne_panic {f : Format} (x : SVal) : (vec u8).read f x ≠ .panic := by
  intro h
  cases x with
  | seq vs => obtain ⟨v, _, e⟩ := readAll_panic h; exact int_ne_panic _ e
  | _ => simp [Serde.vec] at h

theorem byteArray_ne_panic {f : Format} (x : SVal) : Serde.byteArray.read f x ≠ .panic := by
  intro h
  cases x <;> simp only [Serde.byteArray] at h <;> split at h <;> try cases h
  · split at h <;> cases h
  · split at h
    · exact vec_u8_ne_panic _ h
    · cases h

/-- A text that is hex for some bytes, but not for `n` of them. -/
def WrongLength (n : Nat) (t : Bytes) : Prop := ∃ d, hexDecode t = some d ∧ d.length ≠ n

theorem hash_panic_iff {f : Format} (n : Nat) (x : SVal) :
    (Serde.hash n).read f x = .panic ↔ f.human = true ∧ ∃ t, x = .str t ∧ WrongLength n t := by
  cases hh : f.human with
  | true =>
    simp only [true_and]
    cases x with
    | str t =>
      simp only [Serde.hash, hh, Hash.fromJson, SVal.str.injEq, exists_eq_left', WrongLength]
      cases hd : hexDecode t with
      | none => simp [Res.mapErr]
      | some d =>
        simp only [List.length_reverse, Option.some.injEq, exists_eq_left', if_true]
        by_cases hl : d.length = n <;> simp [hl, Res.mapErr]
    | _ => simp [Serde.hash, hh]
  | false =>
    simp only [Bool.false_eq_true, false_and, iff_false]
    intro h
    cases x with
    | seq vs =>
      simp only [Serde.hash, hh] at h
      rcases bind_panic h with h | ⟨d, _, h⟩
      · obtain ⟨v, _, e⟩ := readAll_panic h
        exact int_ne_panic _ e
      · split at h <;> cases h
    | _ => simp [Serde.hash, hh] at h

theorem PanicsOnly.hash {f : Format} (n : Nat) :
    PanicsOnly f (fun t => f.human = true ∧ WrongLength n t) (Serde.hash n) := by
  intro x hx
  obtain ⟨h, t, rfl, ht⟩ := (hash_panic_iff n x).mp hx
  exact ⟨t, .here, h, ht⟩

theorem pubkey_ne_panic {f : Format} (x : SVal) : Serde.pubkey.read f x ≠ .panic := by
  intro h
  simp only [Serde.pubkey] at h
  split at h
  · split at h
    · split at h
      · split at h <;> cases h
      · cases h
    · cases h
  · rcases bind_panic h with h | ⟨d, _, h⟩
    · exact vec_u8_ne_panic _ h
    · split at h <;> cases h

theorem script_ne_panic {f : Format} (x : SVal) : Serde.script.read f x ≠ .panic := by
  intro h
  simp only [Serde.script] at h
  rcases bind_panic h with h | ⟨d, _, h⟩
  · split at h
    · split at h
      · split at h <;> cases h
      · cases h
    · exact vec_u8_ne_panic _ h
  · have h' : Codec.script.deser d = .panic := by
      cases e : Codec.script.deser d <;> simp_all [Res.mapErr]
    rw [Codec.deser] at h'
    rcases bind_panic h' with h' | ⟨⟨a, b⟩, _, h'⟩
    · exact Codec.NoPanic.script _ h'
    · dsimp only at h'; split at h' <;> cases h'

theorem ofExcept_ne_panic {ε ε' : Type} {g : ε → ε'} {x : Except ε α} : Res.ofExcept g x ≠ .panic := by
  cases x <;> simp [Res.ofExcept]

theorem integer_ne_panic {f : Format} (x : SVal) : Serde.integer.read f x ≠ .panic := by
  intro h
  rcases bind_panic h with h | ⟨d, _, h⟩
  · exact int_ne_panic _ h
  · exact ofExcept_ne_panic h

theorem uinteger_ne_panic {f : Format} (x : SVal) : Serde.uinteger.read f x ≠ .panic := by
  intro h
  rcases bind_panic h with h | ⟨d, _, h⟩
  · exact int_ne_panic _ h
  · exact ofExcept_ne_panic h

/-! ## Structs -/

theorem set_other (fs : Fields σ α) {name : String} {s : Serde β} {f : Format} {k : String} {v : SVal}
    {o : Option β} {slots : σ} (h : k ≠ name) :
    (Fields.field name s fs).set f k v (o, slots) =
      (fs.set f k v slots).map fun r => r.map fun t => (o, t) := by
  simp [Fields.field, h]

theorem readMap_cons (fs : Fields σ α) (f : Format) (k : String) (v : SVal) (kvs : List (String × SVal))
    (slots : σ) : fs.readMap f ((k, v) :: kvs) slots =
      match fs.set f k v slots with
      | none => fs.readMap f kvs slots
      | some r => r.bind fun slots => fs.readMap f kvs slots := rfl

theorem set_this (fs : Fields σ α) {name : String} {s : Serde β} {f : Format} {v : SVal}
    {o : Option β} {slots : σ} :
    (Fields.field name s fs).set f name v (o, slots) =
      some (match o with
        | some _ => .err (.duplicateField name)
        | none => (s.read f v).map fun x => (some x, slots)) := if_pos rfl

/-- Reading a map fills the first field from the entries under its name, and the others from the rest. -/
theorem readMap_field {name : String} {s : Serde α} {fs : Fields σ β} {f : Format}
    (kvs : List (String × SVal)) (o o' : Option α) (slots slots' : σ) :
    (Fields.field name s fs).readMap f kvs (o, slots) = .ok (o', slots') ↔
      fs.readMap f (kvs.filter fun p => !decide (p.1 = name)) slots = .ok slots' ∧
      ((valuesAt name kvs = [] ∧ o' = o) ∨
        (o = none ∧ ∃ v x, valuesAt name kvs = [v] ∧ s.read f v = .ok x ∧ o' = some x)) := by
  induction kvs generalizing o slots with
  | nil =>
    simp only [Fields.readMap, List.filter_nil, valuesAt, List.filterMap_nil, true_and, Res.ok.injEq]
    constructor
    · intro h
      injection h with h1 h2
      exact ⟨h2, .inl h1.symm⟩
    · rintro ⟨rfl, rfl | ⟨_, _, _, h, _⟩⟩
      · rfl
      · simp at h
  | cons p kvs ih =>
    obtain ⟨k, v⟩ := p
    by_cases hk : k = name
    · subst hk
      have hv : valuesAt k ((k, v) :: kvs) = v :: valuesAt k kvs := by simp [valuesAt]
      rw [readMap_cons, set_this, hv]
      have hfl : ((k, v) :: kvs).filter (fun p => !decide (p.1 = k)) =
          kvs.filter (fun p => !decide (p.1 = k)) := by simp
      rw [hfl]
      cases o with
      | some y => simp [Res.bind]
      | none =>
        simp only
        cases hr : s.read f v with
        | err e => simp [Res.map, Res.bind, hr]
        | panic => simp [Res.map, Res.bind, hr]
        | ok x =>
          simp only [Res.map, Res.bind]
          rw [ih]
          constructor
          · rintro ⟨h1, ⟨h2, h3⟩ | ⟨h2, _⟩⟩
            · exact ⟨h1, .inr ⟨trivial, v, x, by rw [h2], hr, h3⟩⟩
            · cases h2
          · rintro ⟨h1, ⟨h2, _⟩ | ⟨_, v', x', h2, h3, h4⟩⟩
            · cases h2
            · simp only [List.cons.injEq] at h2
              obtain ⟨rfl, h2⟩ := h2
              rw [hr] at h3
              cases h3
              exact ⟨h1, .inl ⟨h2, h4⟩⟩
    · have hv : valuesAt name ((k, v) :: kvs) = valuesAt name kvs := by simp [valuesAt, hk]
      rw [readMap_cons, set_other fs hk, hv]
      have hfl : ((k, v) :: kvs).filter (fun p => !decide (p.1 = name)) =
          (k, v) :: kvs.filter (fun p => !decide (p.1 = name)) := by simp [hk]
      rw [hfl]
      rw [readMap_cons]
      cases fs.set f k v slots with
      | none => exact ih o slots
      | some r =>
        cases r with
        | ok t => simp only [Option.map, Res.map, Res.bind]; exact ih o t
        | err e => simp [Res.map, Res.bind]
        | panic => simp [Res.map, Res.bind]

/-- What the fields are, as read from a map by the names. -/
def Fields.Found (f : Format) (fs : Fields σ α) (kvs : List (String × SVal)) (v : α) : Prop :=
  ∃ slots, fs.readMap f kvs fs.empty = .ok slots ∧ fs.finish slots = .ok v

theorem found_field {name : String} {s : Serde α} {fs : Fields σ β} {f : Format}
    (kvs : List (String × SVal)) (x : α) (y : β) :
    (Fields.field name s fs).Found f kvs (x, y) ↔
      ((valuesAt name kvs = [] ∧ s.missing = some x) ∨
        ∃ v, valuesAt name kvs = [v] ∧ s.read f v = .ok x) ∧
      fs.Found f (kvs.filter fun p => !decide (p.1 = name)) y := by
  have hfin : ∀ (o : Option α) (t : σ), (Fields.field name s fs).finish (o, t) = .ok (x, y) ↔
      ((o = some x) ∨ (o = none ∧ s.missing = some x)) ∧ fs.finish t = .ok y := by
    intro o t
    cases o with
    | some z =>
      simp only [Fields.field, Res.bind]
      cases fs.finish t <;> simp [Res.bind]
    | none =>
      simp only [Fields.field]
      cases s.missing with
      | none => simp [Res.bind]
      | some z => cases fs.finish t <;> simp [Res.bind]
  unfold Fields.Found
  constructor
  · rintro ⟨⟨o, t⟩, h1, h2⟩
    obtain ⟨h3, h4⟩ := (readMap_field kvs none o fs.empty t).mp h1
    obtain ⟨h5, h6⟩ := (hfin o t).mp h2
    refine ⟨?_, t, h3, h6⟩
    rcases h4 with ⟨h4, rfl⟩ | ⟨_, v, z, h4, h7, rfl⟩
    · rcases h5 with h5 | ⟨_, h5⟩
      · cases h5
      · exact .inl ⟨h4, h5⟩
    · rcases h5 with h5 | ⟨h5, _⟩
      · cases h5; exact .inr ⟨v, h4, h7⟩
      · cases h5
  · rintro ⟨h1, t, h2, h3⟩
    rcases h1 with ⟨h1, h4⟩ | ⟨v, h1, h4⟩
    · exact ⟨(none, t), (readMap_field kvs none none fs.empty t).mpr ⟨h2, .inl ⟨h1, rfl⟩⟩,
        (hfin _ _).mpr ⟨.inr ⟨rfl, h4⟩, h3⟩⟩
    · exact ⟨(some x, t), (readMap_field kvs none (some x) fs.empty t).mpr
        ⟨h2, .inr ⟨rfl, v, x, h1, h4, rfl⟩⟩, (hfin _ _).mpr ⟨.inl rfl, h3⟩⟩

theorem found_nil {f : Format} (kvs : List (String × SVal)) : Fields.nil.Found f kvs () := by
  refine ⟨(), ?_, rfl⟩
  induction kvs with
  | nil => rfl
  | cons p kvs ih => exact ih

theorem read_map {fs : Fields σ α} {f : Format} {kvs : List (String × SVal)} {v : α} :
    (struct fs).read f (.map kvs) = .ok v ↔ fs.Found f kvs v := by
  simp only [Serde.struct, Fields.Found]
  exact Res.bind_eq_ok

/-! ### Writing and reading back -/

structure KeepsF (f : Format) (fs : Fields σ α) (V : α → Prop) (R : α → α → Prop) : Prop where
  ok : ∀ v, V v → ∃ xs w, fs.write f v = some xs ∧ R v w ∧ xs.length = fs.names.length ∧
    (∀ rest, fs.readSeq f (xs ++ rest) = .ok (w, rest)) ∧ fs.Found f (fs.names.zip xs) w

theorem KeepsF.nil {f : Format} : KeepsF f Fields.nil (fun _ => True) (fun _ _ => True) :=
  ⟨fun _ _ => ⟨[], (), rfl, trivial, rfl, fun _ => rfl, found_nil _⟩⟩

theorem valuesAt_zip {name : String} {names : List String} (h : name ∉ names) (xs : List SVal) :
    valuesAt name (names.zip xs) = [] := by
  unfold valuesAt
  rw [List.filterMap_eq_nil_iff]
  rintro ⟨k, v⟩ hm
  have : k ≠ name := fun e => h (e ▸ (List.of_mem_zip hm).1)
  simp [this]

theorem filter_zip {name : String} {names : List String} (h : name ∉ names) (xs : List SVal) :
    (names.zip xs).filter (fun p => !decide (p.1 = name)) = names.zip xs := by
  rw [List.filter_eq_self]
  rintro ⟨k, v⟩ hm
  have : k ≠ name := fun e => h (e ▸ (List.of_mem_zip hm).1)
  simp [this]

theorem KeepsF.field {f : Format} {name : String} {s : Serde α} {fs : Fields σ β} {V R W S}
    (hs : Keeps f s V R) (hf : KeepsF f fs W S) (hn : name ∉ fs.names) :
    KeepsF f (.field name s fs) (fun p => V p.1 ∧ W p.2) (fun p q => R p.1 q.1 ∧ S p.2 q.2) := by
  refine ⟨?_⟩
  rintro ⟨v, u⟩ ⟨hv, hu⟩
  obtain ⟨x, w, a1, a2, a3⟩ := hs v hv
  obtain ⟨xs, z, b1, b2, b3, b4, b5⟩ := hf.ok u hu
  refine ⟨x :: xs, (w, z), by simp [Fields.field, a1, b1], ⟨a3, b2⟩, by simp [Fields.field, b3], ?_, ?_⟩
  · intro rest
    simp [Fields.field, a2, b4, Res.bind]
  · have hz : (Fields.field name s fs).names.zip (x :: xs) = (name, x) :: fs.names.zip xs := rfl
    rw [hz, found_field]
    constructor
    · right
      refine ⟨x, ?_, a2⟩
      have := valuesAt_zip hn xs
      simp only [valuesAt] at this ⊢
      simp [this]
    · simpa [List.filter_cons, filter_zip hn] using b5

theorem Keeps.struct {f : Format} {fs : Fields σ α} {V R} (h : KeepsF f fs V R) :
    Keeps f (Serde.struct fs) V R := by
  intro v hv
  obtain ⟨xs, w, a, b, c, d, e⟩ := h.ok v hv
  refine ⟨if f.structsAsMaps then .map (fs.names.zip xs) else .seq xs, w, by simp [Serde.struct, a], ?_, b⟩
  split
  · exact read_map.mpr e
  · have := d []
    rw [List.append_nil] at this
    simp [Serde.struct, this, Res.bind]

theorem NotNull.struct {f : Format} {fs : Fields σ α} : NotNull f (Serde.struct fs) := by
  intro v h
  simp only [Serde.struct, Option.map_eq_some_iff] at h
  obtain ⟨xs, _, h⟩ := h
  split at h <;> cases h

theorem NotNull.imap {f : Format} {s : Serde α} (h : NotNull f s) (pack : α → β) (unpack : β → α) :
    NotNull f (s.imap pack unpack) := fun v => h (unpack v)

theorem NotNull.int {f} {lo hi : Int} {toInt : α → Int} {ofInt : Int → α} :
    NotNull f (Serde.int lo hi toInt ofInt) := by simp [NotNull, Serde.int]
theorem NotNull.bool {f} : NotNull f Serde.bool := by simp [NotNull, Serde.bool]
theorem NotNull.vec {f} {s : Serde α} : NotNull f (Serde.vec s) := by
  intro v h
  simp only [Serde.vec, Option.map_eq_some_iff] at h
  obtain ⟨xs, _, h⟩ := h
  cases h
theorem NotNull.script {f} : NotNull f Serde.script := by
  intro v h
  simp only [Serde.script, Option.bind_eq_some_iff] at h
  obtain ⟨xs, _, h⟩ := h
  split at h
  · cases h
  · exact NotNull.vec _ h

/-! ### Arrangement -/

/-- Reading the fields does not depend on the arrangement. -/
structure RobustF (known opt : String → Prop) (f : Format) (fs : Fields σ α) : Prop where
  map : ∀ kvs lws v, (∀ name, known name → ¬ (opt name ∧ AbsentOrNull name kvs lws) →
    List.Forall₂ (Rearranged known opt) (valuesAt name kvs) (valuesAt name lws)) → fs.Found f kvs v → fs.Found f lws v
  seq : ∀ vs ws v rest, List.Forall₂ (Rearranged known opt) vs ws → fs.readSeq f vs = .ok (v, rest) →
    ∃ rest', fs.readSeq f ws = .ok (v, rest') ∧ rest'.length = rest.length

theorem RobustF.nil {known opt f} : RobustF known opt f Fields.nil where
  map _ lws _ _ _ := found_nil lws
  seq vs ws v rest h hr := by
    cases hr
    exact ⟨ws, rfl, h.length_eq.symm⟩

theorem valuesAt_filter {name other : String} (kvs : List (String × SVal)) :
    valuesAt name (kvs.filter fun p => !decide (p.1 = other)) = if name = other then [] else valuesAt name kvs := by
  unfold valuesAt
  induction kvs with
  | nil => simp
  | cons p kvs ih =>
    obtain ⟨k, v⟩ := p
    by_cases h1 : k = other
    · subst h1
      by_cases h2 : name = k
      · simpa [h2] using ih
      · have h3 : ¬ k = name := fun e => h2 e.symm
        simpa [h2, h3] using ih
    · by_cases h2 : name = other
      · subst h2; simpa [h1] using ih
      · by_cases h3 : k = name
        · simp only [h2, if_false] at ih
          simp [h1, h2, h3, ih]
        · simp only [h2, if_false] at ih
          simp [h1, h2, h3, ih]

theorem RobustF.field {known opt f} {name : String} {s : Serde α} {fs : Fields σ β} (hn : known name)
    (ho : opt name → ∀ v, s.missing = some v ↔ s.read f .null = .ok v) (hs : Robust known opt f s) (hf : RobustF known opt f fs) : RobustF known opt f (.field name s fs) where
  map kvs lws v h hv := by
    obtain ⟨x, y⟩ := v
    rw [found_field] at hv ⊢
    obtain ⟨h1, h2⟩ := hv
    refine ⟨?_, hf.map _ _ _ ?_ h2⟩
    · by_cases hgap : opt name ∧ AbsentOrNull name kvs lws
      · obtain ⟨hopt, ⟨k1, k2⟩ | ⟨k1, k2⟩⟩ := hgap
        · rcases h1 with ⟨h1, h3⟩ | ⟨v, h1, h3⟩
          · rw [k1] at h1; cases h1
          · rw [k1] at h1
            cases h1
            exact .inl ⟨k2, (ho hopt _).mpr h3⟩
        · rcases h1 with ⟨h1, h3⟩ | ⟨v, h1, h3⟩
          · exact .inr ⟨.null, k2, (ho hopt _).mp h3⟩
          · rw [k1] at h1; cases h1
      have hk := h name hn hgap
      rcases h1 with ⟨h1, h3⟩ | ⟨v, h1, h3⟩
      · rw [h1] at hk
        cases hk' : valuesAt name lws with
        | nil => exact .inl ⟨rfl, h3⟩
        | cons a b => rw [hk'] at hk; cases hk
      · rw [h1] at hk
        cases hk' : valuesAt name lws with
        | nil => rw [hk'] at hk; cases hk
        | cons a b =>
          rw [hk'] at hk
          cases hk with
          | cons c d =>
            cases d
            exact .inr ⟨a, rfl, hs _ _ _ c h3⟩
    · intro m hm hg
      rw [valuesAt_filter, valuesAt_filter]
      unfold AbsentOrNull at hg
      rw [valuesAt_filter, valuesAt_filter] at hg
      split
      · exact .nil
      · rename_i hne
        rw [if_neg hne, if_neg hne] at hg
        exact h m hm hg
  seq vs ws v rest h hr := by
    cases h with
    | nil => simp [Fields.field] at hr
    | cons a b =>
      simp only [Fields.field] at hr ⊢
      obtain ⟨x, h1, h2⟩ := Res.bind_eq_ok.mp hr
      obtain ⟨⟨y, r⟩, h3, h4⟩ := Res.bind_eq_ok.mp h2
      simp only [Res.ok.injEq, Prod.mk.injEq] at h4
      obtain ⟨rfl, rfl⟩ := h4
      obtain ⟨r', h5, h6⟩ := hf.seq _ _ _ _ b h3
      exact ⟨r', by simp [hs _ _ _ a h1, h5, Res.bind], h6⟩

theorem Robust.struct {known opt f} {fs : Fields σ α} (h : RobustF known opt f fs) : Robust known opt f (Serde.struct fs) := by
  intro x y v hxy hx
  cases hxy with
  | same => exact hx
  | seq hs =>
    simp only [Serde.struct] at hx ⊢
    obtain ⟨⟨z, r⟩, h1, h2⟩ := Res.bind_eq_ok.mp hx
    obtain ⟨r', h3, h4⟩ := h.seq _ _ _ _ hs h1
    rw [h3]
    cases r <;> cases r' <;> simp_all [Res.bind]
  | map hs =>
    rw [read_map] at hx ⊢
    exact h.map _ _ _ hs hx

/-! ### Panics -/

structure PanicsOnlyF (f : Format) (P : Bytes → Prop) (fs : Fields σ α) : Prop where
  set : ∀ k v slots, fs.set f k v slots = some .panic → ∃ t, HasText t v ∧ P t
  finish : ∀ slots, fs.finish slots ≠ .panic
  seq : ∀ vs, fs.readSeq f vs = .panic → ∃ v ∈ vs, ∃ t, HasText t v ∧ P t

theorem PanicsOnlyF.nil {f P} : PanicsOnlyF f P Fields.nil where
  set _ _ _ h := by cases h
  finish _ h := by cases h
  seq _ h := by cases h

theorem PanicsOnlyF.field {f P} {name : String} {s : Serde α} {fs : Fields σ β} (hs : PanicsOnly f P s)
    (hf : PanicsOnlyF f P fs) : PanicsOnlyF f P (.field name s fs) where
  set k v slots h := by
    obtain ⟨o, slots⟩ := slots
    by_cases hk : k = name
    · subst hk
      simp only [Fields.field, if_true, Option.some.injEq] at h
      cases o with
      | some _ => cases h
      | none => exact hs _ (map_panic h)
    · rw [set_other fs hk] at h
      simp only [Option.map_eq_some_iff] at h
      obtain ⟨r, h1, h2⟩ := h
      exact hf.set k v slots (by rw [h1, map_panic h2])
  finish slots h := by
    simp only [Fields.field] at h
    rcases bind_panic h with h | ⟨_, _, h⟩
    · split at h
      · cases h
      · split at h <;> cases h
    · rcases bind_panic h with h | ⟨_, _, h⟩
      · exact hf.finish _ h
      · cases h
  seq vs h := by
    cases vs with
    | nil => cases h
    | cons v vs =>
      simp only [Fields.field] at h
      rcases bind_panic h with h | ⟨_, _, h⟩
      · obtain ⟨t, ht⟩ := hs _ h
        exact ⟨v, List.mem_cons_self, t, ht⟩
      · rcases bind_panic h with h | ⟨_, _, h⟩
        · obtain ⟨w, hw, t, ht⟩ := hf.seq _ h
          exact ⟨w, List.mem_cons_of_mem _ hw, t, ht⟩
        · cases h

theorem PanicsOnlyF.map {f P} {fs : Fields σ α} (h : PanicsOnlyF f P fs) (kvs : List (String × SVal))
    (slots : σ) (hp : fs.readMap f kvs slots = .panic) :
    ∃ p ∈ kvs, ∃ t, HasText t p.2 ∧ P t := by
  induction kvs generalizing slots with
  | nil => cases hp
  | cons p kvs ih =>
    obtain ⟨k, v⟩ := p
    rw [Fields.readMap] at hp
    split at hp
    · obtain ⟨p, hp, e⟩ := ih _ hp
      exact ⟨p, List.mem_cons_of_mem _ hp, e⟩
    · rename_i r hr
      rcases bind_panic hp with h' | ⟨s', _, h'⟩
      · subst h'
        exact ⟨_, List.mem_cons_self, h.set _ _ _ hr⟩
      · obtain ⟨p, hp, e⟩ := ih _ h'
        exact ⟨p, List.mem_cons_of_mem _ hp, e⟩

theorem PanicsOnly.struct {f P} {fs : Fields σ α} (h : PanicsOnlyF f P fs) :
    PanicsOnly f P (Serde.struct fs) := by
  intro x hx
  cases x with
  | seq vs =>
    simp only [Serde.struct] at hx
    rcases bind_panic hx with hx | ⟨⟨_, _⟩, _, hx⟩
    · obtain ⟨v, hv, t, ht, hp⟩ := h.seq _ hx
      exact ⟨t, .elem hv ht, hp⟩
    · dsimp only at hx; split at hx <;> cases hx
  | map kvs =>
    simp only [Serde.struct] at hx
    rcases bind_panic hx with hx | ⟨_, _, hx⟩
    · obtain ⟨⟨k, v⟩, hv, t, ht, hp⟩ := h.map _ _ hx
      exact ⟨t, .entry hv ht, hp⟩
    · exact absurd hx (h.finish _)
  | _ => simp [Serde.struct] at hx

theorem PanicsOnly.mono {f} {P Q : Bytes → Prop} {s : Serde α} (h : PanicsOnly f P s)
    (hPQ : ∀ t, P t → Q t) : PanicsOnly f Q s := fun x hx => by
  obtain ⟨t, a, b⟩ := h x hx
  exact ⟨t, a, hPQ t b⟩

/-! ## Enums -/

theorem unitEnum_ne_panic [DecidableEq α] {f : Format} (variants : List (Bytes × α)) (x : SVal) :
    (unitEnum variants).read f x ≠ .panic := by
  simp only [unitEnum]
  split <;> split <;> (try split) <;> simp

theorem Robust.unitEnum [DecidableEq α] {known opt f} (variants : List (Bytes × α)) :
    Robust known opt f (Serde.unitEnum variants) := by
  refine .atom ?_ ?_ <;> intro vs v <;> simp only [Serde.unitEnum] <;> split <;> simp

end Serde
end BCash
