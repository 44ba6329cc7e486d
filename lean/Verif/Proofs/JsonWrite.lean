import Verif.Proofs.JsonText
import Verif.Proofs.Serde
import Mathlib.Tactic.IntervalCases

/-! # What the writer of JSON texts writes -/

namespace BCash
open Spec.Json

/-! ## UTF-8 -/

theorem utf8_toByteArray (s : String) : (⟨(utf8 s).toArray⟩ : _root_.ByteArray) = s.toByteArray := by
  rw [← String.utf8Encode_toList]
  simp only [utf8, List.utf8Encode]
  generalize (List.flatMap String.utf8EncodeChar s.toList) = l
  ext1
  simp

theorem utf8_inj {s t : String} (h : utf8 s = utf8 t) : s = t := by
  have := congrArg (fun b => (⟨b.toArray⟩ : _root_.ByteArray)) h
  simp only [utf8_toByteArray] at this
  exact String.toByteArray_inj.mp this

theorem ofUtf8_iff {b : Bytes} {s : String} : ofUtf8 b = some s ↔ b = utf8 s := by
  unfold ofUtf8 String.fromUTF8?
  constructor
  · intro h
    split at h
    · rename_i hv
      simp only [Option.some.injEq] at h
      have e : s.toByteArray = ⟨b.toArray⟩ := by rw [← h]; rfl
      rw [← utf8_toByteArray] at e
      have := congrArg (fun a => a.data.toList) e
      simpa using this.symm
    · cases h
  · rintro rfl
    have e := utf8_toByteArray s
    split
    · simp only [Option.some.injEq]
      apply String.toByteArray_inj.mp
      exact e
    · rename_i hv
      rw [e] at hv
      exact absurd (by simpa using s.isValidUTF8) hv

theorem ofUtf8_utf8 (s : String) : ofUtf8 (utf8 s) = some s := ofUtf8_iff.mpr rfl

/-- ASCII bytes are UTF-8. -/
theorem utf8_ascii {b : Bytes} (h : ∀ x ∈ b, x.toNat < 128) : ∃ s : String, utf8 s = b := by
  refine ⟨String.ofList (b.map fun x => Char.ofNat x.toNat), ?_⟩
  unfold utf8
  rw [String.toList_ofList]
  induction b with
  | nil => rfl
  | cons x b ih =>
    have hx := h x List.mem_cons_self
    have e : String.utf8EncodeChar (Char.ofNat x.toNat) = [x] := by
      have : (Char.ofNat x.toNat).toNat = x.toNat := JsonText.toNat_ofNat (by omega)
      unfold String.utf8EncodeChar
      have e2 : (Char.ofNat x.toNat).val.toNat = x.toNat := this
      simp only [e2]
      rw [if_pos (by omega)]
      simp
    rw [List.map_cons, List.flatMap_cons, e, ih fun y hy => h y (List.mem_cons_of_mem _ hy)]
    rfl

theorem hexEncode_utf8 (b : Bytes) : ∃ s : String, utf8 s = hexEncode b := by
  apply utf8_ascii
  have hd : ∀ n, n < 16 → (hexDigit n).toNat < 128 := by decide
  induction b with
  | nil => simp [hexEncode]
  | cons y b ih =>
    have := y.toNat_lt
    simp only [hexEncode, List.mem_cons, forall_eq_or_imp]
    exact ⟨hd _ (by omega), hd _ (by omega), ih⟩

/-! ## Numbers -/

namespace JsonText

theorem digitChar_digit {n : Nat} (h : n < 10) : Digit (digitChar n) ∧ (digitChar n).toNat - '0'.toNat = n := by
  interval_cases n <;> exact ⟨⟨by decide, by decide⟩, by decide⟩

theorem number_snoc (ds : List Char) (c : Char) :
    number (ds ++ [c]) = 10 * number ds + (c.toNat - '0'.toNat) := by
  simp [number]

theorem digits_spec (k n : Nat) (h : n < k) :
    Digits (digits k n) ∧ number (digits k n) = n ∧
      ((digits k n).head? = some '0' → digits k n = ['0']) ∧ (0 < n → (digits k n).head? ≠ some '0') := by
  induction k generalizing n with
  | zero => omega
  | succ k ih =>
    rw [digits]
    split
    · rename_i hn
      have := digitChar_digit hn
      refine ⟨⟨by simp, by simpa using this.1⟩, ?_, by simp, ?_⟩
      · simpa [number] using this.2
      · intro hp
        have : ∀ m, m < 10 → 0 < m → digitChar m ≠ '0' := by decide
        simpa using this n hn hp
    · rename_i hn
      obtain ⟨h1, h2, h3, h4⟩ := ih (n / 10) (by omega)
      have hd := digitChar_digit (n := n % 10) (by omega)
      have hne := h4 (by omega)
      have hh : (digits k (n / 10) ++ [digitChar (n % 10)]).head? = (digits k (n / 10)).head? := by
        cases e : digits k (n / 10) with
        | nil => exact absurd e h1.1
        | cons => rfl
      refine ⟨⟨by simp, ?_⟩, ?_, ?_, ?_⟩
      · intro c hc
        rcases List.mem_append.mp hc with hc | hc
        · exact h1.2 c hc
        · rw [List.mem_singleton.mp hc]; exact hd.1
      · rw [number_snoc, h2, hd.2]; omega
      · rw [hh]; intro e; exact absurd e hne
      · rw [hh]; exact fun _ => hne

theorem decimal_spec (n : Nat) : IntPart (decimal n) ∧ number (decimal n) = n := by
  obtain ⟨h1, h2, h3, _⟩ := digits_spec (n + 1) n (by omega)
  exact ⟨⟨h1, h3⟩, h2⟩

theorem integer_spec {n : Int} (h : -2 ^ 63 ≤ n ∧ n < 2 ^ 64) : IsNum (integer n) (.num n) := by
  cases n with
  | ofNat n =>
    have := decimal_spec n
    have e := IsNum.nonneg this.1 (by rw [this.2]; have := h.2; simp only [Int.ofNat_eq_natCast] at this; omega)
    rw [this.2] at e
    exact e
  | negSucc n =>
    have := decimal_spec (n + 1)
    have e := IsNum.neg this.1 (by rw [this.2]; have := h.1; rw [Int.negSucc_eq] at this; omega)
    rw [this.2] at e
    exact e

/-! ## Strings -/

theorem escape_piece (c : Char) : Piece (escape c) c.toNat := by
  unfold escape
  have key : ∀ e : Char, c.toNat = e.toNat → c = e := fun e h => Char.toNat_inj.mp h
  split
  · rename_i h; subst h; exact .escape (by decide)
  split
  · rename_i h; subst h; exact .escape (by decide)
  split
  · rename_i h; rw [h]; exact .escape (by decide)
  split
  · rename_i h; rw [h]; exact .escape (by decide)
  split
  · rename_i h; rw [h]; exact .escape (by decide)
  split
  · rename_i h; rw [h]; exact .escape (by decide)
  split
  · rename_i h; rw [h]; exact .escape (by decide)
  split
  · rename_i h
    have hd : ∀ n, n < 16 → hexVal (digitChar n) = some n := by decide
    have := Piece.unicode (hexVal_iff.mp (hd 0 (by omega))) (hexVal_iff.mp (hd 0 (by omega)))
      (hexVal_iff.mp (hd (c.toNat / 16) (by omega))) (hexVal_iff.mp (hd (c.toNat % 16) (by omega)))
    have e : 0 * 16 ^ 3 + 0 * 16 ^ 2 + c.toNat / 16 * 16 + c.toNat % 16 = c.toNat := by omega
    rw [e] at this
    exact this
  · rename_i h1 h2 _ _ _ _ _ h
    exact .char (by omega) h1 h2

theorem escape_string (s : String) : IsString (s.toList.flatMap escape) s := by
  refine ⟨s.toList.map Char.toNat, ?_, ?_⟩
  · induction s.toList with
    | nil => exact .nil
    | cons c cs ih => exact .cons (escape_piece c) ih
  · induction s.toList with
    | nil => exact .nil
    | cons c cs ih => exact .one rfl ih

/-! ## Values -/

/-- The values that have a text: integers of the 64-bit types, texts in UTF-8, no byte strings. -/
inductive Writable : SVal → Prop
  | null : Writable .null
  | bool (b : Bool) : Writable (.bool b)
  | num {n : Int} (h : -2 ^ 63 ≤ n ∧ n < 2 ^ 64) : Writable (.num n)
  | str (s : String) : Writable (.str (utf8 s))
  | seq {vs : List SVal} (h : ∀ v ∈ vs, Writable v) : Writable (.seq vs)
  | map {kvs : List (String × SVal)} (h : ∀ p ∈ kvs, Writable p.2) : Writable (.map kvs)

theorem commas_cons {t : List Char} {ts : List (List Char)} (h : ts ≠ []) :
    commas (t :: ts) = t ++ ',' :: commas ts := by
  cases ts with
  | nil => exact absurd rfl h
  | cons => rfl

mutual
theorem write_isVal : (v : SVal) → Writable v → ∃ t, write v = some t ∧ IsVal t v
  | .null, _ => ⟨_, rfl, .null⟩
  | .bool true, _ => ⟨_, rfl, .true⟩
  | .bool false, _ => ⟨_, rfl, .false⟩
  | .num n, h => ⟨_, rfl, .num (integer_spec (by cases h; assumption))⟩
  | .str b, h => by
    cases h with
    | str s =>
      rw [write, ofUtf8_utf8]
      exact ⟨_, rfl, .str (escape_string s)⟩
  | .bytes b, h => by cases h
  | .other, h => by cases h
  | .seq vs, h => by
    have h : ∀ v ∈ vs, Writable v := by cases h; assumption
    obtain ⟨ts, h1, h2⟩ := writeElems_isElems vs h
    refine ⟨'[' :: commas ts ++ [']'], by simp [write, h1], ?_⟩
    rcases h2 with ⟨rfl, rfl⟩ | ⟨_, h2⟩
    · exact .empty White.nil
    · exact .arr h2
  | .map kvs, h => by
    have h : ∀ p ∈ kvs, Writable p.2 := by cases h; assumption
    obtain ⟨ts, h1, h2⟩ := writeMembers_isMembers kvs h
    refine ⟨'{' :: commas ts ++ ['}'], by simp [write, h1], ?_⟩
    rcases h2 with ⟨rfl, rfl⟩ | ⟨_, h2⟩
    · exact .none White.nil
    · exact .obj h2

theorem writeElems_isElems : (vs : List SVal) → (∀ v ∈ vs, Writable v) →
    ∃ ts, writeElems vs = some ts ∧ ((vs = [] ∧ ts = []) ∨ (ts ≠ [] ∧ IsElems (commas ts) vs))
  | [], _ => ⟨[], rfl, .inl ⟨rfl, rfl⟩⟩
  | v :: vs, h => by
    obtain ⟨t, h1, h2⟩ := write_isVal v (h v List.mem_cons_self)
    obtain ⟨ts, h3, h4⟩ := writeElems_isElems vs fun w hw => h w (List.mem_cons_of_mem _ hw)
    refine ⟨t :: ts, by simp [writeElems, h1, h3], .inr ⟨by simp, ?_⟩⟩
    rcases h4 with ⟨rfl, rfl⟩ | ⟨hne, h4⟩
    · have := IsElems.one White.nil h2 White.nil
      simpa [commas] using this
    · rw [commas_cons hne]
      have := IsElems.cons White.nil h2 White.nil h4
      simpa using this

theorem writeMembers_isMembers : (kvs : List (String × SVal)) → (∀ p ∈ kvs, Writable p.2) →
    ∃ ts, writeMembers kvs = some ts ∧ ((kvs = [] ∧ ts = []) ∨
      (ts ≠ [] ∧ IsMembers (commas ts) (kvs.map fun p => (some p.1, p.2))))
  | [], _ => ⟨[], rfl, .inl ⟨rfl, rfl⟩⟩
  | (k, v) :: kvs, h => by
    obtain ⟨t, h1, h2⟩ := write_isVal v (h (k, v) List.mem_cons_self)
    obtain ⟨ts, h3, h4⟩ := writeMembers_isMembers kvs fun w hw => h w (List.mem_cons_of_mem _ hw)
    refine ⟨(quoted k ++ ':' :: t) :: ts, by simp [writeMembers, h1, h3], .inr ⟨by simp, ?_⟩⟩
    rcases h4 with ⟨rfl, rfl⟩ | ⟨hne, h4⟩
    · have := IsMembers.one White.nil (.good (escape_string k)) White.nil White.nil h2 White.nil
      simpa [commas, quoted] using this
    · rw [commas_cons hne]
      have := IsMembers.cons White.nil (.good (escape_string k)) White.nil White.nil h2 White.nil h4
      simpa [quoted] using this
end

/-- Reading what was written. -/
theorem read_write {v : SVal} (h : Writable v) : ∃ t, write v = some t ∧ IsText t v ∧ read t = some v := by
  obtain ⟨t, h1, h2⟩ := write_isVal v h
  have : IsText t v := ⟨[], t, [], White.nil, h2, White.nil, by simp⟩
  exact ⟨t, h1, this, (read_iff t v).mpr this⟩

end JsonText
end BCash
