import Verif.Spec.Base64
import Verif.Proofs.Base64

/-! # C42: base64 text -/

namespace BCash
open Spec

theorem base64_char (n : Nat) (h : n < 64) : Base64.char n = base64Char n := by
  have : ∀ n : Fin 64, Base64.char n.1 = base64Char n.1 := by decide +kernel
  exact this ⟨n, h⟩

/-- **C42** (text of byte data): the text used for byte data is standard base64. -/
theorem C42_base64 (d : Bytes) : IsBase64 d (Base64.encode d).toList := by
  rw [Base64.encode, String.toList_ofList]
  fun_induction Base64.encodeChars d with
  | case1 => exact .nil
  | case2 a =>
    have ha := a.toNat_lt
    have := IsBase64.one a
    simp only [base64Group, List.take_succ_cons, List.take_zero, List.cons_append, List.nil_append] at this
    rw [base64_char _ (by omega), base64_char _ (by omega)]
    rw [show a.toNat * 2 ^ 16 / 2 ^ 18 = a.toNat / 4 by omega,
      show a.toNat * 2 ^ 16 / 2 ^ 12 % 2 ^ 6 = a.toNat % 4 * 16 by omega] at this
    exact this
  | case3 a b =>
    have ha := a.toNat_lt
    have hb := b.toNat_lt
    have := IsBase64.two a b
    simp only [base64Group, List.take_succ_cons, List.take_zero, List.cons_append, List.nil_append] at this
    rw [base64_char _ (by omega), base64_char _ (by omega), base64_char _ (by omega)]
    rw [show (a.toNat * 2 ^ 16 + b.toNat * 2 ^ 8) / 2 ^ 18 = a.toNat / 4 by omega,
      show (a.toNat * 2 ^ 16 + b.toNat * 2 ^ 8) / 2 ^ 12 % 2 ^ 6 = a.toNat % 4 * 16 + b.toNat / 16 by omega,
      show (a.toNat * 2 ^ 16 + b.toNat * 2 ^ 8) / 2 ^ 6 % 2 ^ 6 = b.toNat % 16 * 4 by omega] at this
    exact this
  | case4 a b c d ih =>
    have ha := a.toNat_lt
    have hb := b.toNat_lt
    have hc := c.toNat_lt
    have := IsBase64.group a b c d _ ih
    simp only [base64Group, List.cons_append, List.nil_append] at this
    rw [base64_char _ (by omega), base64_char _ (by omega), base64_char _ (by omega), base64_char _ (by omega)]
    rw [show (a.toNat * 2 ^ 16 + b.toNat * 2 ^ 8 + c.toNat) / 2 ^ 18 = a.toNat / 4 by omega,
      show (a.toNat * 2 ^ 16 + b.toNat * 2 ^ 8 + c.toNat) / 2 ^ 12 % 2 ^ 6 = a.toNat % 4 * 16 + b.toNat / 16 by omega,
      show (a.toNat * 2 ^ 16 + b.toNat * 2 ^ 8 + c.toNat) / 2 ^ 6 % 2 ^ 6 = b.toNat % 16 * 4 + c.toNat / 64 by omega,
      show (a.toNat * 2 ^ 16 + b.toNat * 2 ^ 8 + c.toNat) % 2 ^ 6 = c.toNat % 64 by omega] at this
    exact this

theorem base64_val {c : Char} {n : Nat} (h : Base64.val c = some n) : n < 64 ∧ Base64.char n = c := by
  unfold Base64.val at h
  obtain ⟨h1, h2, _⟩ := List.idxOf?_eq_some_iff.mp h
  refine ⟨h1, ?_⟩
  unfold Base64.char
  rw [List.getD_eq_getElem?_getD, List.getElem?_eq_getElem h1, Option.getD_some]
  exact h2

theorem decodeChars_sound (s : List Char) (d : Bytes) (h : Base64.decodeChars s = some d) :
    Base64.encodeChars d = s := by
  fun_induction Base64.decodeChars s generalizing d with
  | case1 => cases h; rfl
  | case2 => cases h
  | case3 w x rest hr =>
    simp only [ne_eq, Decidable.not_not] at hr
    subst hr
    obtain ⟨w', hw, h⟩ := Option.bind_eq_some_iff.mp h
    obtain ⟨x', hx, h⟩ := Option.bind_eq_some_iff.mp h
    split at h
    · next hm =>
      cases h
      obtain ⟨w1, w2⟩ := base64_val hw
      obtain ⟨x1, x2⟩ := base64_val hx
      simp only [Base64.encodeChars, UInt8.toNat_ofNat']
      rw [show (w' * 4 + x' / 16) % 2 ^ 8 / 4 = w' by omega, show (w' * 4 + x' / 16) % 2 ^ 8 % 4 * 16 = x' by omega, w2, x2]
    · cases h
  | case4 w x y rest hr hy =>
    simp only [ne_eq, Decidable.not_not] at hr
    subst hr
    obtain ⟨w', hw, h⟩ := Option.bind_eq_some_iff.mp h
    obtain ⟨x', hx, h⟩ := Option.bind_eq_some_iff.mp h
    obtain ⟨y', hy', h⟩ := Option.bind_eq_some_iff.mp h
    split at h
    · next hm =>
      cases h
      obtain ⟨w1, w2⟩ := base64_val hw
      obtain ⟨x1, x2⟩ := base64_val hx
      obtain ⟨y1, y2⟩ := base64_val hy'
      simp only [Base64.encodeChars, UInt8.toNat_ofNat']
      rw [show (w' * 4 + x' / 16) % 2 ^ 8 / 4 = w' by omega,
        show (w' * 4 + x' / 16) % 2 ^ 8 % 4 * 16 + (x' % 16 * 16 + y' / 4) % 2 ^ 8 / 16 = x' by omega,
        show (x' % 16 * 16 + y' / 4) % 2 ^ 8 % 16 * 4 = y' by omega, w2, x2, y2]
    · cases h
  | case5 w x y z rest hz ih =>
    obtain ⟨w', hw, h⟩ := Option.bind_eq_some_iff.mp h
    obtain ⟨x', hx, h⟩ := Option.bind_eq_some_iff.mp h
    obtain ⟨y', hy', h⟩ := Option.bind_eq_some_iff.mp h
    obtain ⟨z', hz', h⟩ := Option.bind_eq_some_iff.mp h
    obtain ⟨bs, hb, h⟩ := Option.bind_eq_some_iff.mp h
    cases h
    obtain ⟨w1, w2⟩ := base64_val hw
    obtain ⟨x1, x2⟩ := base64_val hx
    obtain ⟨y1, y2⟩ := base64_val hy'
    obtain ⟨z1, z2⟩ := base64_val hz'
    simp only [Base64.encodeChars, UInt8.toNat_ofNat']
    rw [show (w' * 4 + x' / 16) % 2 ^ 8 / 4 = w' by omega,
      show (w' * 4 + x' / 16) % 2 ^ 8 % 4 * 16 + (x' % 16 * 16 + y' / 4) % 2 ^ 8 / 16 = x' by omega,
      show (x' % 16 * 16 + y' / 4) % 2 ^ 8 % 16 * 4 + (y' % 4 * 64 + z') % 2 ^ 8 / 64 = y' by omega,
      show (y' % 4 * 64 + z') % 2 ^ 8 % 64 = z' by omega, w2, x2, y2, z2, ih _ hb]
  | case6 => cases h

theorem isBase64_unique {d : Bytes} {s t : List Char} (h : IsBase64 d s) (h' : IsBase64 d t) : s = t := by
  induction h generalizing t with
  | nil => cases h'; rfl
  | one a => cases h'; rfl
  | two a b => cases h'; rfl
  | group a b c d s h ih =>
    cases h' with
    | group _ _ _ _ s' h' => rw [ih h']

/-- **C42** (reading byte data): exactly standard base64 is read, as the bytes it stands for. -/
theorem C42_base64_read (s : String) (d : Bytes) : Base64.decode s = some d ↔ IsBase64 d s.toList := by
  constructor
  · intro h
    have := decodeChars_sound _ _ h
    have h2 := C42_base64 d
    rw [Base64.encode, String.toList_ofList, this] at h2
    exact h2
  · intro h
    have := isBase64_unique h (C42_base64 d)
    have e : s = Base64.encode d := String.toList_inj.mp this
    rw [e]
    exact Base64.decode_encode d

example : Base64.encode [0xfb, 0xff, 0xfe, 0x2a] = "+//+Kg==" := by decide +kernel

end BCash
