import Verif.Model.Base64

/-! # base64 decodes what it encoded -/

namespace BCash.Base64

theorem val_char (n : Nat) (h : n < 64) : val (char n) = some n := by
  have : ∀ n : Fin 64, val (char n.1) = some n.1 := by decide +kernel
  exact this ⟨n, h⟩

theorem char_ne (n : Nat) (h : n < 64) : char n ≠ '=' := by
  have : ∀ n : Fin 64, char n.1 ≠ '=' := by decide +kernel
  exact this ⟨n, h⟩

theorem ofNat_eq {n : Nat} {a : UInt8} (h : n = a.toNat) : UInt8.ofNat n = a := by
  subst h; exact UInt8.ofNat_toNat

theorem decodeChars_encodeChars (d : Bytes) : decodeChars (encodeChars d) = some d := by
  induction d using encodeChars.induct with
  | case1 => rfl
  | case2 a =>
    have ha := a.toNat_lt
    simp only [encodeChars, decodeChars]
    rw [val_char _ (by omega), val_char _ (by omega)]
    simp only [ne_eq, not_true_eq_false, if_false, if_true, Option.bind_some]
    rw [if_pos (by omega), ofNat_eq (a := a) (by omega)]
  | case3 a b =>
    have ha := a.toNat_lt
    have hb := b.toNat_lt
    simp only [encodeChars, decodeChars]
    rw [val_char _ (by omega), val_char _ (by omega), val_char _ (by omega)]
    simp only [ne_eq, not_true_eq_false, if_false, if_true, Option.bind_some]
    rw [if_neg (char_ne _ (by omega)), if_pos (by omega), ofNat_eq (a := a) (by omega),
      ofNat_eq (a := b) (by omega)]
  | case4 a b c rest ih =>
    have ha := a.toNat_lt
    have hb := b.toNat_lt
    have hc := c.toNat_lt
    simp only [encodeChars, decodeChars]
    rw [if_neg (char_ne _ (by omega)), val_char _ (by omega), val_char _ (by omega),
      val_char _ (by omega), val_char _ (by omega), ih]
    simp only [Option.bind_some]
    rw [ofNat_eq (a := a) (by omega), ofNat_eq (a := b) (by omega), ofNat_eq (a := c) (by omega)]

theorem decode_encode (d : Bytes) : decode (encode d) = some d := by
  unfold decode encode
  rw [String.toList_ofList]
  exact decodeChars_encodeChars d

end BCash.Base64
