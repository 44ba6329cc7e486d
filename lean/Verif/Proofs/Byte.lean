import Verif.Model.Basic

/-! Facts about single bytes, by complete enumeration of the 256 values in the kernel. -/

namespace BCash

theorem forall_u8 {P : UInt8 → Prop} (h : ∀ n : Fin 256, P (UInt8.ofNat n.val)) (b : UInt8) :
    P b := by
  have := h ⟨b.toNat, b.toNat_lt⟩
  simpa using this

set_option maxRecDepth 8000

theorem and80_ne : ∀ b : UInt8, (b &&& 0x80 ≠ 0 ↔ 128 ≤ b.toNat) := forall_u8 (by decide)
theorem and80_eq : ∀ b : UInt8, (b &&& 0x80 = 0 ↔ b.toNat < 128) := forall_u8 (by decide)
theorem and7f_ne : ∀ b : UInt8, (b &&& 0x7f ≠ 0 ↔ b.toNat % 128 ≠ 0) := forall_u8 (by decide)
theorem xor80_toNat (b : UInt8) (h : 128 ≤ b.toNat) : (b ^^^ 0x80).toNat = b.toNat - 128 :=
  forall_u8 (P := fun b => 128 ≤ b.toNat → (b ^^^ 0x80).toNat = b.toNat - 128) (by decide) b h
theorem or0 : ∀ b : UInt8, (b ||| 0 = b) := forall_u8 (by decide)
theorem or80_toNat (b : UInt8) (h : b.toNat < 128) : (b ||| 0x80).toNat = b.toNat + 128 :=
  forall_u8 (P := fun b => b.toNat < 128 → (b ||| 0x80).toNat = b.toNat + 128) (by decide) b h
theorem mod128_cases (b : UInt8) (h : b.toNat % 128 = 0) : b = 0 ∨ b = 0x80 :=
  forall_u8 (P := fun b => b.toNat % 128 = 0 → b = 0 ∨ b = 0x80) (by decide) b h
theorem ne_zero_toNat : ∀ b : UInt8, (b ≠ 0 ↔ b.toNat ≠ 0) := forall_u8 (by decide)

theorem toNat_lt256 (b : UInt8) : b.toNat < 256 := b.toNat_lt

end BCash
