import Verif.Model.IntegerConv
import Verif.Props.Integer
import Std.Data.String.ToInt

/-! # C83 — machine integers beside script integers -/

namespace BCash
open BCash.Spec

/-- The mathematical value an operand stands for; a computation that already failed has none. -/
def Operand.number : Operand → Option Int
  | .machine _ x => some x
  | .integer x => some x
  | .result (.ok x) => some x
  | .result (.error _) => none

/-- Operands a program can have: a machine integer inside its type, or a script integer (C09). -/
def Operand.Proper (w : Nat) : Operand → Prop
  | .machine ty x => ty.Holds w x
  | .integer x => InScriptRange x
  | .result (.ok x) => InScriptRange x
  | .result (.error _) => True

/-- Spec: the arithmetic operator an operator symbol stands for. -/
def Spec.arithOf : MixedOp → Option BinOp
  | .add => some .add | .sub => some .sub | .mul => some .mul
  | .div => some .div | .rem => some .rem | _ => none

/-- Spec: the bitwise operator an operator symbol stands for. -/
def Spec.bitOpOf : MixedOp → Option BitOp
  | .band => some .and | .bor => some .or | .bxor => some .xor | _ => none

theorem small_in_range {w : Nat} {ty : MachineTy} {x : Int}
    (hty : ty = .i8 ∨ ty = .u8 ∨ ty = .i16 ∨ ty = .u16) (hx : ty.Holds w x) : InScriptRange x := by
  rcases hty with rfl | rfl | rfl | rfl <;> simp only [MachineTy.Holds] at hx <;>
    unfold InScriptRange <;> omega

theorem into_eq_tryFrom (ty : MachineTy) (x : Int) :
    (Operand.machine ty x).into = Integer.tryFrom ty x := by
  cases ty <;> rfl

theorem tryFrom_eq_new {w : Nat} {ty : MachineTy} {x : Int} (hx : ty.Holds w x) :
    Integer.tryFrom ty x = Integer.new x := by
  by_cases hty : ty = .i8 ∨ ty = .u8 ∨ ty = .i16 ∨ ty = .u16
  · have h := (new_ok_iff x x).2 ⟨rfl, small_in_range hty hx⟩
    rw [h]
    rcases hty with rfl | rfl | rfl | rfl <;> rfl
  · cases ty <;> simp at hty <;> rfl

/-- Spec: the number of bits of a machine integer type; `w` is the pointer width. -/
def Spec.typeBits (w : Nat) : MachineTy → Nat
  | .i8 | .u8 => 8
  | .i16 | .u16 => 16
  | .i32 | .u32 => 32
  | .i64 | .u64 => 64
  | .i128 | .u128 => 128
  | .isize | .usize => w

/-- Spec: whether a machine integer type is signed. -/
def Spec.typeSigned : MachineTy → Bool
  | .i8 | .i16 | .i32 | .i64 | .i128 | .isize => true
  | _ => false

/-- **C83** (the types): the values over which this property ranges are exactly those of the bit patterns
of the type's width, read as two's complement if the type is signed and as a natural number otherwise. -/
theorem C83_types (w : Nat) (hw : 0 < w) (ty : MachineTy) (x : Int) :
    ty.Holds w x ↔ ∃ b : BitVec (Spec.typeBits w ty),
      x = if Spec.typeSigned ty then b.toInt else (b.toNat : Int) := by
  have key : ∀ n : Nat, 0 < n → ((-2 ^ (n - 1) ≤ x ∧ x < 2 ^ (n - 1)) ↔ ∃ b : BitVec n, x = b.toInt) := by
    intro n hn
    constructor
    · rintro ⟨h1, h2⟩
      refine ⟨BitVec.ofInt n x, ?_⟩
      rw [BitVec.toInt_ofInt]
      have h2n : (2 : Int) ^ n = 2 * 2 ^ (n - 1) := by
        obtain ⟨m, rfl⟩ : ∃ m, n = m + 1 := ⟨n - 1, by omega⟩
        rw [Nat.add_sub_cancel, Int.pow_succ]; omega
      rw [Int.bmod_eq_of_le]
      · push_cast; omega
      · push_cast; omega
    · rintro ⟨b, rfl⟩
      have h1 := b.le_toInt
      have h2 := b.toInt_lt
      exact ⟨h1, h2⟩
  have keyu : ∀ n : Nat, ((0 ≤ x ∧ x < 2 ^ n) ↔ ∃ b : BitVec n, x = (b.toNat : Int)) := by
    intro n
    constructor
    · rintro ⟨h1, h2⟩
      refine ⟨BitVec.ofInt n x, ?_⟩
      rw [BitVec.toNat_ofInt, Int.toNat_of_nonneg]
      · rw [Int.emod_eq_of_lt h1 (by push_cast; exact h2)]
      · apply Int.emod_nonneg
        have : (0 : Int) < ((2 ^ n : Nat) : Int) := by exact_mod_cast Nat.pow_pos (by decide)
        omega
    · rintro ⟨b, rfl⟩
      refine ⟨by omega, ?_⟩
      have := b.isLt
      exact_mod_cast this
  cases ty
  · exact key 8 (by decide)
  · exact keyu 8
  · exact key 16 (by decide)
  · exact keyu 16
  · exact key 32 (by decide)
  · exact keyu 32
  · exact key 64 (by decide)
  · exact keyu 64
  · exact key 128 (by decide)
  · exact keyu 128
  · exact key w hw
  · exact keyu w

/-- The largest `u16` and the smallest `isize` of a 32-bit platform are values, their neighbours are not. -/
example : MachineTy.u16.Holds 32 65535 ∧ ¬ MachineTy.u16.Holds 32 65536 ∧
    MachineTy.isize.Holds 32 (-2147483648) ∧ ¬ MachineTy.isize.Holds 32 (-2147483649) ∧
    (∃ b : BitVec (Spec.typeBits 32 .isize), (-2147483648 : Int) = b.toInt) := by
  refine ⟨?_, ?_, ?_, ?_, ⟨BitVec.ofNat 32 2147483648, by decide⟩⟩ <;>
    · simp only [MachineTy.Holds]; decide

/-- **C83** (conversion): a machine integer of any of the twelve types becomes the script integer of the
same value exactly if it is a script integer — by `Integer::try_from` and by `IntegerResult::from`, which
agree. Otherwise the error tells the value: `InvalidScriptInteger` for −2^31 alone, `CastOverflow` with
the value, or `CastOverflowI128` if it does not even fit an `i128`. -/
theorem C83_convert (w : Nat) (ty : MachineTy) (x : Int) (hx : ty.Holds w x) :
    (∀ v, Integer.tryFrom ty x = .ok v ↔ v = x ∧ InScriptRange x) ∧
    (∀ e, Integer.tryFrom ty x = .error e ↔
      x = -2 ^ 31 ∧ e = .invalidScriptInteger x ∨
      (x < -2 ^ 31 ∧ -2 ^ 127 ≤ x ∨ 2 ^ 31 ≤ x ∧ x < 2 ^ 127) ∧ e = .castOverflow x ∨
      (x < -2 ^ 127 ∨ 2 ^ 127 ≤ x) ∧ e = .castOverflowI128) ∧
    (Operand.machine ty x).into = Integer.tryFrom ty x ∧
    IntegerResult.value (Operand.machine ty x).into = Integer.tryFrom ty x := by
  have hn := tryFrom_eq_new hx
  refine ⟨fun v => by rw [hn]; exact new_ok_iff x v, fun e => ?_, into_eq_tryFrom ty x, ?_⟩
  · rw [hn]
    unfold Integer.new
    have h31 : (2 : Int) ^ 31 = 2147483648 := by decide
    have h127 : (2 : Int) ^ 127 = 170141183460469231731687303715884105728 := by decide
    have hm : MIN_SCRIPT_INTEGER = -2147483647 := by decide
    have hM : MAX_SCRIPT_INTEGER = 2147483647 := by decide
    unfold InI32
    rw [h31, h127, hm, hM]
    by_cases h1 : -2147483648 ≤ x ∧ x < 2147483648
    · rw [if_pos h1]
      by_cases h2 : -2147483647 ≤ x ∧ x ≤ 2147483647
      · rw [if_pos h2]
        constructor
        · intro h; cases h
        · rintro (⟨h, _⟩ | ⟨h, _⟩ | ⟨h, _⟩) <;> omega
      · rw [if_neg h2]
        constructor
        · intro h; cases h; exact Or.inl ⟨by omega, rfl⟩
        · rintro (⟨_, rfl⟩ | ⟨h, _⟩ | ⟨h, _⟩)
          · rfl
          · omega
          · omega
    · rw [if_neg h1]
      by_cases h2 : -170141183460469231731687303715884105728 ≤ x ∧
          x < 170141183460469231731687303715884105728
      · rw [if_pos h2]
        constructor
        · intro h; cases h; exact Or.inr (Or.inl ⟨by omega, rfl⟩)
        · rintro (⟨h, _⟩ | ⟨_, rfl⟩ | ⟨h, _⟩)
          · omega
          · rfl
          · omega
      · rw [if_neg h2]
        constructor
        · intro h; cases h; exact Or.inr (Or.inr ⟨by omega, rfl⟩)
        · rintro (⟨h, _⟩ | ⟨h, _⟩ | ⟨_, rfl⟩)
          · omega
          · omega
          · rfl
  · rw [into_eq_tryFrom]
    unfold IntegerResult.value
    cases Integer.tryFrom ty x <;> rfl

/-- The hypothesis is met by values of every kind: a `u128` too large for `i128`, a `usize`, `i32::MIN`. -/
example : MachineTy.u128.Holds 64 (2 ^ 127 + 5) ∧
    Integer.tryFrom .u128 (2 ^ 127 + 5) = .error .castOverflowI128 ∧
    Integer.tryFrom .usize (2 ^ 40) = .error (.castOverflow (2 ^ 40)) ∧
    Integer.tryFrom .i32 (-2 ^ 31) = .error (.invalidScriptInteger (-2 ^ 31)) ∧
    Integer.tryFrom .i64 (-2147483647) = .ok (-2147483647) := by
  refine ⟨?_, by decide, by decide, by decide, by decide⟩
  simp only [MachineTy.Holds]; decide

/-- **C83** (small types): an 8- or 16-bit integer of either sign always converts, to the script integer
of the same value. -/
theorem C83_small (w : Nat) (ty : MachineTy) (x : Int) (hx : ty.Holds w x)
    (hty : ty = .i8 ∨ ty = .u8 ∨ ty = .i16 ∨ ty = .u16) :
    InScriptRange x ∧ Integer.tryFrom ty x = .ok x ∧ (Operand.machine ty x).into = .ok x := by
  have h := small_in_range hty hx
  have ht := ((C83_convert w ty x hx).1 x).2 ⟨rfl, h⟩
  exact ⟨h, ht, (into_eq_tryFrom ty x).trans ht⟩

example : MachineTy.u16.Holds 64 65535 ∧ Integer.tryFrom .u16 65535 = .ok 65535 := by
  refine ⟨?_, rfl⟩; simp only [MachineTy.Holds]; decide

theorem into_ok_iff {w : Nat} {b : Operand} (hb : b.Proper w) (v : Int) :
    b.into = .ok v ↔ b.number = some v ∧ InScriptRange v := by
  cases b with
  | machine ty x =>
    rw [into_eq_tryFrom, (C83_convert w ty x hb).1 v]
    simp only [Operand.number, Option.some.injEq]
    constructor
    · rintro ⟨rfl, h⟩; exact ⟨rfl, h⟩
    · rintro ⟨rfl, h⟩; exact ⟨rfl, h⟩
  | integer x =>
    simp only [Operand.into, Operand.number, Except.ok.injEq, Option.some.injEq]
    constructor
    · rintro rfl; exact ⟨rfl, hb⟩
    · rintro ⟨rfl, _⟩; rfl
  | result r =>
    cases r with
    | error e => simp [Operand.into, Operand.number]
    | ok x =>
      simp only [Operand.into, Operand.number, Except.ok.injEq, Option.some.injEq]
      constructor
      · rintro rfl; exact ⟨rfl, hb⟩
      · rintro ⟨rfl, _⟩; rfl

/-- **C83** (mixed arithmetic): `a op b` with a script integer on the left and any machine integer,
script integer or earlier result on the right is `v` exactly if the right operand is a script integer
and `v` is the mathematical result and a script integer. -/
theorem C83_mixed_arith (w : Nat) (op : MixedOp) (m : BinOp) (a v : Int) (b : Operand)
    (ha : InScriptRange a) (hb : b.Proper w) (hop : Spec.arithOf op = some m) :
    Integer.mixed op a b = .ok v ↔
      ∃ y, b.number = some y ∧ InScriptRange y ∧ m.math a y = some v ∧ InScriptRange v := by
  have key : Integer.mixed op a b = libOp m (.ok a) b.into := by
    cases op <;> simp only [Spec.arithOf, Option.some.injEq, reduceCtorEq] at hop <;> subst hop <;> rfl
  rw [key]
  constructor
  · intro h
    cases hy : b.into with
    | error e =>
      rw [hy] at h
      cases m <;> simp [libOp, IntegerResult.add, IntegerResult.sub, IntegerResult.mul,
        IntegerResult.div, IntegerResult.rem, IntegerResult.op] at h
    | ok y =>
      rw [hy] at h
      have := (into_ok_iff hb y).1 hy
      exact ⟨y, this.1, this.2, (C07_arith_exact m a y v ha).1 h⟩
  · rintro ⟨y, h1, h2, h3⟩
    rw [(into_ok_iff hb y).2 ⟨h1, h2⟩]
    exact (C07_arith_exact m a y v ha).2 h3

example : Integer.mixed .sub 5 (.machine .u64 7) = .ok (-2) ∧
    Integer.mixed .add 5 (.machine .u64 (2 ^ 40)) = .error (.castOverflow (2 ^ 40)) ∧
    Spec.arithOf .sub = some .sub := by
  refine ⟨?_, ?_, ?_⟩ <;> decide

/-- **C83** (mixed bitwise operators): likewise for `&`, `|` and `^`, with the result whose
two's-complement bits are the operator applied to the operands' bits. -/
theorem C83_mixed_bitwise (w : Nat) (op : MixedOp) (m : BitOp) (a v : Int) (b : Operand)
    (ha : InScriptRange a) (hb : b.Proper w) (hop : Spec.bitOpOf op = some m) :
    Integer.mixed op a b = .ok v ↔
      ∃ y, b.number = some y ∧ InScriptRange y ∧
        (∀ i, bitOf v i = m.bit (bitOf a i) (bitOf y i)) ∧ InScriptRange v := by
  have key : Integer.mixed op a b = m.lib (.ok a) b.into := by
    cases op <;> simp only [Spec.bitOpOf, Option.some.injEq, reduceCtorEq] at hop <;> subst hop <;> rfl
  rw [key]
  constructor
  · intro h
    cases hy : b.into with
    | error e =>
      rw [hy] at h
      cases m <;> simp [Spec.BitOp.lib, IntegerResult.band, IntegerResult.bor, IntegerResult.bxor,
        IntegerResult.op] at h
    | ok y =>
      rw [hy] at h
      have := (into_ok_iff hb y).1 hy
      exact ⟨y, this.1, this.2, (C65_bitwise_exact m a y v ha this.2).1 h⟩
  · rintro ⟨y, h1, h2, h3⟩
    rw [(into_ok_iff hb y).2 ⟨h1, h2⟩]
    exact (C65_bitwise_exact m a y v ha h2).2 h3

example : Integer.mixed .bor 5 (.machine .u8 10) = .ok 15 := by decide

/-- **C83** (mixed operators, left error): an errored left operand stays what it is, whatever stands on
the right; with a good left operand, the right operand's error is the result. -/
theorem C83_mixed_error (op : MixedOp) (e : IntegerError) (b : Operand) :
    IntegerResult.mixed op (.error e) b = .error e ∧
    (∀ a, b.into = .error e → IntegerResult.mixed op (.ok a) b = .error e) := by
  refine ⟨?_, fun a h => ?_⟩
  · cases op <;> rfl
  · cases op <;> simp [IntegerResult.mixed, IntegerResult.add, IntegerResult.sub, IntegerResult.mul,
      IntegerResult.div, IntegerResult.rem, IntegerResult.band, IntegerResult.bor,
      IntegerResult.bxor, IntegerResult.op, h]

example : (Operand.machine .u64 (2 ^ 40)).into = .error (.castOverflow (2 ^ 40)) := by decide

/-- **C83** (mixed equality): a script integer equals a machine integer (or script integer, or result)
exactly if their values are equal. -/
theorem C83_equal (w : Nat) (a : Int) (b : Operand) (ha : InScriptRange a) (hb : b.Proper w) :
    (IntegerResult.eqOperand (.ok a) b = true ↔ b.number = some a) ∧
    (∀ y, b.number = some y → (Integer.eqSmall a y = true ↔ a = y)) := by
  refine ⟨?_, fun y _ => by simp [Integer.eqSmall]⟩
  unfold IntegerResult.eqOperand
  rw [(C08_error_compare _ _).1]
  constructor
  · rintro ⟨x, h1, h2⟩
    cases h1
    exact ((into_ok_iff hb a).1 h2).1
  · intro h
    exact ⟨a, rfl, (into_ok_iff hb a).2 ⟨h, ha⟩⟩

example : IntegerResult.eqOperand (.ok 7) (.machine .u128 7) = true ∧
    IntegerResult.eqOperand (.ok 0) (.machine .u64 (2 ^ 32)) = false := by decide

/-- **C83** (mixed order) is false of the code: a machine integer above the script range is not greater
than a script integer; every ordering test with it is false. -/
theorem C83_order_fails : ∃ (a y : Int), InScriptRange a ∧ MachineTy.u64.Holds 64 y ∧ a < y ∧
    Operand.lt (.ok a) (.machine .u64 y) = false ∧ Operand.le (.ok a) (.machine .u64 y) = false := by
  refine ⟨5, 2 ^ 40, by decide, ?_, by decide, by decide, by decide⟩
  simp only [MachineTy.Holds]; decide

/-- **C83** (mixed order): between a script integer and an operand that is a script integer the order is
that of the integers. Missing: an operand outside the script range has no order with anything (the test
is false either way). -/
theorem C83_order_partial (w : Nat) (a : Int) (b : Operand) (hb : b.Proper w) :
    (∀ y, b.number = some y → InScriptRange y →
      IntegerResult.cmpOperand (.ok a) b = some (compare a y) ∧
      (Operand.lt (.ok a) b = true ↔ a < y) ∧ (Operand.le (.ok a) b = true ↔ a ≤ y) ∧
      Integer.cmpSmall a y = some (compare a y)) ∧
    ((∀ y, b.number = some y → ¬ InScriptRange y) →
      IntegerResult.cmpOperand (.ok a) b = none ∧
      Operand.lt (.ok a) b = false ∧ Operand.le (.ok a) b = false) := by
  constructor
  · intro y hy hr
    have h := (into_ok_iff hb y).2 ⟨hy, hr⟩
    have hc : IntegerResult.cmpOperand (.ok a) b = some (compare a y) := by
      unfold IntegerResult.cmpOperand; rw [h]; rfl
    refine ⟨hc, ?_, ?_, rfl⟩
    · unfold Operand.lt; rw [hc]
      simp [Int.compare_eq_lt]
    · unfold Operand.le; rw [hc]
      simp only [Option.some_beq_some, Bool.or_eq_true, beq_iff_eq, Int.compare_eq_lt,
        Int.compare_eq_eq]
      omega
  · intro hn
    cases h : b.into with
    | ok y =>
      have := (into_ok_iff hb y).1 h
      exact absurd this.2 (hn y this.1)
    | error e =>
      have hc : IntegerResult.cmpOperand (.ok a) b = none := by
        unfold IntegerResult.cmpOperand; rw [h]; rfl
      refine ⟨hc, ?_, ?_⟩
      · unfold Operand.lt; rw [hc]; rfl
      · unfold Operand.le; rw [hc]; rfl

example : Operand.lt (.ok 5) (.machine .u64 6) = true ∧
    Operand.lt (.ok 5) (.machine .i8 (-6)) = false := by decide

/-- **C83** (text): the text of a script integer is its decimal notation, so different integers have
different texts, and no integer's text is that of an error. -/
theorem C83_text (a b : Int) (e : IntegerError) :
    (IntegerResult.display (.ok a) = IntegerResult.display (.ok b) ↔ a = b) ∧
    (IntegerResult.display (.ok a)).toInt? = some a ∧
    IntegerResult.display (.ok a) ≠ IntegerResult.display (.error e) := by
  refine ⟨?_, Int.toInt?_repr a, ?_⟩
  · constructor
    · intro h
      exact Int.repr_injective h
    · rintro rfl; rfl
  · intro h
    have hint := Int.isInt_repr a
    have h' : a.repr = s!"(integer error: {e.display})" := h
    have hl := congrArg String.toList h'
    rw [Int.repr_eq_if] at hl
    have hr : (s!"(integer error: {e.display})").toList =
        '(' :: ("integer error: " ++ e.display ++ ")").toList := by
      simp [String.toList_append, toString]
    rw [hr] at hl
    split at hl
    · have hd : '(' ∈ a.toNat.repr.toList := by rw [hl]; exact List.mem_cons_self
      rw [Nat.toList_repr] at hd
      have := Nat.isDigit_of_mem_toDigits (by omega) (by omega) hd
      simp at this
    · simp [String.toList_append] at hl

example : IntegerResult.display (.ok (-12)) = "-12" ∧
    IntegerResult.display (.error (.castOverflow 4294967296)) =
      "(integer error: Cast overflowed: 4294967296)" := by
  constructor <;> decide +kernel

end BCash
