import Verif.Model.Integer
import Verif.Spec.Integer
import Verif.Props.ScriptNum

/-! # C07, C08, C09, C65: script integer arithmetic -/

namespace BCash
open Spec

/-- The library operator for each arithmetic operator. -/
def libOp : BinOp → IntegerResult → IntegerResult → IntegerResult
  | .add => IntegerResult.add
  | .sub => IntegerResult.sub
  | .mul => IntegerResult.mul
  | .div => IntegerResult.div
  | .rem => IntegerResult.rem

theorem new_ok_iff (x v : Int) : Integer.new x = .ok v ↔ v = x ∧ InScriptRange x := by
  unfold Integer.new InScriptRange MIN_SCRIPT_INTEGER MAX_SCRIPT_INTEGER
  by_cases h : InI32 x
  · rw [if_pos h]
    by_cases h2 : -0x7fffffff ≤ x ∧ x ≤ 0x7fffffff
    · rw [if_pos h2]
      simp only [Except.ok.injEq]
      constructor
      · intro e; exact ⟨e.symm, by omega⟩
      · intro e; exact e.1.symm
    · rw [if_neg h2]; simp only [reduceCtorEq, false_iff]; omega
  · rw [if_neg h]
    have : ¬ (v = x ∧ -(2 ^ 31 - 1) ≤ x ∧ x ≤ 2 ^ 31 - 1) := by omega
    split <;> (simp only [reduceCtorEq, false_iff]; exact this)

theorem op_ok_iff (f : Int → Int → Except IntegerError Int) (a b : IntegerResult) (v : Int) :
    a.op b f = .ok v ↔ ∃ x y r, a = .ok x ∧ b = .ok y ∧ f x y = .ok r ∧ v = r ∧ InScriptRange r := by
  unfold IntegerResult.op
  cases a with
  | error e => simp
  | ok x =>
    cases b with
    | error e => simp
    | ok y =>
      cases hf : f x y with
      | error e => simp [hf]
      | ok r => simp [hf, new_ok_iff]

theorem tdiv_range (a b : Int) (ha : InScriptRange a) : InI32 (a.tdiv b) := by
  have h := Int.natAbs_tdiv_le_natAbs a b
  unfold InScriptRange at ha
  omega

theorem tmod_range (a b : Int) (ha : InScriptRange a) : InScriptRange (a.tmod b) := by
  have h : (a.tmod b).natAbs ≤ a.natAbs := by
    rw [Int.natAbs_tmod]; exact Nat.mod_le _ _
  unfold InScriptRange at *
  omega

/-- **C07**: on script integers every operator returns `v` exactly when `v` is the mathematical
result (truncating division, nonzero divisor) and is a script integer; otherwise it returns an
error (the result type has no panic). -/
theorem C07_arith_exact (op : BinOp) (a b v : Int) (ha : InScriptRange a) :
    libOp op (.ok a) (.ok b) = .ok v ↔ op.math a b = some v ∧ InScriptRange v := by
  have chk : ∀ (x : Int) (e : IntegerError) (r : Int),
      checked x e = .ok r ∧ InScriptRange r ↔ some x = some r ∧ InScriptRange r := by
    intro x e r
    unfold checked InScriptRange
    by_cases h : InI32 x
    · rw [if_pos h]; simp
    · rw [if_neg h]; simp only [reduceCtorEq, false_and, Option.some.injEq, false_iff]; omega
  have hop : ∀ (f : Int → Int → Except IntegerError Int) (m : Option Int),
      (∀ r, f a b = .ok r ∧ InScriptRange r ↔ m = some r ∧ InScriptRange r) →
      (IntegerResult.op (.ok a) (.ok b) f = .ok v ↔ m = some v ∧ InScriptRange v) := by
    intro f m hf
    rw [op_ok_iff, ← hf]
    constructor
    · rintro ⟨x, y, r, hx, hy, h3, h4, h5⟩
      cases hx; cases hy; subst h4; exact ⟨h3, h5⟩
    · rintro ⟨h1, h2⟩
      exact ⟨a, b, v, rfl, rfl, h1, rfl, h2⟩
  cases op with
  | add => exact hop (fun a b => checked (a + b) (.addOverflow a b)) _ (chk _ _)
  | sub => exact hop (fun a b => checked (a - b) (.subOverflow a b)) _ (chk _ _)
  | mul => exact hop (fun a b => checked (a * b) (.mulOverflow a b)) _ (chk _ _)
  | div =>
    refine hop (fun a b => checkedDiv a b (.division a b)) _ ?_
    intro r
    unfold checkedDiv
    simp only [BinOp.math]
    by_cases hb : b = 0
    · simp [hb]
    · simp only [hb, if_false]; exact chk _ _ _
  | rem =>
    refine hop (fun a b => checkedRem a b (.modulo a b)) _ ?_
    intro r
    unfold checkedRem
    simp only [BinOp.math]
    by_cases hb : b = 0
    · simp [hb]
    · rw [if_neg hb, if_neg hb, if_pos (tdiv_range a b ha)]; simp

/-- **C07** (negation): negation of a script integer is exact, in both the checked and the
unchecked form, and never panics. -/
theorem C07_neg_exact (a : Int) (ha : InScriptRange a) :
    IntegerResult.neg (.ok a) = .ok (-a) ∧ Integer.neg a = .ok (-a) := by
  have h : InI32 (-a) := by unfold InScriptRange at ha; omega
  have h' : InScriptRange (-a) := by unfold InScriptRange at *; omega
  constructor
  · simp only [IntegerResult.neg, IntegerResult.unop, checked]
    rw [if_pos h]; exact (new_ok_iff _ _).mpr ⟨rfl, h'⟩
  · simp only [Integer.neg]; rw [if_pos h]

example : libOp .mul (.ok 46341) (.ok 46341) = .error (.mulOverflow 46341 46341) ∧
    libOp .sub (.ok (-0x7fffffff)) (.ok 1) = .error (.invalidScriptInteger (-0x80000000)) ∧
    libOp .div (.ok (-7)) (.ok 2) = .ok (-3) ∧ libOp .rem (.ok (-7)) (.ok 2) = .ok (-1) := by decide

/-- Evaluating an expression with the library operators. -/
def evalLib : Expr → IntegerResult
  | .lit x => Integer.new x
  | .neg e => (evalLib e).neg
  | .bin op l r => libOp op (evalLib l) (evalLib r)

theorem evalLib_range (e : Expr) (v : Int) (h : evalLib e = .ok v) : InScriptRange v := by
  cases e with
  | lit x => simp only [evalLib, new_ok_iff] at h; rw [h.1]; exact h.2
  | neg e =>
    simp only [evalLib, IntegerResult.neg, IntegerResult.unop] at h
    split at h
    · simp at h
    · split at h
      · simp at h
      · rw [new_ok_iff] at h; rw [h.1]; exact h.2
  | bin op l r =>
    have : ∃ f, libOp op (evalLib l) (evalLib r) = IntegerResult.op (evalLib l) (evalLib r) f := by
      cases op <;> exact ⟨_, rfl⟩
    obtain ⟨f, hf⟩ := this
    simp only [evalLib] at h
    rw [hf, op_ok_iff] at h
    obtain ⟨x, y, r', _, _, _, h4, h5⟩ := h
    rw [h4]; exact h5

/-- **C07** (expressions): an arithmetic expression of any depth over machine integer literals
evaluates to `v` exactly if `v` is its exact mathematical value and all intermediate values exist
and are script integers; otherwise it evaluates to an error. -/
theorem C07_expr_exact (e : Expr) (v : Int) : evalLib e = .ok v ↔ e.value = some v := by
  induction e generalizing v with
  | lit x =>
    simp only [evalLib, Expr.value, new_ok_iff]
    by_cases h : InScriptRange x
    · rw [if_pos h]; simp [h, eq_comm]
    · rw [if_neg h]; simp [h]
  | neg e ih =>
    simp only [Expr.value, evalLib]
    cases hv : e.value with
    | none =>
      cases he : evalLib e with
      | ok w => rw [ih] at he; rw [hv] at he; simp at he
      | error err => simp [IntegerResult.neg, IntegerResult.unop]
    | some w =>
      have hw := (ih w).mpr hv
      have hr := evalLib_range e w hw
      have hr' : InScriptRange (-w) := by unfold InScriptRange at *; omega
      rw [hw, (C07_neg_exact w hr).1]
      simp [hr']
  | bin op l r ihl ihr =>
    simp only [Expr.value, evalLib]
    have he : ∃ f, ∀ a b, libOp op a b = IntegerResult.op a b f := by
      cases op <;> exact ⟨_, fun _ _ => rfl⟩
    obtain ⟨f, hf⟩ := he
    cases hl : l.value with
    | none =>
      cases he : evalLib l with
      | ok w => rw [ihl] at he; rw [hl] at he; simp at he
      | error err => simp [hf, IntegerResult.op]
    | some a =>
      have ha := (ihl a).mpr hl
      cases hr : r.value with
      | none =>
        cases he : evalLib r with
        | ok w => rw [ihr] at he; rw [hr] at he; simp at he
        | error err => rw [ha]; simp [hf, IntegerResult.op]
      | some b =>
        have hb := (ihr b).mpr hr
        rw [ha, hb, C07_arith_exact op a b v (evalLib_range l a ha)]
        simp only [Option.bind_some]
        cases op.math a b with
        | none => simp
        | some w =>
          simp only [Option.some.injEq, Option.bind_some]
          by_cases hs : InScriptRange w
          · rw [if_pos hs]
            constructor
            · rintro ⟨h, _⟩; rw [h]
            · intro h; simp only [Option.some.injEq] at h; exact ⟨h, h ▸ hs⟩
          · rw [if_neg hs]; simp only [reduceCtorEq, iff_false]
            rintro ⟨h, h2⟩; exact hs (h ▸ h2)

theorem value_none (e : Expr) (h : e.value = none) : ∃ err, evalLib e = .error err := by
  cases he : evalLib e with
  | error err => exact ⟨err, rfl⟩
  | ok v => rw [C07_expr_exact, h] at he; simp at he

example : (Expr.bin .div (.bin .add (.lit 2000000000) (.lit 100)) (.neg (.lit 7))).value
    = some (-285714300) := by decide

/-! ### C08 -/

/-- Spec: the error of a failing arithmetic step names the operator and both operands. -/
def Spec.stepError : BinOp → Int → Int → IntegerError
  | .add => .addOverflow
  | .sub => .subOverflow
  | .mul => .mulOverflow
  | .div => .division
  | .rem => .modulo

/-- The error a reader would point at: the leftmost-innermost failing step in evaluation order. A
literal fails if it is not a script integer; an operator fails if the exact result does not exist, does
not fit in 32 bits, or is the one 32-bit integer that is not a script integer. -/
inductive Fails : Expr → IntegerError → Prop
  | litMin : Fails (.lit (-2 ^ 31)) (.invalidScriptInteger (-2 ^ 31))
  | lit {x} : x < -2 ^ 31 ∨ 2 ^ 31 ≤ x → -2 ^ 127 ≤ x → x < 2 ^ 127 → Fails (.lit x) (.castOverflow x)
  | litHuge {x} : x < -2 ^ 127 ∨ 2 ^ 127 ≤ x → Fails (.lit x) .castOverflowI128
  | neg {a e} : Fails a e → Fails (.neg a) e
  | left {op l r e} : Fails l e → Fails (.bin op l r) e
  | right {op l r v e} : l.value = some v → Fails r e → Fails (.bin op l r) e
  | undef {op l r a b} : l.value = some a → r.value = some b → op.math a b = none →
      Fails (.bin op l r) (stepError op a b)
  | over {op l r a b v} : l.value = some a → r.value = some b → op.math a b = some v →
      v < -2 ^ 31 ∨ 2 ^ 31 ≤ v → Fails (.bin op l r) (stepError op a b)
  | min {op l r a b} : l.value = some a → r.value = some b → op.math a b = some (-2 ^ 31) →
      Fails (.bin op l r) (.invalidScriptInteger (-2 ^ 31))

theorem new_error_iff (x : Int) (e : IntegerError) : Integer.new x = .error e ↔
    (x = -2 ^ 31 ∧ e = .invalidScriptInteger (-2 ^ 31)) ∨
    ((x < -2 ^ 31 ∨ 2 ^ 31 ≤ x) ∧ -2 ^ 127 ≤ x ∧ x < 2 ^ 127 ∧ e = .castOverflow x) ∨
    ((x < -2 ^ 127 ∨ 2 ^ 127 ≤ x) ∧ e = .castOverflowI128) := by
  unfold Integer.new InI32 MIN_SCRIPT_INTEGER MAX_SCRIPT_INTEGER
  by_cases h : -2 ^ 31 ≤ x ∧ x < 2 ^ 31
  · rw [if_pos h]
    by_cases h2 : -0x7fffffff ≤ x ∧ x ≤ 0x7fffffff
    · rw [if_pos h2]
      simp only [reduceCtorEq, false_iff]
      omega
    · rw [if_neg h2]
      have : x = -2 ^ 31 := by omega
      subst this
      simp only [Except.error.injEq]
      constructor
      · intro h; exact .inl ⟨trivial, h.symm⟩
      · rintro (h | h | h)
        · exact h.2.symm
        · omega
        · omega
  · rw [if_neg h]
    by_cases h2 : -2 ^ 127 ≤ x ∧ x < 2 ^ 127
    · rw [if_pos h2]
      simp only [Except.error.injEq]
      constructor
      · intro h; exact .inr (.inl ⟨by omega, h2.1, h2.2, h.symm⟩)
      · rintro (h | h | h)
        · omega
        · exact h.2.2.2.symm
        · omega
    · rw [if_neg h2]
      simp only [Except.error.injEq]
      constructor
      · intro h; exact .inr (.inr ⟨by omega, h.symm⟩)
      · rintro (h | h | h)
        · omega
        · omega
        · exact h.2.symm

/-- The error of one operator application. -/
theorem step_error_iff (op : BinOp) (a b : Int) (ha : InScriptRange a) (e : IntegerError) :
    libOp op (.ok a) (.ok b) = .error e ↔
      (op.math a b = none ∧ e = stepError op a b) ∨
      (∃ v, op.math a b = some v ∧ (v < -2 ^ 31 ∨ 2 ^ 31 ≤ v) ∧ e = stepError op a b) ∨
      (op.math a b = some (-2 ^ 31) ∧ e = .invalidScriptInteger (-2 ^ 31)) := by
  have chk : ∀ (v : Int) (err : IntegerError),
      (IntegerResult.op (.ok 0) (.ok 0) fun _ _ => checked v err) = .error e ↔
      ((v < -2 ^ 31 ∨ 2 ^ 31 ≤ v) ∧ e = err) ∨ (v = -2 ^ 31 ∧ e = .invalidScriptInteger (-2 ^ 31)) := by
    intro v err
    unfold checked IntegerResult.op
    dsimp only
    by_cases h : InI32 v
    · rw [if_pos h]
      dsimp only
      rw [new_error_iff]
      unfold InI32 at h
      constructor
      · rintro (h1 | h1 | h1)
        · exact .inr h1
        · omega
        · omega
      · rintro (h1 | h1)
        · omega
        · exact .inl h1
    · rw [if_neg h]
      dsimp only
      unfold InI32 at h
      simp only [Except.error.injEq]
      constructor
      · intro h1; exact .inl ⟨by omega, h1.symm⟩
      · rintro (h1 | h1)
        · exact h1.2.symm
        · omega
  cases op with
  | add =>
    refine Iff.trans (chk (a + b) (.addOverflow a b)) ?_
    simp only [BinOp.math, stepError, Option.some.injEq, reduceCtorEq, false_and, false_or,
      exists_eq_left']
  | sub =>
    refine Iff.trans (chk (a - b) (.subOverflow a b)) ?_
    simp only [BinOp.math, stepError, Option.some.injEq, reduceCtorEq, false_and, false_or,
      exists_eq_left']
  | mul =>
    refine Iff.trans (chk (a * b) (.mulOverflow a b)) ?_
    simp only [BinOp.math, stepError, Option.some.injEq, reduceCtorEq, false_and, false_or,
      exists_eq_left']
  | div =>
    by_cases hb : b = 0
    · simp only [libOp, IntegerResult.div, IntegerResult.op, BinOp.math, stepError, checkedDiv]
      simp only [if_pos hb, Except.error.injEq, true_and, reduceCtorEq, false_and, exists_const, or_false]
      exact eq_comm
    · have e0 : libOp .div (.ok a) (.ok b) =
          IntegerResult.op (.ok 0) (.ok 0) fun _ _ => checked (a.tdiv b) (.division a b) := by
        simp only [libOp, IntegerResult.div, IntegerResult.op, checkedDiv, if_neg hb]
      rw [e0]
      refine Iff.trans (chk _ _) ?_
      simp only [BinOp.math, stepError, if_neg hb, Option.some.injEq, reduceCtorEq, false_and, false_or,
        exists_eq_left']
  | rem =>
    simp only [libOp, IntegerResult.rem, IntegerResult.op, BinOp.math, stepError, checkedRem]
    by_cases hb : b = 0
    · simp only [if_pos hb, Except.error.injEq, true_and, reduceCtorEq, false_and, exists_const, or_false]
      exact eq_comm
    · have h1 : InI32 (a.tdiv b) := by
        have := Int.natAbs_tdiv_le_natAbs a b
        unfold InScriptRange at ha
        unfold InI32; omega
      have h2 : -2 ^ 31 < a.tmod b ∧ a.tmod b < 2 ^ 31 := by
        have : (a.tmod b).natAbs ≤ a.natAbs := by
          rw [Int.natAbs_tmod]; exact Nat.mod_le _ _
        unfold InScriptRange at ha
        omega
      simp only [if_neg hb, if_pos h1, Option.some.injEq, reduceCtorEq, false_and, false_or,
        exists_eq_left', new_error_iff]
      omega

/-- **C08** (first error): an expression evaluates to an error exactly if some step fails, and then
to the first failing step's error in left-to-right order, whatever the rest of the expression is. -/
theorem C08_first_error (e : Expr) (err : IntegerError) :
    evalLib e = .error err ↔ Fails e err := by
  induction e generalizing err with
  | lit x =>
    simp only [evalLib]
    rw [new_error_iff]
    constructor
    · rintro (⟨rfl, rfl⟩ | ⟨h1, h2, h3, rfl⟩ | ⟨h1, rfl⟩)
      · exact .litMin
      · exact .lit h1 h2 h3
      · exact .litHuge h1
    · intro h
      cases h with
      | litMin => exact .inl ⟨rfl, rfl⟩
      | lit h1 h2 h3 => exact .inr (.inl ⟨h1, h2, h3, rfl⟩)
      | litHuge h1 => exact .inr (.inr ⟨h1, rfl⟩)
  | neg a ih =>
    constructor
    · intro h
      simp only [evalLib] at h
      cases hv : a.value with
      | none =>
        obtain ⟨e', he⟩ := value_none a hv
        rw [he] at h
        simp only [IntegerResult.neg, IntegerResult.unop, Except.error.injEq] at h
        subst h
        exact .neg ((ih e').mp he)
      | some v =>
        have hx := (C07_expr_exact a v).mpr hv
        rw [hx, (C07_neg_exact v (evalLib_range a v hx)).1] at h
        simp at h
    · intro h
      cases h with
      | neg h =>
        have := (ih err).mpr h
        simp [evalLib, this, IntegerResult.neg, IntegerResult.unop]
  | bin op l r ihl ihr =>
    have he : ∃ f, ∀ a b, libOp op a b = IntegerResult.op a b f := by
      cases op <;> exact ⟨_, fun _ _ => rfl⟩
    obtain ⟨f, hf⟩ := he
    constructor
    · intro h
      simp only [evalLib] at h
      cases hlv : l.value with
      | none =>
        obtain ⟨e', he⟩ := value_none l hlv
        rw [he, hf] at h
        simp only [IntegerResult.op, Except.error.injEq] at h
        subst h
        exact .left ((ihl e').mp he)
      | some a =>
        have hl := (C07_expr_exact l a).mpr hlv
        cases hrv : r.value with
        | none =>
          obtain ⟨e', he⟩ := value_none r hrv
          rw [hl, he, hf] at h
          simp only [IntegerResult.op, Except.error.injEq] at h
          subst h
          exact .right hlv ((ihr e').mp he)
        | some b =>
          have hr := (C07_expr_exact r b).mpr hrv
          rw [hl, hr, step_error_iff op a b (evalLib_range l a hl)] at h
          rcases h with ⟨h, rfl⟩ | ⟨v, h, h2, rfl⟩ | ⟨h, rfl⟩
          · exact .undef hlv hrv h
          · exact .over hlv hrv h h2
          · exact .min hlv hrv h
    · intro h
      cases h with
      | left h =>
        have := (ihl err).mpr h
        simp [evalLib, this, hf, IntegerResult.op]
      | right h1 h =>
        have := (ihr err).mpr h
        have hl := (C07_expr_exact l _).mpr h1
        simp [evalLib, this, hl, hf, IntegerResult.op]
      | undef h1 h2 h3 =>
        have hl := (C07_expr_exact l _).mpr h1
        have hr := (C07_expr_exact r _).mpr h2
        simp only [evalLib, hl, hr]
        exact (step_error_iff op _ _ (evalLib_range l _ hl) _).mpr (.inl ⟨h3, rfl⟩)
      | over h1 h2 h3 h4 =>
        have hl := (C07_expr_exact l _).mpr h1
        have hr := (C07_expr_exact r _).mpr h2
        simp only [evalLib, hl, hr]
        exact (step_error_iff op _ _ (evalLib_range l _ hl) _).mpr (.inr (.inl ⟨_, h3, h4, rfl⟩))
      | min h1 h2 h3 =>
        have hl := (C07_expr_exact l _).mpr h1
        have hr := (C07_expr_exact r _).mpr h2
        simp only [evalLib, hl, hr]
        exact (step_error_iff op _ _ (evalLib_range l _ hl) _).mpr (.inr (.inr ⟨h3, rfl⟩))

example : Fails (.bin .add (.bin .div (.lit 1) (.lit 0)) (.lit (2 ^ 40))) (.division 1 0) := by
  exact .left (.undef (op := .div) (a := 1) (b := 0) (by decide) (by decide) (by decide))

/-- **C08** (comparison): an errored result is not equal to and not ordered against anything,
including itself; on proper values equality and order are those of the integers. -/
theorem C08_error_compare (a b : IntegerResult) :
    (a.eq b = true ↔ ∃ x, a = .ok x ∧ b = .ok x) ∧
    (a.partialCmp b = some .lt ↔ ∃ x y, a = .ok x ∧ b = .ok y ∧ x < y) ∧
    (a.partialCmp b = some .gt ↔ ∃ x y, a = .ok x ∧ b = .ok y ∧ y < x) ∧
    (a.partialCmp b = some .eq ↔ a.eq b = true) := by
  cases a with
  | error e => cases b <;> simp [IntegerResult.eq, IntegerResult.partialCmp]
  | ok x =>
    cases b with
    | error e => simp [IntegerResult.eq, IntegerResult.partialCmp]
    | ok y =>
      simp only [IntegerResult.eq, IntegerResult.partialCmp, decide_eq_true_eq, Option.some.injEq,
        Int.compare_eq_lt, Int.compare_eq_gt, Int.compare_eq_eq, Except.ok.injEq]
      refine ⟨?_, ?_, ?_, ?_⟩
      · constructor
        · intro h; exact ⟨x, rfl, h.symm⟩
        · rintro ⟨z, h1, h2⟩; rw [h1, h2]
      · constructor
        · intro h; exact ⟨x, y, rfl, rfl, h⟩
        · rintro ⟨u, w, h1, h2, h3⟩; rw [h1, h2]; exact h3
      · constructor
        · intro h; exact ⟨x, y, rfl, rfl, h⟩
        · rintro ⟨u, w, h1, h2, h3⟩; rw [h1, h2]; exact h3
      · trivial

example : IntegerResult.eq (Integer.new (2 ^ 31)) (Integer.new (2 ^ 31)) = false := by decide

/-! ### C09 -/

/-- Integer values obtainable through the public API, by any sequence of calls. -/
inductive Obtainable : Int → Prop
  /-- `Integer::ZERO`, `Default` (integer.rs:56, 144-148) -/
  | zero : Obtainable 0
  /-- `Integer::new`, `TryFrom`, `Deserialize` (integer.rs:58-74, 191-197, 301-355, 426-434) -/
  | new {x v} : Integer.new x = .ok v → Obtainable v
  /-- `UInteger::new(..)` then `.integer()` (integer.rs:84-108, 446-453) -/
  | unew {x v} : UInteger.new x = .ok v → Obtainable v
  /-- `From<i8>`, `From<u8>`, `From<i16>`, `From<u16>` (integer.rs:211-233) -/
  | small {x} : -2 ^ 15 ≤ x → x < 2 ^ 16 → Obtainable x
  /-- any binary operator on obtained results, then `.integer()` (integer.rs:463-663) -/
  | bin {a b v} (f : Int → Int → Except IntegerError Int) : IntegerResult.op a b f = .ok v → Obtainable v
  /-- any unary operator or shift on an obtained result -/
  | un {a v} (f : Int → Except IntegerError Int) : IntegerResult.unop a f = .ok v → Obtainable v
  /-- `-integer` (integer.rs:673-679) -/
  | neg {a v} : Obtainable a → Integer.neg a = .ok v → Obtainable v

/-- **C09**: every obtainable `Integer` is a valid script integer; negating it cannot overflow, and
its script encoding exists and has at most four bytes. -/
theorem C09_obtainable_valid (v : Int) (h : Obtainable v) :
    InScriptRange v ∧ Integer.neg v ≠ .panic ∧ ∃ bs, encodeInt v = .ok bs ∧ bs.length ≤ 4 := by
  have hr : InScriptRange v := by
    induction h with
    | zero => decide
    | new h => rw [new_ok_iff] at h; rw [h.1]; exact h.2
    | unew h =>
      rename_i x v
      unfold UInteger.new MAX_SCRIPT_INTEGER at h
      unfold InScriptRange
      split at h
      · split at h
        · simp only [Except.ok.injEq] at h; omega
        · simp at h
      · split at h <;> simp at h
    | small h1 h2 => unfold InScriptRange; omega
    | bin f h =>
      rw [op_ok_iff] at h
      obtain ⟨_, _, _, _, _, _, h4, h5⟩ := h
      rw [h4]; exact h5
    | un f h =>
      simp only [IntegerResult.unop] at h
      split at h
      · simp at h
      · split at h
        · simp at h
        · rw [new_ok_iff] at h; rw [h.1]; exact h.2
    | neg _ h ih =>
      unfold Integer.neg at h
      split at h
      · simp only [Res.ok.injEq] at h
        unfold InScriptRange at *; omega
      · simp at h
  refine ⟨hr, ?_, ?_⟩
  · rw [(C07_neg_exact v hr).2]; simp
  · obtain ⟨bs, h1, _, _, h4⟩ := encodeInt_spec v (by unfold InScriptRange at hr; omega)
    exact ⟨bs, h1, h4⟩

/-- **C09** (constructors): constructing from a machine integer succeeds, with the same value,
exactly for script integers (non-negative ones for `UInteger`). -/
theorem C09_new_iff (x v : Int) :
    (Integer.new x = .ok v ↔ v = x ∧ InScriptRange x) ∧
    (UInteger.new x = .ok v ↔ v = x ∧ InScriptRange x ∧ 0 ≤ x) := by
  refine ⟨new_ok_iff x v, ?_⟩
  unfold UInteger.new InScriptRange MAX_SCRIPT_INTEGER
  by_cases h : InI32 x
  · rw [if_pos h]
    by_cases h2 : 0 ≤ x ∧ x ≤ 0x7fffffff
    · rw [if_pos h2]
      simp only [Except.ok.injEq]
      constructor
      · intro e; exact ⟨e.symm, by omega⟩
      · intro e; exact e.1.symm
    · rw [if_neg h2]; simp only [reduceCtorEq, false_iff]; omega
  · rw [if_neg h]
    have : ¬ (v = x ∧ (-(2 ^ 31 - 1) ≤ x ∧ x ≤ 2 ^ 31 - 1) ∧ 0 ≤ x) := by omega
    split <;> (simp only [reduceCtorEq, false_iff]; exact this)

example : Integer.new (-2 ^ 31) = .error (.invalidScriptInteger (-2 ^ 31)) ∧
    Integer.new (2 ^ 31) = .error (.castOverflow (2 ^ 31)) ∧
    Integer.new (2 ^ 127) = .error .castOverflowI128 := by decide

example : Obtainable (-6) :=
  .neg (.bin (a := .ok 2) (b := .ok 3) (fun a b => checked (a * b) (.mulOverflow a b))
    (v := 6) (by decide)) (by decide)


/-! ### C65 -/

/-- The operator implementation in the library. -/
def Spec.BitOp.lib : Spec.BitOp → IntegerResult → IntegerResult → IntegerResult
  | .and => IntegerResult.band
  | .or => IntegerResult.bor
  | .xor => IntegerResult.bxor

namespace BitProofs

theorem bits_ext (n : Nat) : ∀ x y : Int, -2 ^ n ≤ x → x < 2 ^ n → -2 ^ n ≤ y → y < 2 ^ n →
    (∀ i, bitOf x i = bitOf y i) → x = y := by
  induction n with
  | zero =>
    intro x y h1 h2 h3 h4 h
    have : x % 2 = 1 ↔ y % 2 = 1 := by
      rw [← beq_iff_eq, ← beq_iff_eq (a := y % 2)]
      simpa [bitOf] using congrArg (· = true) (h 0)
    omega
  | succ n ih =>
    intro x y h1 h2 h3 h4 h
    have hp : (2 : Int) ^ (n + 1) = 2 * 2 ^ n := by rw [Int.pow_succ]; omega
    have h0 : x % 2 = 1 ↔ y % 2 = 1 := by
      rw [← beq_iff_eq, ← beq_iff_eq (a := y % 2)]
      simpa [bitOf] using congrArg (· = true) (h 0)
    have hq : x / 2 = y / 2 := by
      refine ih (x / 2) (y / 2) (by omega) (by omega) (by omega) (by omega) fun i => ?_
      have := h (i + 1)
      unfold bitOf at *
      rw [Int.pow_succ, Int.mul_comm, ← Int.ediv_ediv_of_nonneg (by omega),
        ← Int.ediv_ediv_of_nonneg (by omega)] at this
      exact this
    omega

theorem bound (x : Int) : ∃ n, -2 ^ n ≤ x ∧ x < 2 ^ n ∧ (2 : Int) ^ 31 ≤ 2 ^ n := by
  obtain ⟨n, hn, hx⟩ : ∃ n, 31 ≤ n ∧ x.natAbs < 2 ^ n := by
    generalize x.natAbs = k
    exact ⟨k + 31, by omega,
      Nat.lt_of_lt_of_le Nat.lt_two_pow_self (Nat.pow_le_pow_right (by omega) (by omega))⟩
  have hp := Nat.pow_le_pow_right (n := 2) (by omega) hn
  have e : ((2 ^ n : Nat) : Int) = 2 ^ n := by norm_cast
  refine ⟨n, ?_⟩
  rw [← e]
  exact ⟨by omega, by omega, by omega⟩

theorem bit_sshift (v : BitVec 32) (i : Nat) : bitOf v.toInt i = (v.sshiftRight i).getLsbD 0 := by
  have h : v.toInt / 2 ^ i = (v.sshiftRight i).toInt := by
    rw [BitVec.toInt_sshiftRight, Int.shiftRight_eq_div_pow]
    norm_cast
  unfold bitOf
  rw [h, BitVec.toInt_eq_toNat_cond, BitVec.getLsbD, Nat.testBit_zero]
  generalize (v.sshiftRight i).toNat = w
  rw [Bool.eq_iff_iff, beq_iff_eq, decide_eq_true_iff]
  split <;> omega

theorem bits32_toInt (a : Int) (h : InScriptRange a) : (bits32 a).toInt = a := by
  unfold InScriptRange at h
  rw [bits32, BitVec.toInt_ofInt, Int.bmod_def]
  have e : ((2 ^ 32 : Nat) : Int) = 4294967296 := by decide
  rw [e]
  split <;> omega

theorem lib_bits (op : BitOp) (a b : Int) (ha : InScriptRange a) (hb : InScriptRange b) :
    ∃ r : Int, op.lib (.ok a) (.ok b) = Integer.new r ∧ (-2 ^ 31 ≤ r ∧ r < 2 ^ 31) ∧
      ∀ i, bitOf r i = op.bit (bitOf a i) (bitOf b i) := by
  have h1 := fun i => bit_sshift (bits32 a) i
  have h2 := fun i => bit_sshift (bits32 b) i
  rw [bits32_toInt a ha] at h1
  rw [bits32_toInt b hb] at h2
  cases op with
  | and =>
    refine ⟨_, rfl, ⟨BitVec.le_toInt _, BitVec.toInt_lt⟩, fun i => ?_⟩
    rw [bit_sshift, BitVec.sshiftRight_and_distrib, BitVec.getLsbD_and, h1, h2]; rfl
  | or =>
    refine ⟨_, rfl, ⟨BitVec.le_toInt _, BitVec.toInt_lt⟩, fun i => ?_⟩
    rw [bit_sshift, BitVec.sshiftRight_or_distrib, BitVec.getLsbD_or, h1, h2]; rfl
  | xor =>
    refine ⟨_, rfl, ⟨BitVec.le_toInt _, BitVec.toInt_lt⟩, fun i => ?_⟩
    rw [bit_sshift, BitVec.sshiftRight_xor_distrib, BitVec.getLsbD_xor, h1, h2]; rfl

end BitProofs

/-- **C65** (bitwise operators): on script integers, a bitwise operator yields `v` exactly if `v` is the
integer whose two's-complement bits are the operator applied to the operands' bits, and `v` is a script
integer (an error otherwise). -/
theorem C65_bitwise_exact (op : BitOp) (a b v : Int) (ha : InScriptRange a) (hb : InScriptRange b) :
    op.lib (.ok a) (.ok b) = .ok v ↔
      (∀ i, bitOf v i = op.bit (bitOf a i) (bitOf b i)) ∧ InScriptRange v := by
  obtain ⟨r, h1, h2, h3⟩ := BitProofs.lib_bits op a b ha hb
  rw [h1, new_ok_iff]
  constructor
  · rintro ⟨rfl, h⟩
    exact ⟨h3, h⟩
  · rintro ⟨h, hv⟩
    have : v = r := by
      refine BitProofs.bits_ext 31 v r ?_ ?_ (by omega) (by omega) fun i => by rw [h, h3]
      all_goals (unfold InScriptRange at hv; omega)
    exact ⟨this, this ▸ hv⟩

/-- **C65** (bitwise operators, definedness): the bits of the operands determine an integer, so an
error means that this integer is not a script integer. -/
theorem C65_bitwise_defined (op : BitOp) (a b : Int) (ha : InScriptRange a) (hb : InScriptRange b) :
    ∃ r : Int, (∀ i, bitOf r i = op.bit (bitOf a i) (bitOf b i)) ∧
      (∀ r' : Int, (∀ i, bitOf r' i = op.bit (bitOf a i) (bitOf b i)) → r' = r) ∧
      (op.lib (.ok a) (.ok b) = .ok r ∨ r = -2 ^ 31 ∧ ∃ e, op.lib (.ok a) (.ok b) = .error e) := by
  obtain ⟨r, h1, h2, h3⟩ := BitProofs.lib_bits op a b ha hb
  refine ⟨r, h3, ?_, ?_⟩
  · intro r' h
    obtain ⟨n, hn1, hn2, hp⟩ := BitProofs.bound r'
    exact BitProofs.bits_ext n r' r hn1 hn2 (by omega) (by omega) fun i => by rw [h, h3]
  · by_cases hr : InScriptRange r
    · left; rw [h1, new_ok_iff]; exact ⟨rfl, hr⟩
    · right
      refine ⟨by unfold InScriptRange at hr; omega, ?_⟩
      rw [h1]
      cases h : Integer.new r with
      | ok v => exact absurd ((new_ok_iff r v).mp h).2 hr
      | error e => exact ⟨e, rfl⟩

example : BitOp.and.lib (.ok (-6)) (.ok 13) = .ok 8 ∧ BitOp.or.lib (.ok (-6)) (.ok 13) = .ok (-1) ∧
    BitOp.xor.lib (.ok (-6)) (.ok 13) = .ok (-9) ∧
    BitOp.and.lib (.ok (-0x7fffffff)) (.ok (-0x7ffffffe)) =
      .error (.invalidScriptInteger (-2 ^ 31)) := by decide

/-- **C65** (right shift): shifting right by fewer than 32 places is division by a power of two rounded
down; larger shifts are errors. -/
theorem C65_shr_exact (a v : Int) (s : Nat) (ha : InScriptRange a) :
    IntegerResult.shr (.ok a) s = .ok v ↔ s < 32 ∧ v * 2 ^ s ≤ a ∧ a < (v + 1) * 2 ^ s := by
  have hp : (0 : Int) < 2 ^ s := Int.pow_pos (by omega)
  have hv : a / 2 ^ s = v ↔ v * 2 ^ s ≤ a ∧ a < (v + 1) * 2 ^ s := by
    rw [← Int.le_ediv_iff_mul_le hp, ← Int.ediv_lt_iff_lt_mul hp]
    omega
  have hr : InScriptRange (a / 2 ^ s) := by
    unfold InScriptRange at *
    constructor
    · rw [Int.le_ediv_iff_mul_le hp]
      refine Int.le_trans ?_ ha.1
      rw [Int.neg_mul]
      refine Int.neg_le_neg ?_
      have := Int.mul_le_mul_of_nonneg_left (show (1 : Int) ≤ 2 ^ s from hp)
        (show (0 : Int) ≤ 2 ^ 31 - 1 by decide)
      rwa [Int.mul_one] at this
    · refine Int.le_trans (Int.ediv_le_ediv hp ha.2) ?_
      exact Int.ediv_le_self _ (by decide)
  simp only [IntegerResult.shr, IntegerResult.unop]
  by_cases h : 32 ≤ s
  · rw [if_pos h]
    simp only [reduceCtorEq, false_iff]
    omega
  · rw [if_neg h]
    dsimp only
    rw [new_ok_iff, ← hv]
    constructor
    · rintro ⟨rfl, _⟩; exact ⟨by omega, rfl⟩
    · rintro ⟨_, rfl⟩; exact ⟨rfl, hr⟩

example : IntegerResult.shr (.ok (-7)) 1 = .ok (-4) ∧ IntegerResult.shr (.ok 7) 1 = .ok 3 ∧
    IntegerResult.shr (.ok 1) 32 = .error (.shrOverflow 1 32) := by decide

/-- **C65** (left shift) is false of the code: a left shift whose result is not a script integer can
yield another number instead of an error, because only the shift distance is checked. -/
theorem C65_shl_fails : ∃ (a v : Int) (s : Nat), InScriptRange a ∧ ¬ InScriptRange (a * 2 ^ s) ∧
    IntegerResult.shl (.ok a) s = .ok v :=
  ⟨0x40000001, 4, 2, by decide, by decide, by decide⟩

/-- **C65** (left shift): a left shift by fewer than 32 places is exact when the result is a script
integer; in general it yields the number congruent to the exact result modulo 2^32, if that is a script
integer. Missing: an error for the other results that are not script integers. -/
theorem C65_shl_partial (a v : Int) (s : Nat) :
    (InScriptRange (a * 2 ^ s) → s < 32 → IntegerResult.shl (.ok a) s = .ok (a * 2 ^ s)) ∧
    (IntegerResult.shl (.ok a) s = .ok v ↔
      s < 32 ∧ InScriptRange v ∧ (2 ^ 32 : Int) ∣ a * 2 ^ s - v) := by
  have key : ∀ v, IntegerResult.shl (.ok a) s = .ok v ↔
      s < 32 ∧ InScriptRange v ∧ (2 ^ 32 : Int) ∣ a * 2 ^ s - v := by
    intro v
    simp only [IntegerResult.shl, IntegerResult.unop]
    by_cases h : 32 ≤ s
    · rw [if_pos h]
      simp only [reduceCtorEq, false_iff]
      omega
    · rw [if_neg h]
      dsimp only
      rw [new_ok_iff]
      generalize a * 2 ^ s = x
      unfold wrap32 InScriptRange
      constructor
      · rintro ⟨rfl, h2⟩
        exact ⟨by omega, h2, by omega⟩
      · rintro ⟨_, h2, h3⟩
        constructor <;> omega
  exact ⟨fun h hs => (key _).mpr ⟨hs, h, by simp⟩, key v⟩

example : IntegerResult.shl (.ok (-3)) 4 = .ok (-48) ∧ IntegerResult.shl (.ok 2) 31 = .ok 0 := by decide

end BCash
