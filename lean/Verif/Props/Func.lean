import Verif.Model.Func
import Verif.Spec.Func
import Verif.Model.MacroGen
import Verif.Props.Opcode
import Verif.Props.Exec
import Verif.Props.Integer
import Verif.Proofs.NumBytes

/-! # C66: the types the generated code is checked with, and execution -/

namespace BCash
open Spec

/-! ## Proofs -/

namespace FuncProofs
open Vm

abbrev Typed (ρ : Nat → Bytes → Prop) := List.Forall₂ (FHasType ρ)

theorem verify_some {b : Bool} {outs : List Bytes} (h : verify b = some outs) : outs = [] := by
  unfold verify at h
  split at h <;> simp_all

theorem num?_typed {k : Nat} {x : Bytes} {n : Int} (h : num? k x = some n) : x = numBytes n := by
  unfold num? at h
  split at h
  · next hc => cases h; exact hc.2.symm
  · cases h

theorem bool_typed (ρ : Nat → Bytes → Prop) (b : Bool) : FHasType ρ .boolean (boolBytes b) := by
  cases b
  · exact .inl rfl
  · exact .inr rfl

theorem int_typed (ρ : Nat → Bytes → Prop) (n : Int) : FHasType ρ .integer (numBytes n) := ⟨n, rfl⟩

theorem const_sound {ρ : Nat → Bytes → Prop} {x : Bytes} {rest : List Bytes} (n : Int)
    (h : x = numBytes n) :
    ∃ outs, x :: rest = outs.reverse ++ rest ∧ Typed ρ [.integer] outs :=
  ⟨[x], rfl, .cons ⟨n, h⟩ .nil⟩

theorem un_sound {ρ : Nat → Bytes → Prop} {f : Bytes → Option (List Bytes)} {a : Bytes}
    {s rest st' : List Bytes} {types : List FTy} (h : un f s = some st') (hs : s = a :: rest)
    (ht : ∀ outs, f a = some outs → Typed ρ types outs.reverse) :
    ∃ outs, st' = outs.reverse ++ rest ∧ Typed ρ types outs := by
  subst hs
  obtain ⟨outs, h1, rfl⟩ := Option.map_eq_some_iff.mp h
  exact ⟨outs.reverse, by simp, ht outs h1⟩

theorem bin_sound {ρ : Nat → Bytes → Prop} {f : Bytes → Bytes → Option (List Bytes)} {a b : Bytes}
    {s rest st' : List Bytes} {types : List FTy} (h : bin f s = some st') (hs : s = b :: a :: rest)
    (ht : ∀ outs, f a b = some outs → Typed ρ types outs.reverse) :
    ∃ outs, st' = outs.reverse ++ rest ∧ Typed ρ types outs := by
  subst hs
  obtain ⟨outs, h1, rfl⟩ := Option.map_eq_some_iff.mp h
  exact ⟨outs.reverse, by simp, ht outs h1⟩

theorem tern_sound {ρ : Nat → Bytes → Prop} {f : Bytes → Bytes → Bytes → Option (List Bytes)}
    {a b c : Bytes} {s rest st' : List Bytes} {types : List FTy}
    (h : tern f s = some st') (hs : s = c :: b :: a :: rest)
    (ht : ∀ outs, f a b c = some outs → Typed ρ types outs.reverse) :
    ∃ outs, st' = outs.reverse ++ rest ∧ Typed ρ types outs := by
  subst hs
  obtain ⟨outs, h1, rfl⟩ := Option.map_eq_some_iff.mp h
  exact ⟨outs.reverse, by simp, ht outs h1⟩

end FuncProofs
open FuncProofs VmProofs Vm

set_option maxHeartbeats 1000000 in
/-- **C66** (soundness of the types): if the operands of an opcode have the types its typed function
demands, then every successful execution replaces exactly them by results of the types the function
returns, for every meaning of the type parameters; nothing else changes. -/
theorem C66_types_sound (env : Vm.Env) (o : Opcode) (f : FSig) (hf : o.func = some f) (hsp : ¬ Special o)
    (ρ : Nat → Bytes → Prop) (args rest alt : List Bytes)
    (hargs : List.Forall₂ (FHasType ρ) f.params args) (s' : Vm.State)
    (h : Vm.step env o.toByte ⟨args.reverse ++ rest, alt⟩ = some s') :
    ∃ outs, s' = ⟨outs.reverse ++ rest, alt⟩ ∧ List.Forall₂ (FHasType ρ) f.results outs := by
  have hsp1 : o.toByte ≠ 0x6b := by
    intro e; apply hsp; cases o <;> first | exact .inr (.inr (.inl rfl)) | exact absurd e (by decide)
  have hsp2 : o.toByte ≠ 0x6c := by
    intro e; apply hsp; cases o <;> first | exact .inr (.inr (.inr rfl)) | exact absurd e (by decide)
  have hst := main_of_step hsp1 hsp2 h
  obtain ⟨st', alt'⟩ := s'
  obtain ⟨hm, halt⟩ := hst
  simp only at hm halt
  subst halt
  clear h hsp1 hsp2
  suffices ∃ outs, st' = outs.reverse ++ rest ∧ List.Forall₂ (FHasType ρ) f.results outs by
    obtain ⟨outs, h1, h2⟩ := this
    exact ⟨outs, by rw [h1], h2⟩
  generalize hst : args.reverse ++ rest = st at hm
  cases o <;> cases hf
  all_goals rcases hargs with _ | ⟨h1, _ | ⟨h2, _ | ⟨h3, _ | ⟨h4, _ | ⟨h5, _ | ⟨h6, _ | _⟩⟩⟩⟩⟩⟩
  all_goals first
    | exact absurd (.inl rfl) hsp
    | exact absurd (.inr (.inl rfl)) hsp
    | exact absurd (.inr (.inr (.inl rfl))) hsp
    | exact absurd (.inr (.inr (.inr rfl))) hsp
    | (subst hst; cases hm; done)
    | (subst hst; cases hm; exact ⟨[], rfl, .nil⟩)
    | (subst hst; cases hm; exact ⟨[_], rfl, .cons (by assumption) .nil⟩)
    | (subst hst; cases hm; exact ⟨[_, _], rfl, .cons (by assumption) (.cons (by assumption) .nil)⟩)
    | (subst hst; cases hm; exact ⟨[_, _, _], rfl, .cons (by assumption) (.cons (by assumption) (.cons (by assumption) .nil))⟩)
    | (subst hst; cases hm; exact ⟨[_, _, _, _], rfl, .cons (by assumption) (.cons (by assumption) (.cons (by assumption) (.cons (by assumption) .nil)))⟩)
    | (subst hst; cases hm; exact ⟨[_, _, _, _, _, _], rfl, .cons (by assumption) (.cons (by assumption) (.cons (by assumption) (.cons (by assumption) (.cons (by assumption) (.cons (by assumption) .nil)))))⟩)
    | (subst hst; cases hm; exact ⟨[_], rfl, .cons (int_typed _ _) .nil⟩)
    | (subst hst; cases hm; exact ⟨[_], rfl, .cons (bool_typed _ _) .nil⟩)
    | (subst hst; cases hm; exact ⟨[_, _], rfl, .cons trivial (.cons (int_typed _ _) .nil)⟩)
    | skip
  case OP_0.refl.nil => subst hst; cases hm; exact const_sound 0 (by decide +kernel)
  case OP_1NEGATE.refl.nil => subst hst; cases hm; exact const_sound (-1) (by decide +kernel)
  case OP_1.refl.nil => subst hst; cases hm; exact const_sound 1 (by decide +kernel)
  case OP_2.refl.nil => subst hst; cases hm; exact const_sound 2 (by decide +kernel)
  case OP_3.refl.nil => subst hst; cases hm; exact const_sound 3 (by decide +kernel)
  case OP_4.refl.nil => subst hst; cases hm; exact const_sound 4 (by decide +kernel)
  case OP_5.refl.nil => subst hst; cases hm; exact const_sound 5 (by decide +kernel)
  case OP_6.refl.nil => subst hst; cases hm; exact const_sound 6 (by decide +kernel)
  case OP_7.refl.nil => subst hst; cases hm; exact const_sound 7 (by decide +kernel)
  case OP_8.refl.nil => subst hst; cases hm; exact const_sound 8 (by decide +kernel)
  case OP_9.refl.nil => subst hst; cases hm; exact const_sound 9 (by decide +kernel)
  case OP_10.refl.nil => subst hst; cases hm; exact const_sound 10 (by decide +kernel)
  case OP_11.refl.nil => subst hst; cases hm; exact const_sound 11 (by decide +kernel)
  case OP_12.refl.nil => subst hst; cases hm; exact const_sound 12 (by decide +kernel)
  case OP_13.refl.nil => subst hst; cases hm; exact const_sound 13 (by decide +kernel)
  case OP_14.refl.nil => subst hst; cases hm; exact const_sound 14 (by decide +kernel)
  case OP_15.refl.nil => subst hst; cases hm; exact const_sound 15 (by decide +kernel)
  case OP_16.refl.nil => subst hst; cases hm; exact const_sound 16 (by decide +kernel)
  case OP_VERIFY.refl.cons.nil =>
    exact un_sound hm hst.symm fun _ h => by rw [verify_some h]; exact .nil
  case OP_SPLIT.refl.cons.cons.nil =>
    refine bin_sound hm hst.symm fun _ h => ?_
    obtain ⟨n, _, h⟩ := Option.bind_eq_some_iff.mp h
    split at h <;> cases h
    exact .cons trivial (.cons trivial .nil)
  case OP_NUM2BIN.refl.cons.cons.nil =>
    refine bin_sound hm hst.symm fun _ h => ?_
    obtain ⟨n, _, h⟩ := Option.bind_eq_some_iff.mp h
    obtain ⟨r, _, rfl⟩ := Option.map_eq_some_iff.mp h
    exact .cons trivial .nil
  case OP_BIN2NUM.refl.cons.nil =>
    refine un_sound hm hst.symm fun _ h => ?_
    split at h <;> cases h
    exact .cons (int_typed _ _) .nil
  case OP_AND.refl.cons.cons.nil | OP_OR.refl.cons.cons.nil | OP_XOR.refl.cons.cons.nil =>
    refine bin_sound hm hst.symm fun _ h => ?_
    unfold bitwise at h
    split at h <;> cases h
    exact .cons trivial .nil
  case OP_EQUALVERIFY.refl.cons.cons.nil =>
    exact bin_sound hm hst.symm fun _ h => by rw [verify_some h]; exact .nil
  case OP_NUMEQUALVERIFY.refl.cons.cons.nil =>
    refine bin_sound hm hst.symm fun _ h => ?_
    obtain ⟨n, _, h⟩ := Option.bind_eq_some_iff.mp h
    obtain ⟨n, _, h⟩ := Option.bind_eq_some_iff.mp h
    rw [verify_some h]; exact .nil
  case OP_WITHIN.refl.cons.cons.cons.nil =>
    refine tern_sound hm hst.symm fun _ h => ?_
    obtain ⟨n, _, h⟩ := Option.bind_eq_some_iff.mp h
    obtain ⟨n, _, h⟩ := Option.bind_eq_some_iff.mp h
    obtain ⟨r, _, rfl⟩ := Option.map_eq_some_iff.mp h
    exact .cons (bool_typed _ _) .nil
  case OP_NOT.refl.cons.nil | OP_0NOTEQUAL.refl.cons.nil =>
    refine un_sound hm hst.symm fun _ h => ?_
    obtain ⟨r, _, rfl⟩ := Option.map_eq_some_iff.mp h
    exact .cons (bool_typed _ _) .nil
  case OP_CHECKSIG.refl.cons.cons.nil =>
    refine bin_sound hm hst.symm fun _ h => ?_
    obtain ⟨r, _, rfl⟩ := Option.map_eq_some_iff.mp h
    exact .cons (bool_typed _ _) .nil
  case OP_CHECKDATASIG.refl.cons.cons.cons.nil =>
    refine tern_sound hm hst.symm fun _ h => ?_
    obtain ⟨r, _, rfl⟩ := Option.map_eq_some_iff.mp h
    exact .cons (bool_typed _ _) .nil
  case OP_CHECKSIGVERIFY.refl.cons.cons.nil =>
    refine bin_sound hm hst.symm fun _ h => ?_
    obtain ⟨r, _, h⟩ := Option.bind_eq_some_iff.mp h
    rw [verify_some h]; exact .nil
  case OP_CHECKDATASIGVERIFY.refl.cons.cons.cons.nil =>
    refine tern_sound hm hst.symm fun _ h => ?_
    obtain ⟨r, _, h⟩ := Option.bind_eq_some_iff.mp h
    rw [verify_some h]; exact .nil
  case OP_CHECKLOCKTIMEVERIFY.refl.cons.nil | OP_CHECKSEQUENCEVERIFY.refl.cons.nil =>
    refine un_sound hm hst.symm fun _ h => ?_
    obtain ⟨r, _, h⟩ := Option.bind_eq_some_iff.mp h
    split at h <;> cases h
    exact .cons h1 .nil
  all_goals first
    | (refine un_sound hm hst.symm fun _ h => ?_
       obtain ⟨r, _, rfl⟩ := Option.map_eq_some_iff.mp h
       exact .cons (int_typed _ _) .nil)
    | (refine bin_sound hm hst.symm fun _ h => ?_
       obtain ⟨n, _, h⟩ := Option.bind_eq_some_iff.mp h
       obtain ⟨n, _, h⟩ := Option.bind_eq_some_iff.mp h
       obtain ⟨r, _, rfl⟩ := Option.map_eq_some_iff.mp h
       exact .cons (int_typed _ _) .nil)
    | (refine bin_sound hm hst.symm fun _ h => ?_
       obtain ⟨n, _, h⟩ := Option.bind_eq_some_iff.mp h
       obtain ⟨r, _, rfl⟩ := Option.map_eq_some_iff.mp h
       exact .cons (bool_typed _ _) .nil)


/-- Non-vacuity: OP_SPLIT of three bytes at position 1. -/
example (env : Vm.Env) : ∃ f s', Opcode.OP_SPLIT.func = some f ∧ ¬ Special .OP_SPLIT ∧
    List.Forall₂ (FHasType fun _ _ => True) f.params [[7, 8, 9], Vm.numBytes 1] ∧
    Vm.step env Opcode.OP_SPLIT.toByte ⟨[[7, 8, 9], Vm.numBytes 1].reverse ++ [[5]], []⟩ = some s' ∧
    s'.stack = [[8, 9], [7], [5]] :=
  ⟨_, _, rfl, by unfold Special; decide, .cons trivial (.cons ⟨1, rfl⟩ .nil), rfl, by decide +kernel⟩

/-- **C66** (alternative stack): the typed functions of OP_TOALTSTACK and OP_FROMALTSTACK return what
they are given; the opcodes move one item, unchanged, and change nothing else. -/
theorem C66_alt_stack (env : Vm.Env) (x : Bytes) (rest alt : List Bytes) :
    (Opcode.OP_TOALTSTACK.func = some ⟨[.var 0], [.var 0]⟩ ∧
      Vm.step env Opcode.OP_TOALTSTACK.toByte ⟨x :: rest, alt⟩ = some ⟨rest, x :: alt⟩) ∧
    (Opcode.OP_FROMALTSTACK.func = some ⟨[.var 0], [.var 0]⟩ ∧
      Vm.step env Opcode.OP_FROMALTSTACK.toByte ⟨rest, x :: alt⟩ = some ⟨x :: rest, alt⟩) :=
  ⟨⟨rfl, rfl⟩, ⟨rfl, rfl⟩⟩

namespace FuncProofs

theorem range_num {ρ : Nat → Bytes → Prop} {x : Bytes} (h : FInRange ρ .integer x) :
    num? 4 x = some (scriptNum x) ∧ num? 5 x = some (scriptNum x) ∧ numBytes (scriptNum x) = x := by
  obtain ⟨⟨n, rfl⟩, hl⟩ := h
  rw [(NumProofs.numBytes_spec n).1]
  exact ⟨NumProofs.num?_numBytes 4 n (hl rfl), NumProofs.num?_numBytes 5 n (by have := hl rfl; omega), rfl⟩

theorem bool_num {ρ : Nat → Bytes → Prop} {x : Bytes} (h : FInRange ρ .boolean x) :
    num? 4 x = some (scriptNum x) := by
  obtain ⟨rfl | rfl, -⟩ := h
  · decide +kernel
  · decide +kernel

theorem numBytes_length_iff (n : Int) : (numBytes n).length ≤ 4 ↔ -2 ^ 31 < n ∧ n < 2 ^ 31 := by
  refine ⟨fun h => ?_, NumProofs.numBytes_length_le4 n⟩
  by_cases h0 : n = 0
  · omega
  · unfold numBytes at h
    rw [if_neg h0] at h
    simp only [leBytes_length] at h
    have : n.natAbs.log2 < 31 := by omega
    have := (Nat.log2_lt (by omega)).mp this
    omega

theorem un_some {f : Bytes → Option (List Bytes)} {a : Bytes} {s rest : List Bytes} {r : Option (List Bytes)}
    (h : un f s = r) (hs : s = a :: rest) : r.isSome = (f a).isSome := by
  subst hs; subst h; simp [un]

theorem bin_some {f : Bytes → Bytes → Option (List Bytes)} {a b : Bytes} {s rest : List Bytes}
    {r : Option (List Bytes)} (h : bin f s = r) (hs : s = b :: a :: rest) :
    r.isSome = (f a b).isSome := by
  subst hs; subst h; simp [bin]

theorem tern_some {f : Bytes → Bytes → Bytes → Option (List Bytes)} {a b c : Bytes} {s rest : List Bytes}
    {r : Option (List Bytes)} (h : tern f s = r) (hs : s = c :: b :: a :: rest) :
    r.isSome = (f a b c).isSome := by
  subst hs; subst h; simp [tern]

theorem step_of_main {env : Env} {op : UInt8} {st st' alt : List Bytes} (h1 : op ≠ 0x6b) (h2 : op ≠ 0x6c)
    (h : main env op st = some st') : step env op ⟨st, alt⟩ = some ⟨st', alt⟩ := by
  unfold step; rw [if_neg h1, if_neg h2, h]; rfl

theorem step_none_of_main {env : Env} {op : UInt8} {st alt : List Bytes} (h1 : op ≠ 0x6b)
    (h2 : op ≠ 0x6c) (h : main env op st = none) : step env op ⟨st, alt⟩ = none := by
  unfold step; rw [if_neg h1, if_neg h2, h]; rfl

theorem bind_verify (r : Option Bool) :
    (r.bind verify).isSome = true ↔ r = some true := by
  rcases r with _ | _ | _ <;> simp [verify]

end FuncProofs

set_option maxHeartbeats 1000000 in
/-- **C66** (progress): an opcode whose operands have the types its typed function demands, with integers
of at most four bytes, fails exactly for the reasons listed in `Spec.Ready`: never because an operand is
missing, is not a number, or is badly encoded. -/
theorem C66_progress (env : Vm.Env) (o : Opcode) (f : FSig) (hf : o.func = some f) (hsp : ¬ Special o)
    (ρ : Nat → Bytes → Prop) (args rest alt : List Bytes)
    (hargs : List.Forall₂ (FInRange ρ) f.params args) :
    (∃ s', Vm.step env o.toByte ⟨args.reverse ++ rest, alt⟩ = some s') ↔ Ready env o args := by
  have hsp1 : o.toByte ≠ 0x6b := by
    intro e; apply hsp; cases o <;> first | exact .inr (.inr (.inl rfl)) | exact absurd e (by decide)
  have hsp2 : o.toByte ≠ 0x6c := by
    intro e; apply hsp; cases o <;> first | exact .inr (.inr (.inr rfl)) | exact absurd e (by decide)
  have hm : (∃ s', Vm.step env o.toByte ⟨args.reverse ++ rest, alt⟩ = some s') ↔
      (Vm.main env o.toByte (args.reverse ++ rest)).isSome = true := by
    unfold Vm.step
    rw [if_neg hsp1, if_neg hsp2]
    simp [Option.isSome_iff_exists]
  rw [hm]
  clear hm hsp1 hsp2
  generalize hst : args.reverse ++ rest = st
  generalize hr : Vm.main env o.toByte st = r
  cases o <;> cases hf
  all_goals rcases hargs with _ | ⟨h1, _ | ⟨h2, _ | ⟨h3, _ | ⟨h4, _ | ⟨h5, _ | ⟨h6, _ | _⟩⟩⟩⟩⟩⟩
  all_goals first
    | exact absurd (.inl rfl) hsp
    | exact absurd (.inr (.inl rfl)) hsp
    | exact absurd (.inr (.inr (.inl rfl))) hsp
    | exact absurd (.inr (.inr (.inr rfl))) hsp
    | (subst hst; subst hr; exact ⟨fun _ => trivial, fun _ => rfl⟩)
    | skip
  case OP_RETURN.refl.nil => subst hr; exact ⟨fun h => (nomatch h), fun h => (nomatch h)⟩
  case OP_VERIFY.refl.cons.nil =>
    rw [un_some hr hst.symm]
    simp [Ready, verify, truthy, apply_ite Option.isSome]
  case OP_SPLIT.refl.cons.cons.nil =>
    rw [bin_some hr hst.symm]
    simp [Ready, (range_num h2).1, apply_ite Option.isSome, Int.toNat_le]
  case OP_NUM2BIN.refl.cons.cons.nil =>
    rw [bin_some hr hst.symm]
    simp [Ready, (range_num h2).1, (range_num h1).2.2, apply_ite Option.isSome, num2bin]
    omega
  case OP_BIN2NUM.refl.cons.nil =>
    rw [un_some hr hst.symm]
    simp only [apply_ite Option.isSome]
    simp [Ready, numBytes_length_iff]
  case OP_AND.refl.cons.cons.nil | OP_OR.refl.cons.cons.nil | OP_XOR.refl.cons.cons.nil =>
    rw [bin_some hr hst.symm]
    simp [Ready, bitwise, apply_ite Option.isSome]
  case OP_EQUALVERIFY.refl.cons.cons.nil =>
    rw [bin_some hr hst.symm]
    simp [Ready, verify, apply_ite Option.isSome]
  case OP_NUMEQUALVERIFY.refl.cons.cons.nil =>
    rw [bin_some hr hst.symm]
    simp [Ready, verify, apply_ite Option.isSome, (range_num h1).1, (range_num h2).1]
    constructor
    · intro h
      rw [← (range_num h1).2.2, ← (range_num h2).2.2, h]
    · intro h; rw [h]
  case OP_DIV.refl.cons.cons.nil | OP_MOD.refl.cons.cons.nil =>
    rw [bin_some hr hst.symm]
    simp [Ready, (range_num h1).1, (range_num h2).1, apply_ite Option.isSome]
  case OP_CHECKSIG.refl.cons.cons.nil =>
    rw [bin_some hr hst.symm]
    simp only [Ready, Option.isSome_map, Option.isSome_iff_exists]
  case OP_CHECKDATASIG.refl.cons.cons.cons.nil =>
    rw [tern_some hr hst.symm]
    simp only [Ready, Option.isSome_map, Option.isSome_iff_exists]
  case OP_CHECKSIGVERIFY.refl.cons.cons.nil =>
    rw [bin_some hr hst.symm]
    exact bind_verify _
  case OP_CHECKDATASIGVERIFY.refl.cons.cons.cons.nil =>
    rw [tern_some hr hst.symm]
    exact bind_verify _
  case OP_CHECKLOCKTIMEVERIFY.refl.cons.nil | OP_CHECKSEQUENCEVERIFY.refl.cons.nil =>
    rw [un_some hr hst.symm]
    simp [Ready, (range_num h1).2.1, apply_ite Option.isSome]
  case OP_NOT.refl.cons.nil =>
    rw [un_some hr hst.symm]
    simp [Ready, bool_num h1]
  case OP_BOOLAND.refl.cons.cons.nil | OP_BOOLOR.refl.cons.cons.nil =>
    rw [bin_some hr hst.symm]
    simp [Ready, bool_num h1, bool_num h2]
  case OP_WITHIN.refl.cons.cons.cons.nil =>
    rw [tern_some hr hst.symm]
    simp [Ready, (range_num h1).1, (range_num h2).1, (range_num h3).1]
  all_goals first
    | (rw [un_some hr hst.symm]
       simp [Ready, (range_num h1).1])
    | (rw [bin_some hr hst.symm]
       simp [Ready, (range_num h1).1, (range_num h2).1])

/-- Non-vacuity: dividing 7 by 2 succeeds, dividing by 0 does not. -/
example (env : Vm.Env) : ∃ f, Opcode.OP_DIV.func = some f ∧
    List.Forall₂ (FInRange fun _ _ => True) f.params [[7], [2]] ∧
    List.Forall₂ (FInRange fun _ _ => True) f.params [[7], []] ∧
    Ready env .OP_DIV [[7], [2]] ∧ ¬ Ready env .OP_DIV [[7], []] :=
  ⟨_, rfl, .cons ⟨⟨7, by decide +kernel⟩, fun _ => by decide⟩
      (.cons ⟨⟨2, by decide +kernel⟩, fun _ => by decide⟩ .nil),
    .cons ⟨⟨7, by decide +kernel⟩, fun _ => by decide⟩
      (.cons ⟨⟨0, by decide +kernel⟩, fun _ => by decide⟩ .nil),
    by show scriptNum [2] ≠ 0; decide +kernel, by show ¬ scriptNum [] ≠ 0; decide +kernel⟩

/-- The typed functions do not track sizes: a script that type-checks can still fail because an
intermediate sum has five bytes. -/
theorem C66_range_fails (env : Vm.Env) : ∃ (args : List Bytes) (s1 : Vm.State),
    List.Forall₂ (FInRange fun _ _ => True) [.integer, .integer] args ∧
    Opcode.OP_ADD.func = some ⟨[.integer, .integer], [.integer]⟩ ∧
    Vm.step env Opcode.OP_ADD.toByte ⟨args.reverse, []⟩ = some s1 ∧
    Opcode.OP_NEGATE.func = some ⟨[.integer], [.integer]⟩ ∧
    Vm.step env Opcode.OP_NEGATE.toByte s1 = none := by
  refine ⟨[[0xff, 0xff, 0xff, 0x7f], [1]], ⟨[[0, 0, 0, 0x80, 0]], []⟩,
    .cons ⟨⟨2147483647, by decide +kernel⟩, fun _ => by decide⟩
      (.cons ⟨⟨1, by decide +kernel⟩, fun _ => by decide⟩ .nil), rfl, ?_, rfl, ?_⟩
  · exact step_of_main (by decide) (by decide)
      (show bin1 (fun a b => some (a + b)) [[1], [0xff, 0xff, 0xff, 0x7f]] = _ by decide +kernel)
  · exact step_none_of_main (by decide) (by decide)
      (show un1 (fun a => -a) [[0, 0, 0, 0x80, 0]] = none by decide +kernel)

/-- Spec: a type of the signatures and a recorded data type say the same. -/
def Spec.SameType : FTy → DataType → Prop
  | .var _, .generic => True
  | .integer, .integer => True
  | .boolean, .boolean => True
  | .byteArray, .byteArray _ => True
  | _, _ => False

instance (t : FTy) (d : DataType) : Decidable (SameType t d) := by
  unfold SameType; split <;> infer_instance

/-- **C66** (agreement of the two tables): the typed functions and the recorded behaviours, which the
macro both uses, agree on the number of operands and results and on their types. Exceptions: OP_VERIFY
takes an operand of any type; for OP_PICK, OP_ROLL and the alternative stack opcodes, which the macro
treats specially, the results differ. -/
theorem C66_tables_agree (o : Opcode) (f : FSig) (b : OpcodeBehavior) (hf : o.func = some f)
    (hb : o.behavior = some b) (hsp : ¬ Special o) :
    (o ≠ .OP_VERIFY → List.Forall₂ SameType f.params b.inputTypes) ∧
    f.params.length = b.inputTypes.length ∧ List.Forall₂ SameType f.results b.outputTypes := by
  cases o <;> first | (exfalso; cases hb; done) | (exfalso; cases hf; done) | skip
  all_goals cases hf; cases hb
  all_goals first
    | exact absurd (.inl rfl) hsp
    | exact absurd (.inr (.inl rfl)) hsp
    | exact absurd (.inr (.inr (.inl rfl))) hsp
    | exact absurd (.inr (.inr (.inr rfl))) hsp
    | exact ⟨fun h => absurd rfl h, rfl, .nil⟩
    | exact ⟨fun _ => by repeat constructor, rfl, by repeat constructor⟩

/-- **C66** (coverage): an opcode written in a script passes the macro and has a typed function exactly
if it is not disabled and is none of OP_IFDUP, OP_CHECKMULTISIG, OP_CHECKMULTISIGVERIFY (which the macro
cannot track) and OP_NOTIF; OP_NOTIF is accepted by the macro, but the generated code does not compile. -/
theorem C66_coverage (o : Opcode) (ho : Macro.inNameMap o = true) :
    (o.behavior = none ↔ o.isDisabled = true ∨ o = .OP_IFDUP ∨ o = .OP_CHECKMULTISIG ∨
      o = .OP_CHECKMULTISIGVERIFY) ∧
    (o.func = none ↔ o.behavior = none ∨ o = .OP_NOTIF) := by
  cases o <;> revert ho <;> decide

/-- Non-vacuity: OP_CAT is covered, OP_NOTIF is not. -/
example : Macro.inNameMap .OP_CAT = true ∧ Opcode.OP_CAT.func ≠ none ∧
    Macro.inNameMap .OP_NOTIF = true ∧ Opcode.OP_NOTIF.func = none := by decide

/-- Spec: the type a type of a signature becomes when type parameter `i` is `σ i`. -/
def Spec.instantiate (σ : Nat → FTy) : FTy → FTy
  | .var i => σ i
  | .integer => .integer
  | .boolean => .boolean
  | .byteArray => .byteArray

/-- Spec: the opcodes that move, copy, drop or test operands of whatever type. -/
def Spec.anyOperands : List Opcode :=
  [.OP_VERIFY, .OP_IF, .OP_TOALTSTACK, .OP_FROMALTSTACK, .OP_DROP, .OP_2DROP, .OP_DUP, .OP_2DUP, .OP_3DUP,
   .OP_NIP, .OP_OVER, .OP_2OVER, .OP_ROT, .OP_2ROT, .OP_SWAP, .OP_2SWAP, .OP_TUCK]

/-- Existence of an instantiation, from a list of types. -/
theorem exists_instantiate (ts : List FTy) (ps : List FTy) (k : Nat)
    (hps : ps = (List.range' k ts.length).map .var) (a : Nat → FTy) :
    ∃ σ : Nat → FTy, (∀ i, i < k → σ i = a i) ∧ ps.map (instantiate σ) = ts := by
  refine ⟨fun i => if i < k then a i else ts.getD (i - k) .integer, fun i hi => if_pos hi, ?_⟩
  subst hps
  rw [List.map_map]
  apply List.ext_getElem
  · simp
  · intro i h1 h2
    simp only [List.getElem_map, Function.comp, instantiate, List.getElem_range', Nat.one_mul]
    rw [if_neg (by omega)]
    simp [List.getD_eq_getElem?_getD, h2]

/-- **C66** (no needless type errors): the functions of the opcodes that only move, copy, drop or test
operands accept operands of any types, in any combination, and the functions of OP_EQUAL and OP_EQUALVERIFY
accept any two operands of the same type. -/
theorem C66_general (o : Opcode) :
    (o ∈ anyOperands → ∃ f, o.func = some f ∧ ∀ ts : List FTy, ts.length = f.params.length →
      ∃ σ, f.params.map (instantiate σ) = ts) ∧
    (o = .OP_EQUAL ∨ o = .OP_EQUALVERIFY → ∃ f, o.func = some f ∧ ∀ t : FTy,
      ∃ σ, f.params.map (instantiate σ) = [t, t]) := by
  constructor
  · intro ho
    have key : ∀ f, o.func = some f → f.params = (List.range' 0 f.params.length).map .var →
        ∃ f, o.func = some f ∧ ∀ ts : List FTy, ts.length = f.params.length →
          ∃ σ, f.params.map (instantiate σ) = ts := by
      intro f hf hp
      refine ⟨f, hf, fun ts ht => ?_⟩
      obtain ⟨σ, -, h⟩ := exists_instantiate ts f.params 0 (by rw [ht]; exact hp) fun _ => .integer
      exact ⟨σ, h⟩
    simp only [anyOperands, List.mem_cons, List.not_mem_nil, or_false] at ho
    rcases ho with h | h | h | h | h | h | h | h | h | h | h | h | h | h | h | h | h <;> subst h <;>
      exact key _ rfl rfl
  · rintro (rfl | rfl) <;> exact ⟨_, rfl, fun t => ⟨fun _ => t, rfl⟩⟩

/-- Non-vacuity: OP_2OVER on a number, a truth value, bytes and a number; OP_CAT is no such opcode: of two
numbers its function accepts no combination. -/
example : Opcode.OP_2OVER ∈ anyOperands ∧
    (∃ f σ, Opcode.OP_2OVER.func = some f ∧
      f.params.map (instantiate σ) = [.integer, .boolean, .byteArray, .integer]) ∧
    ∃ f, Opcode.OP_CAT.func = some f ∧ ¬ ∃ σ, f.params.map (instantiate σ) = [.integer, .integer] := by
  refine ⟨by decide, ?_, _, rfl, fun ⟨σ, h⟩ => by simp [instantiate] at h⟩
  obtain ⟨f, hf, h⟩ := (C66_general .OP_2OVER).1 (by decide)
  cases hf
  obtain ⟨σ, h⟩ := h [.integer, .boolean, .byteArray, .integer] rfl
  exact ⟨_, σ, rfl, h⟩


/-! ## Pushed values -/

/-- Spec: the stack item of a Rust value: an integer as its minimal encoding, a truth value as `[1]` or
`[]`, bytes as they are. -/
inductive Spec.ItemOf : PushValue → Bytes → Prop where
  | integer (i : Int) (x : Bytes) : scriptNum x = i → IsMinimalNum x → ItemOf (.integer i) x
  | integerResult (i : Int) (x : Bytes) : scriptNum x = i → IsMinimalNum x →
      ItemOf (.integerResult (.ok i)) x
  | inner (i : Int) (x : Bytes) : scriptNum x = i → IsMinimalNum x → ItemOf (.inner i) x
  | true : ItemOf (.boolean true) [1]
  | false : ItemOf (.boolean false) []
  | bytes (d : Bytes) : ItemOf (.bytes d) d
  | byteArray (d : Bytes) : ItemOf (.byteArray d) d

/-- Spec: the values that exist: integers are script integers (C09), `i32`s are in range, and byte
strings are small enough to be pushed. -/
def Spec.Exists : PushValue → Prop
  | .integer i => InScriptRange i
  | .integerResult (.ok i) => InScriptRange i
  | .integerResult (.error _) => True
  | .inner i => -2 ^ 31 ≤ i ∧ i < 2 ^ 31
  | .boolean _ => True
  | .bytes d => d.length < 2 ^ 32
  | .byteArray d => d.length < 2 ^ 32

/-- **C66** (pushes): pushing a Rust value puts exactly its stack item on the stack, which is of the type
the value has in the generated code and of the data type it reports. It panics exactly for an errored
integer result and for the `i32` that is not a script integer. -/
theorem C66_push (env : Vm.Env) (ρ : Nat → Bytes → Prop) (v : PushValue) (hv : Exists v)
    (s : Vm.State) :
    (v.toPushop = .panic ↔ (∃ e, v = .integerResult (.error e)) ∨ v = .inner (-2 ^ 31)) ∧
    (∀ op, v.toPushop = .ok op → ∃ bs x, serializeOps [op] = .ok bs ∧ ItemOf v x ∧
      Vm.Runs env bs s (some ⟨x :: s.stack, s.alt⟩) ∧
      FHasType ρ v.fType x ∧ HasType v.toDataType x) := by
  have key : ∀ op x, op.WellFormed → Vm.item op = some x → ∃ bs, serializeOps [op] = .ok bs ∧
      Vm.Runs env bs s (some ⟨x :: s.stack, s.alt⟩) := by
    intro op x hw hx
    obtain ⟨bs, h1, h2⟩ := C58_pushes env [op] [x] (by simpa using hw) (by simpa using hx) s
    exact ⟨bs, h1, h2⟩
  have hint : ∀ i, InScriptRange i → ∃ bs, serializeOps [.pushInteger i] = .ok bs ∧
      Vm.Runs env bs s (some ⟨numBytes i :: s.stack, s.alt⟩) := fun i hi =>
    key _ _ hi rfl
  have hn := fun i => NumProofs.numBytes_spec i
  cases v with
  | integer i =>
    refine ⟨by simp [PushValue.toPushop], fun op h => ?_⟩
    cases h
    obtain ⟨bs, h1, h2⟩ := hint i hv
    exact ⟨bs, _, h1, .integer _ _ (hn i).1 (hn i).2, h2, ⟨i, rfl⟩, ⟨i, rfl⟩⟩
  | integerResult r =>
    cases r with
    | error e => exact ⟨by simp [PushValue.toPushop], fun op h => nomatch h⟩
    | ok i =>
      refine ⟨by simp [PushValue.toPushop], fun op h => ?_⟩
      cases h
      obtain ⟨bs, h1, h2⟩ := hint i hv
      exact ⟨bs, _, h1, .integerResult _ _ (hn i).1 (hn i).2, h2, ⟨i, rfl⟩, ⟨i, rfl⟩⟩
  | inner i =>
    cases hi : Integer.new i with
    | error e =>
      refine ⟨?_, fun op h => ?_⟩
      · simp only [PushValue.toPushop, hi, reduceCtorEq, exists_false, false_or, true_iff,
          PushValue.inner.injEq]
        by_contra hne
        have := ((C09_new_iff i i).1).mpr ⟨rfl, by
          obtain ⟨h1, h2⟩ := hv
          constructor <;> omega⟩
        rw [hi] at this; cases this
      · simp [PushValue.toPushop, hi] at h
    | ok j =>
      obtain ⟨rfl, hr⟩ := ((C09_new_iff i j).1).mp hi
      refine ⟨?_, fun op h => ?_⟩
      · simp only [PushValue.toPushop, hi, reduceCtorEq, exists_false, false_or, false_iff,
          PushValue.inner.injEq]
        rintro rfl
        revert hr; decide
      · simp only [PushValue.toPushop, hi] at h
        cases h
        obtain ⟨bs, h1, h2⟩ := hint j hr
        exact ⟨bs, _, h1, .inner _ _ (hn j).1 (hn j).2, h2, ⟨j, rfl⟩, ⟨j, rfl⟩⟩
  | boolean b =>
    refine ⟨by simp [PushValue.toPushop], fun op h => ?_⟩
    cases h
    obtain ⟨bs, h1, h2⟩ := key (.pushBoolean b) _ trivial rfl
    refine ⟨bs, _, h1, ?_, h2, bool_typed _ _, boolType _⟩
    cases b
    · exact .false
    · exact .true
  | bytes d =>
    refine ⟨by simp [PushValue.toPushop], fun op h => ?_⟩
    cases h
    obtain ⟨bs, h1, h2⟩ := key (.pushByteArray d true) _ hv rfl
    exact ⟨bs, _, h1, .bytes d, h2, trivial, trivial⟩
  | byteArray d =>
    refine ⟨by simp [PushValue.toPushop], fun op h => ?_⟩
    cases h
    obtain ⟨bs, h1, h2⟩ := key (.pushByteArray d true) _ hv rfl
    exact ⟨bs, _, h1, .byteArray d, h2, trivial, rfl⟩

/-- Non-vacuity: the `i32` -5 is pushed as 0x85, and the smallest `i32` panics. -/
example : Exists (.inner (-5)) ∧ PushValue.toPushop (.inner (-5)) = .ok (.pushInteger (-5)) ∧
    Exists (.inner (-2 ^ 31)) ∧ PushValue.toPushop (.inner (-2 ^ 31)) = .panic := by
  refine ⟨?_, by decide +kernel, ?_, by decide +kernel⟩ <;> constructor <;> omega

/-- **C66** (stack items of pushes): converting an operation to stack item data works exactly for pushes,
and gives the pushed value. -/
theorem C66_stack_item (op : Op Bytes) :
    (StackItemData.ofOp op = .panic ↔ Vm.item op = none) ∧
    (∀ i, StackItemData.ofOp op = .ok (.integer i) ↔ op = .pushInteger i) ∧
    (∀ b, StackItemData.ofOp op = .ok (.boolean b) ↔ op = .pushBoolean b) ∧
    (∀ d, StackItemData.ofOp op = .ok (.byteArray d) ↔ ∃ m, op = .pushByteArray d m) := by
  cases op <;> simp [StackItemData.ofOp, Vm.item]

end BCash
