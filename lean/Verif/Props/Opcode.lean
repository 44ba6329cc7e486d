import Verif.Model.Behavior
import Verif.Spec.Vm

/-! # C45, C57: recorded stack behaviour of opcodes and execution -/

namespace BCash
open Spec

/-- **C45**: for every opcode with a recorded output order (other than OP_DEPTH), executing it on any
stack whose top items are `ins` (deepest first, as many as recorded) replaces them by the items selected
by the order (deepest first) and leaves everything else alone; the order only mentions existing inputs. -/
theorem C45_shuffle_partial (env : Vm.Env) (o : Opcode) (b : OpcodeBehavior) (order : List Nat)
    (hb : o.behavior = some b) (ho : b.outputOrder = some order) (hd : o ≠ .OP_DEPTH)
    (ins rest alt : List Bytes) (hlen : ins.length = b.inputTypes.length) :
    (∀ i ∈ order, i < ins.length) ∧ order.length = b.outputTypes.length ∧
    Vm.step env o.toByte ⟨ins.reverse ++ rest, alt⟩ =
      some ⟨(order.map fun i => ins.getD i []).reverse ++ rest, alt⟩ := by
  rw [hlen]
  cases o <;> first | (exfalso; exact hd rfl) | (exfalso; cases hb; cases ho; done) | (exfalso; cases hb; done) | skip
  all_goals
    cases hb; cases ho
    refine ⟨by decide, rfl, ?_⟩
    rcases ins with _ | ⟨a, _ | ⟨b, _ | ⟨c, _ | ⟨d, _ | ⟨e, _ | ⟨f, _ | ⟨g, l⟩⟩⟩⟩⟩⟩⟩
    all_goals first | rfl | (simp at hlen; done) | (simp at hlen; omega)

/-- **C45 fails** for OP_DEPTH: its recorded order names an input that does not exist, so it cannot
describe the item pushed. -/
theorem C45_depth_fails : ∃ b order, Opcode.OP_DEPTH.behavior = some b ∧ b.outputOrder = some order ∧
    b.inputTypes.length = 0 ∧ 0 ∈ order := ⟨_, _, rfl, rfl, rfl, List.mem_singleton.mpr rfl⟩

/-- Non-vacuity: OP_2ROT on six items. -/
example (env : Vm.Env) : Vm.step env Opcode.OP_2ROT.toByte ⟨[[6], [5], [4], [3], [2], [1], [9]], []⟩ =
    some ⟨[[2], [1], [6], [5], [4], [3], [9]], []⟩ := rfl

/-! ## Declared stack effects -/

/-- Spec: an item is of a declared type. -/
def HasType : DataType → Bytes → Prop
  | .generic, _ => True
  | .integer, x => ∃ n, x = Vm.numBytes n
  | .boolean, x => x = [] ∨ x = [1]
  | .byteArray none, _ => True
  | .byteArray (some k), x => x.length = k

/-- Spec: items are of the declared types, one for one. -/
inductive AllTyped : List DataType → List Bytes → Prop where
  | nil : AllTyped [] []
  | cons {t : DataType} {x : Bytes} {ts : List DataType} {xs : List Bytes} :
      HasType t x → AllTyped ts xs → AllTyped (t :: ts) (x :: xs)

/-- Spec: the hash functions have the right output sizes. -/
structure Spec.Vm.Env.Sizes (env : Vm.Env) : Prop where
  ripemd160 : ∀ x, (env.ripemd160 x).length = 20
  sha1 : ∀ x, (env.sha1 x).length = 20
  sha256 : ∀ x, (env.sha256 x).length = 32
  hash160 : ∀ x, (env.hash160 x).length = 20
  hash256 : ∀ x, (env.hash256 x).length = 32

/-- Spec: going from stack `s` to `s'` (top first) removes `k` items and adds items of the given types
(deepest first). -/
def Spec.Vm.Effect (k : Nat) (types : List DataType) (s s' : List Bytes) : Prop :=
  ∃ ins outs rest, s = ins ++ rest ∧ s' = outs ++ rest ∧ ins.length = k ∧
    AllTyped types outs.reverse

namespace VmProofs
open Vm

theorem un_effect {f : Bytes → Option (List Bytes)} {s s' : List Bytes} {types : List DataType}
    (h : un f s = some s') (ht : ∀ a outs, f a = some outs → AllTyped types outs.reverse) :
    Effect 1 types s s' := by
  unfold un at h
  split at h
  · next a s =>
    obtain ⟨outs, h1, rfl⟩ := Option.map_eq_some_iff.mp h
    exact ⟨[a], outs, s, rfl, rfl, rfl, ht a outs h1⟩
  · cases h

theorem bin_effect {f : Bytes → Bytes → Option (List Bytes)} {s s' : List Bytes}
    {types : List DataType} (h : bin f s = some s')
    (ht : ∀ a b outs, f a b = some outs → AllTyped types outs.reverse) :
    Effect 2 types s s' := by
  unfold bin at h
  split at h
  · next b a s =>
    obtain ⟨outs, h1, rfl⟩ := Option.map_eq_some_iff.mp h
    exact ⟨[b, a], outs, s, rfl, rfl, rfl, ht a b outs h1⟩
  · cases h

theorem tern_effect {f : Bytes → Bytes → Bytes → Option (List Bytes)} {s s' : List Bytes}
    {types : List DataType} (h : tern f s = some s')
    (ht : ∀ a b c outs, f a b c = some outs → AllTyped types outs.reverse) :
    Effect 3 types s s' := by
  unfold tern at h
  split at h
  · next c b a s =>
    obtain ⟨outs, h1, rfl⟩ := Option.map_eq_some_iff.mp h
    exact ⟨[c, b, a], outs, s, rfl, rfl, rfl, ht a b c outs h1⟩
  · cases h

theorem push_effect {x : Bytes} {t : DataType} (s : List Bytes) (ht : HasType t x) :
    Effect 0 [t] s (x :: s) := ⟨[], [x], s, rfl, rfl, rfl, .cons ht .nil⟩

theorem nop_effect (s : List Bytes) : Effect 0 [] s s := ⟨[], [], s, rfl, rfl, rfl, .nil⟩

theorem one {t : DataType} {x : Bytes} (h : HasType t x) :
    AllTyped [t] [x].reverse := .cons h .nil

theorem boolType (b : Bool) : HasType .boolean (boolBytes b) := by
  cases b
  · exact Or.inl rfl
  · exact Or.inr rfl

theorem un1_effect {f : Int → Int} {s s' : List Bytes} (h : un1 f s = some s') :
    Effect 1 [.integer] s s' := by
  refine un_effect h fun a outs h => ?_
  obtain ⟨n, _, rfl⟩ := Option.map_eq_some_iff.mp h
  exact one ⟨_, rfl⟩

theorem bin1_effect {f : Int → Int → Option Int} {s s' : List Bytes} (h : bin1 f s = some s') :
    Effect 2 [.integer] s s' := by
  refine bin_effect h fun a b outs h => ?_
  obtain ⟨n, _, h⟩ := Option.bind_eq_some_iff.mp h
  obtain ⟨m, _, h⟩ := Option.bind_eq_some_iff.mp h
  obtain ⟨r, _, rfl⟩ := Option.map_eq_some_iff.mp h
  exact one ⟨_, rfl⟩

theorem cmp_effect {f : Int → Int → Bool} {s s' : List Bytes} (h : cmp f s = some s') :
    Effect 2 [.boolean] s s' := by
  refine bin_effect h fun a b outs h => ?_
  obtain ⟨n, _, h⟩ := Option.bind_eq_some_iff.mp h
  obtain ⟨m, _, rfl⟩ := Option.map_eq_some_iff.mp h
  exact one (boolType _)

theorem verify_nil {b : Bool} {outs : List Bytes} (h : verify b = some outs) :
    AllTyped [] outs.reverse := by
  unfold verify at h
  split at h
  · cases h; exact .nil
  · cases h

theorem bitwise_effect {f : UInt8 → UInt8 → UInt8} {s s' : List Bytes}
    (h : bin (bitwise f) s = some s') : Effect 2 [.byteArray none] s s' := by
  refine bin_effect h fun a b outs h => ?_
  unfold bitwise at h
  split at h
  · cases h; exact one trivial
  · cases h

theorem main_of_step {env : Env} {op : UInt8} {s s' : State} (h1 : op ≠ 0x6b) (h2 : op ≠ 0x6c)
    (h : step env op s = some s') : main env op s.stack = some s'.stack ∧ s'.alt = s.alt := by
  unfold step at h
  rw [if_neg h1, if_neg h2] at h
  obtain ⟨st, hst, rfl⟩ := Option.map_eq_some_iff.mp h
  exact ⟨hst, rfl⟩

end VmProofs
open VmProofs Vm

/-- **C57**: for every opcode other than OP_NOTIF and OP_ROLL that has a recorded behaviour, every
successful execution removes exactly the recorded number of items from the stack and adds exactly the
recorded number, of the recorded types; the items below stay. -/
theorem C57_stack_effect_partial (env : Vm.Env) (hs : env.Sizes) (o : Opcode) (b : OpcodeBehavior)
    (hb : o.behavior = some b) (h1 : o ≠ .OP_NOTIF) (h2 : o ≠ .OP_ROLL) (s s' : Vm.State)
    (h : Vm.step env o.toByte s = some s') :
    Vm.Effect b.inputTypes.length b.outputTypes s.stack s'.stack := by
  by_cases ha : o.toByte = 0x6b
  · have : o = .OP_TOALTSTACK := by cases o <;> first | rfl | (exact absurd ha (by decide))
    subst this; cases hb
    unfold Vm.step at h
    rw [if_pos ha] at h
    split at h
    · next a st heq => cases h; exact ⟨[a], [], st, heq, rfl, rfl, .nil⟩
    · cases h
  by_cases hf : o.toByte = 0x6c
  · have : o = .OP_FROMALTSTACK := by cases o <;> first | rfl | (exact absurd hf (by decide))
    subst this; cases hb
    unfold Vm.step at h
    rw [if_neg ha, if_pos hf] at h
    split at h
    · next a st heq => cases h; exact ⟨[], [a], s.stack, rfl, rfl, rfl, .cons trivial .nil⟩
    · cases h
  have hm := (main_of_step ha hf h).1
  clear h
  generalize s.stack = st at hm
  generalize s'.stack = st' at hm
  cases o <;> cases hb
  all_goals first
    | exact absurd rfl h1
    | exact absurd rfl h2
    | exact absurd rfl ha
    | exact absurd rfl hf
    | (cases hm; done)
    | (cases hm; exact nop_effect _)
    | exact un1_effect hm
    | exact bin1_effect hm
    | exact cmp_effect hm
    | exact bitwise_effect hm
    | (refine un_effect hm fun _ _ h => ?_; exact verify_nil h)
    | (refine bin_effect hm fun _ _ _ h => ?_; exact verify_nil h)
    | (refine un_effect hm fun _ _ h => ?_; cases h
       (repeat first | exact .nil | refine .cons trivial ?_)
       done)
    | (refine bin_effect hm fun _ _ _ h => ?_; cases h
       (repeat first | exact .nil | refine .cons trivial ?_)
       done)
    | (refine tern_effect hm fun _ _ _ _ h => ?_; cases h
       (repeat first | exact .nil | refine .cons trivial ?_)
       done)
    | (refine un_effect hm fun _ _ h => ?_
       obtain ⟨n, _, rfl⟩ := Option.map_eq_some_iff.mp h
       exact one (boolType _))
    | (refine bin_effect hm fun _ _ _ h => ?_
       obtain ⟨n, _, rfl⟩ := Option.map_eq_some_iff.mp h
       exact one (boolType _))
    | (refine tern_effect hm fun _ _ _ _ h => ?_
       obtain ⟨n, _, rfl⟩ := Option.map_eq_some_iff.mp h
       exact one (boolType _))
    | (refine bin_effect hm fun _ _ _ h => ?_
       obtain ⟨n, _, h⟩ := Option.bind_eq_some_iff.mp h
       exact verify_nil h)
    | (refine tern_effect hm fun _ _ _ _ h => ?_
       obtain ⟨n, _, h⟩ := Option.bind_eq_some_iff.mp h
       exact verify_nil h)
    | (refine un_effect hm fun a outs h => ?_
       obtain ⟨n, hn, h⟩ := Option.bind_eq_some_iff.mp h
       unfold num? at hn
       split at hn
       · next hc => split at h <;> cases h; exact one ⟨_, hc.2.symm⟩
       · cases hn)
    | (match st, hm with
       | _ :: _ :: _ :: _ :: r, hm =>
         cases hm
         exact ⟨[_, _, _, _], [_, _, _, _], r, rfl, rfl, rfl,
           .cons trivial (.cons trivial (.cons trivial (.cons trivial .nil)))⟩)
    | (match st, hm with
       | _ :: _ :: _ :: _ :: r, hm =>
         cases hm
         exact ⟨[_, _, _, _], [_, _, _, _, _, _], r, rfl, rfl, rfl,
           .cons trivial (.cons trivial (.cons trivial (.cons trivial (.cons trivial (.cons trivial .nil)))))⟩)
    | (match st, hm with
       | _ :: _ :: _ :: _ :: _ :: _ :: r, hm =>
         cases hm
         exact ⟨[_, _, _, _, _, _], [_, _, _, _, _, _], r, rfl, rfl, rfl,
           .cons trivial (.cons trivial (.cons trivial (.cons trivial (.cons trivial (.cons trivial .nil)))))⟩)
    | skip
  case neg.OP_0.refl => cases hm; exact push_effect _ ⟨0, by decide +kernel⟩
  case neg.OP_1NEGATE.refl => cases hm; exact push_effect _ ⟨(-1), by decide +kernel⟩
  case neg.OP_1.refl => cases hm; exact push_effect _ ⟨1, by decide +kernel⟩
  case neg.OP_2.refl => cases hm; exact push_effect _ ⟨2, by decide +kernel⟩
  case neg.OP_3.refl => cases hm; exact push_effect _ ⟨3, by decide +kernel⟩
  case neg.OP_4.refl => cases hm; exact push_effect _ ⟨4, by decide +kernel⟩
  case neg.OP_5.refl => cases hm; exact push_effect _ ⟨5, by decide +kernel⟩
  case neg.OP_6.refl => cases hm; exact push_effect _ ⟨6, by decide +kernel⟩
  case neg.OP_7.refl => cases hm; exact push_effect _ ⟨7, by decide +kernel⟩
  case neg.OP_8.refl => cases hm; exact push_effect _ ⟨8, by decide +kernel⟩
  case neg.OP_9.refl => cases hm; exact push_effect _ ⟨9, by decide +kernel⟩
  case neg.OP_10.refl => cases hm; exact push_effect _ ⟨10, by decide +kernel⟩
  case neg.OP_11.refl => cases hm; exact push_effect _ ⟨11, by decide +kernel⟩
  case neg.OP_12.refl => cases hm; exact push_effect _ ⟨12, by decide +kernel⟩
  case neg.OP_13.refl => cases hm; exact push_effect _ ⟨13, by decide +kernel⟩
  case neg.OP_14.refl => cases hm; exact push_effect _ ⟨14, by decide +kernel⟩
  case neg.OP_15.refl => cases hm; exact push_effect _ ⟨15, by decide +kernel⟩
  case neg.OP_16.refl => cases hm; exact push_effect _ ⟨16, by decide +kernel⟩
  case neg.OP_DEPTH.refl => cases hm; exact push_effect _ ⟨_, rfl⟩
  case neg.OP_PICK.refl =>
    match st, hm with
    | n :: r, hm =>
      obtain ⟨k, _, hm⟩ := Option.bind_eq_some_iff.mp hm
      split at hm
      · obtain ⟨x, _, rfl⟩ := Option.map_eq_some_iff.mp hm
        exact ⟨[n], [x], r, rfl, rfl, rfl, one trivial⟩
      · cases hm
  case neg.OP_SPLIT.refl =>
    refine bin_effect hm fun _ _ _ h => ?_
    obtain ⟨n, _, h⟩ := Option.bind_eq_some_iff.mp h
    split at h <;> cases h
    exact .cons trivial (.cons trivial .nil)
  case neg.OP_NUM2BIN.refl =>
    refine bin_effect hm fun _ _ _ h => ?_
    obtain ⟨n, _, h⟩ := Option.bind_eq_some_iff.mp h
    obtain ⟨r, _, rfl⟩ := Option.map_eq_some_iff.mp h
    exact one trivial
  case neg.OP_BIN2NUM.refl =>
    refine un_effect hm fun _ _ h => ?_
    split at h <;> cases h
    exact one ⟨_, rfl⟩
  case neg.OP_SIZE.refl =>
    refine un_effect hm fun _ _ h => ?_
    cases h
    exact .cons trivial (.cons ⟨_, rfl⟩ .nil)
  case neg.OP_EQUAL.refl =>
    refine bin_effect hm fun _ _ _ h => ?_
    cases h
    exact one (boolType _)
  case neg.OP_NUMEQUALVERIFY.refl =>
    refine bin_effect hm fun _ _ _ h => ?_
    obtain ⟨n, _, h⟩ := Option.bind_eq_some_iff.mp h
    obtain ⟨n, _, h⟩ := Option.bind_eq_some_iff.mp h
    exact verify_nil h
  case neg.OP_WITHIN.refl =>
    refine tern_effect hm fun _ _ _ _ h => ?_
    obtain ⟨n, _, h⟩ := Option.bind_eq_some_iff.mp h
    obtain ⟨n, _, h⟩ := Option.bind_eq_some_iff.mp h
    obtain ⟨r, _, rfl⟩ := Option.map_eq_some_iff.mp h
    exact one (boolType _)
  case neg.OP_RIPEMD160.refl =>
    refine un_effect hm fun _ _ h => ?_
    cases h
    exact one (hs.ripemd160 _)
  case neg.OP_SHA1.refl =>
    refine un_effect hm fun _ _ h => ?_
    cases h
    exact one (hs.sha1 _)
  case neg.OP_SHA256.refl =>
    refine un_effect hm fun _ _ h => ?_
    cases h
    exact one (hs.sha256 _)
  case neg.OP_HASH160.refl =>
    refine un_effect hm fun _ _ h => ?_
    cases h
    exact one (hs.hash160 _)
  case neg.OP_HASH256.refl =>
    refine un_effect hm fun _ _ h => ?_
    cases h
    exact one (hs.hash256 _)

/-- **C57 fails** for OP_NOTIF: no input is recorded, but the condition is taken from the stack. -/
theorem C57_notif_fails (env : Vm.Env) : ∃ b s s', Opcode.OP_NOTIF.behavior = some b ∧
    Vm.step env Opcode.OP_NOTIF.toByte s = some s' ∧
    ¬ Vm.Effect b.inputTypes.length b.outputTypes s.stack s'.stack := by
  refine ⟨_, ⟨[[1]], []⟩, ⟨[], []⟩, rfl, rfl, ?_⟩
  rintro ⟨ins, outs, rest, h1, h2, h3, h4⟩
  have : ins = [] := List.length_eq_zero_iff.mp h3
  subst this
  have ho : rest = [] := (List.append_eq_nil_iff.mp h2.symm).2
  subst ho
  cases h1

/-- **C57 fails** for OP_ROLL: two items are taken (the index and the item rolled), one is recorded. -/
theorem C57_roll_fails (env : Vm.Env) : ∃ b s s', Opcode.OP_ROLL.behavior = some b ∧
    Vm.step env Opcode.OP_ROLL.toByte s = some s' ∧
    ¬ Vm.Effect b.inputTypes.length b.outputTypes s.stack s'.stack := by
  refine ⟨_, ⟨[[1], [2], [3]], []⟩, ⟨[[3], [2]], []⟩, rfl, rfl, ?_⟩
  rintro ⟨ins, outs, rest, h1, h2, h3, h4⟩
  have hl1 := congrArg List.length h1
  have hl2 := congrArg List.length h2
  have hl4 : outs.length = 1 := by
    cases h : outs.reverse with
    | nil => rw [h] at h4; cases h4
    | cons x xs =>
      rw [h] at h4
      cases h4 with
      | cons _ h5 =>
        cases h5
        have := congrArg List.length h
        simpa using this
  simp at hl1 hl2 h3
  omega

/-- **C57** (roles): every opcode other than OP_CHECKSIGVERIFY records one role per output item. -/
theorem C57_roles_partial (o : Opcode) (b : OpcodeBehavior) (hb : o.behavior = some b)
    (h : o ≠ .OP_CHECKSIGVERIFY) : b.delta.length = b.outputTypes.length := by
  cases o <;> cases hb <;> first | rfl | exact absurd rfl h

/-- **C57 fails** (roles) for OP_CHECKSIGVERIFY: a role is recorded for an item that is not produced. -/
theorem C57_roles_fails : ∃ b, Opcode.OP_CHECKSIGVERIFY.behavior = some b ∧
    b.delta.length ≠ b.outputTypes.length := ⟨_, rfl, by decide⟩

namespace VmProofs

/-- A check for `C57_roles_meaning` that can be evaluated. -/
def rolesOk (order : List Nat) (delta : List StackItemDelta) : Bool :=
  (List.range order.length).all fun k => delta[k]?.any fun role =>
    decide (role = .untouched ↔ order[k]? = some k ∧ order.count k = 1) &&
    decide (role = .observed ↔ order[k]? = some k ∧ 2 ≤ order.count k) &&
    decide (role = .added → order[k]? ≠ some k ∧ (order[k]?.any fun i => decide (2 ≤ order.count i))) &&
    decide (role ≠ .changed ∧ role ≠ .removed)

end VmProofs

/-- **C57** (meaning of the roles): for the opcodes with a recorded output order (other than OP_DEPTH),
the item at output position `k` is recorded as untouched or observed exactly if it is the item that was
at this position before, and as observed exactly if it was moreover copied to another position; in all
other positions it is recorded as added or moved, and as added only if the item also stays elsewhere. -/
theorem C57_roles_meaning (o : Opcode) (b : OpcodeBehavior) (order : List Nat)
    (hb : o.behavior = some b) (ho : b.outputOrder = some order) (hd : o ≠ .OP_DEPTH)
    (k : Nat) (hk : k < order.length) :
    ∃ role, b.delta[k]? = some role ∧
    (role = .untouched ↔ order[k]? = some k ∧ order.count k = 1) ∧
    (role = .observed ↔ order[k]? = some k ∧ 2 ≤ order.count k) ∧
    (role = .added → order[k]? ≠ some k ∧ ∃ i, order[k]? = some i ∧ 2 ≤ order.count i) ∧
    role ≠ .changed ∧ role ≠ .removed := by
  have hok : rolesOk order b.delta = true := by
    cases o <;> first | (exfalso; exact hd rfl) | (exfalso; cases hb; cases ho; done) | (exfalso; cases hb; done) | skip
    all_goals
      cases hb; cases ho
      decide +kernel
  have := List.all_eq_true.mp hok k (List.mem_range.mpr hk)
  rw [Option.any_eq_true] at this
  obtain ⟨role, h1, h2⟩ := this
  simp only [Bool.and_eq_true, decide_eq_true_eq] at h2
  obtain ⟨⟨⟨h3, h4⟩, h5⟩, h6, h7⟩ := h2
  refine ⟨role, h1, h3, h4, fun e => ?_, h6, h7⟩
  obtain ⟨g1, g2⟩ := h5 e
  rw [Option.any_eq_true] at g2
  obtain ⟨i, g2, g3⟩ := g2
  exact ⟨g1, i, g2, of_decide_eq_true g3⟩

/-- Non-vacuity: the roles of OP_OVER. -/
example : ∃ b order, Opcode.OP_OVER.behavior = some b ∧ b.outputOrder = some order ∧
    order.length = 3 ∧ b.delta = [.observed, .untouched, .added] := ⟨_, _, rfl, rfl, rfl, rfl⟩

namespace VmProofs

/-- Operands that are not retained. -/
def notRetained : Opcode → Bytes
  | .OP_BIN2NUM => [1, 0]
  | .OP_ABS => [0x81]
  | .OP_REVERSEBYTES => [1, 2]
  | .OP_PICK | .OP_ROLL => []
  | .OP_0NOTEQUAL => [2]
  | _ => [1]

def otherEnv : Env := ⟨fun _ => [9], fun _ => [9], fun _ => [9], fun _ => [9], fun _ => [9],
  fun _ _ => none, fun _ _ _ => none, fun _ => true, fun _ => true⟩

def lost (o : Opcode) : Bool :=
  match step otherEnv o.toByte ⟨[notRetained o, [5]], []⟩ with
  | some s' => !([notRetained o, [5]].isSuffixOf s'.stack)
  | none => false

end VmProofs

/-- **C57** (retained operands): the opcodes recorded as retaining their operand leave it, unchanged, as
their deepest result; no other opcode without a recorded output order does so on every operand. -/
theorem C57_retains_input (o : Opcode) (b : OpcodeBehavior) (hb : o.behavior = some b)
    (ho : b.outputOrder = none) (hi : b.inputTypes.length = 1) :
    o.retainsInput = true ↔ ∀ (env : Vm.Env) (x : Bytes) (rest alt : List Bytes) (s' : Vm.State),
      Vm.step env o.toByte ⟨x :: rest, alt⟩ = some s' → ∃ outs, s'.stack = outs ++ x :: rest := by
  constructor
  · intro hr env x rest alt s' h
    cases o <;> first | (exfalso; revert hr; decide) | skip
    · cases h; exact ⟨[_], rfl⟩
    all_goals
      have hm := (main_of_step (by decide) (by decide) h).1
      generalize hs : s'.stack = st' at hm
      obtain ⟨outs, h1, rfl⟩ := Option.map_eq_some_iff.mp hm
      obtain ⟨n, _, h1⟩ := Option.bind_eq_some_iff.mp h1
      split at h1 <;> cases h1
      exact ⟨[], rfl⟩
  · intro h
    cases hr : o.retainsInput with
    | true => rfl
    | false =>
    have hl : lost o = true := by
      clear h
      cases o <;> first | (exfalso; revert hr; decide) | cases hb
      all_goals first | (exfalso; revert hi; decide) | (exfalso; cases ho; done) | decide +kernel
    unfold lost at hl
    split at hl
    · next s' hs =>
      obtain ⟨outs, ho⟩ := h _ _ _ _ _ hs
      rw [ho] at hl
      have : [notRetained o, [5]].isSuffixOf (outs ++ [notRetained o, [5]]) = true :=
        List.isSuffixOf_iff_suffix.mpr ⟨outs, rfl⟩
      rw [this] at hl
      cases hl
    · cases hl

/-- Non-vacuity: OP_CHECKLOCKTIMEVERIFY retains its operand. -/
example : ∃ b, Opcode.OP_CHECKLOCKTIMEVERIFY.behavior = some b ∧ b.outputOrder = none ∧
    b.inputTypes.length = 1 ∧ Opcode.OP_CHECKLOCKTIMEVERIFY.retainsInput = true :=
  ⟨_, rfl, rfl, rfl, rfl⟩

/-- Spec: the opcodes that never succeed (or whose success the specification leaves out) although they
are not disabled: OP_RETURN, the push prefixes, OP_CHECKMULTISIG and OP_CHECKMULTISIGVERIFY, and the end
marker of the enumeration. -/
def Spec.Vm.neverTried : List Opcode :=
  [.OP_RETURN, .OP_PUSHDATA1, .OP_PUSHDATA2, .OP_PUSHDATA4, .OP_CHECKMULTISIG, .OP_CHECKMULTISIGVERIFY,
    .FIRST_UNDEFINED_OP_VALUE]

/-- An environment that accepts everything. -/
def acceptEnv : Vm.Env := ⟨id, id, id, id, id, fun _ _ => some true, fun _ _ _ => some true,
  fun _ => true, fun _ => true⟩

/-- **C57** (disabled opcodes): an opcode counts as disabled exactly if executing it never succeeds,
apart from the exceptions listed. -/
theorem C57_disabled (o : Opcode) (ho : o ∉ Vm.neverTried) :
    o.isDisabled = true ↔ ∀ env s, Vm.step env o.toByte s = none := by
  constructor
  · intro h env s
    cases o <;> first | (exfalso; revert h; decide) | rfl
  · intro h
    have h1 := h acceptEnv ⟨[[1], [1], [1], [1], [1], [1]], [[1]]⟩
    cases hd : o.isDisabled with
    | true => rfl
    | false =>
    apply absurd (congrArg Option.isSome h1)
    clear h h1
    cases o <;> first | (exfalso; revert ho; decide) | (exfalso; revert hd; decide) | skip
    all_goals decide +kernel

/-- Non-vacuity: OP_LSHIFT is disabled, OP_CAT is not. -/
example : Opcode.OP_LSHIFT ∉ Vm.neverTried ∧ Opcode.OP_LSHIFT.isDisabled = true ∧
    Opcode.OP_CAT ∉ Vm.neverTried ∧ Opcode.OP_CAT.isDisabled = false := by decide

/-- Non-vacuity: an environment and an execution of OP_SIZE. -/
def exampleEnv : Vm.Env where
  ripemd160 x := (x ++ List.replicate 20 0).take 20
  sha1 x := (x ++ List.replicate 20 1).take 20
  sha256 x := (x ++ List.replicate 32 2).take 32
  hash160 x := (x ++ List.replicate 20 3).take 20
  hash256 x := (x ++ List.replicate 32 4).take 32
  checkSig sig pk := if sig = [] then some false else if sig = pk then some true else none
  checkDataSig sig _ pk := if sig = [] then some false else if sig = pk then some true else none
  lockTimeOk n := n < 100
  sequenceOk n := n < 10

example : exampleEnv.Sizes := by
  constructor <;> intro x <;> simp [exampleEnv]

example : Vm.step exampleEnv Opcode.OP_SIZE.toByte ⟨[List.replicate 300 7, [1]], []⟩ =
    some ⟨[[0x2c, 0x01], List.replicate 300 7, [1]], []⟩ := by decide +kernel

end BCash
