import Verif.Spec.Named
import Verif.Proofs.NumBytes
import Mathlib.Data.List.Forall2

/-! # The flow of items through operations -/

namespace BCash
open Spec Spec.Vm

/-- Spec: the stack `s'` (top first) comes from `s` by an operation with the given flow: the taken items
are replaced by the left ones, and those left items that are taken items have the same value. -/
def Spec.Named.Flows (f : Nat × List (Option Nat)) (s s' : List Bytes) : Prop :=
  ∃ ins outs rest, s = ins ++ rest ∧ s' = outs ++ rest ∧ ins.length = f.1 ∧
    List.Forall₂ (fun o x => ∀ i, o = some i → ins.reverse[i]? = some x) f.2 outs.reverse

namespace NamedProofs
open Spec.Named

variable {f : Nat × List (Option Nat)} {out : List (Option Nat)} {s s' : List Bytes}

theorem un_flow {g : Bytes → Option (List Bytes)} (h : un g s = some s')
    (ht : ∀ a outs, g a = some outs →
      List.Forall₂ (fun o x => ∀ i, o = some i → [a][i]? = some x) out outs.reverse) :
    Flows (1, out) s s' := by
  unfold un at h
  split at h
  · next a s =>
    obtain ⟨outs, h1, rfl⟩ := Option.map_eq_some_iff.mp h
    exact ⟨[a], outs, s, rfl, rfl, rfl, ht a outs h1⟩
  · cases h

theorem bin_flow {g : Bytes → Bytes → Option (List Bytes)} (h : bin g s = some s')
    (ht : ∀ a b outs, g a b = some outs →
      List.Forall₂ (fun o x => ∀ i, o = some i → [a, b][i]? = some x) out outs.reverse) :
    Flows (2, out) s s' := by
  unfold bin at h
  split at h
  · next b a s =>
    obtain ⟨outs, h1, rfl⟩ := Option.map_eq_some_iff.mp h
    exact ⟨[b, a], outs, s, rfl, rfl, rfl, ht a b outs h1⟩
  · cases h

theorem tern_flow {g : Bytes → Bytes → Bytes → Option (List Bytes)} (h : tern g s = some s')
    (ht : ∀ a b c outs, g a b c = some outs →
      List.Forall₂ (fun o x => ∀ i, o = some i → [a, b, c][i]? = some x) out outs.reverse) :
    Flows (3, out) s s' := by
  unfold tern at h
  split at h
  · next c b a s =>
    obtain ⟨outs, h1, rfl⟩ := Option.map_eq_some_iff.mp h
    exact ⟨[c, b, a], outs, s, rfl, rfl, rfl, ht a b c outs h1⟩
  · cases h

/-- Closes goals about concrete flows. -/
macro "flow_items" : tactic => `(tactic|
  (repeat first
    | exact .nil
    | (refine .cons (fun i h => by first | (cases h; done) | (cases h; rfl)) ?_)))

theorem verify_items {b : Bool} {outs : List Bytes} {ins : List Bytes} (h : verify b = some outs) :
    List.Forall₂ (fun o x => ∀ i, o = some i → ins[i]? = some x) ([] : List (Option Nat)) outs.reverse := by
  unfold verify at h
  split at h
  · cases h; exact .nil
  · cases h

theorem one_item {x : Bytes} {ins : List Bytes} :
    List.Forall₂ (fun o x => ∀ i, o = some i → ins[i]? = some x) [(none : Option Nat)] [x].reverse := by
  simp

theorem push_flow {x : Bytes} (s : List Bytes) : Flows (0, [none]) s (x :: s) :=
  ⟨[], [x], s, rfl, rfl, rfl, one_item⟩

theorem un1_flow {g : Int → Int} (h : un1 g s = some s') : Flows (1, [none]) s s' := by
  refine un_flow h fun a outs h => ?_
  obtain ⟨n, _, rfl⟩ := Option.map_eq_some_iff.mp h
  exact one_item

theorem bin1_flow {g : Int → Int → Option Int} (h : bin1 g s = some s') : Flows (2, [none]) s s' := by
  refine bin_flow h fun a b outs h => ?_
  obtain ⟨n, _, h⟩ := Option.bind_eq_some_iff.mp h
  obtain ⟨m, _, h⟩ := Option.bind_eq_some_iff.mp h
  obtain ⟨r, _, rfl⟩ := Option.map_eq_some_iff.mp h
  exact one_item

theorem cmp_flow {g : Int → Int → Bool} (h : cmp g s = some s') : Flows (2, [none]) s s' := by
  refine bin_flow h fun a b outs h => ?_
  obtain ⟨n, _, h⟩ := Option.bind_eq_some_iff.mp h
  obtain ⟨m, _, rfl⟩ := Option.map_eq_some_iff.mp h
  exact one_item

theorem bitwise_flow {g : UInt8 → UInt8 → UInt8} (h : bin (bitwise g) s = some s') :
    Flows (2, [none]) s s' := by
  refine bin_flow h fun a b outs h => ?_
  unfold bitwise at h
  split at h
  · cases h; exact one_item
  · cases h

/-- Operations that are not covered by `flow`. -/
def special (o : Opcode) : Bool :=
  match o with
  | .OP_PICK | .OP_ROLL | .OP_TOALTSTACK | .OP_FROMALTSTACK | .OP_IFDUP => true
  | _ => false

/-- Every successful operation on the main stack follows its flow. -/
theorem main_flow (env : Env) (o : Opcode) (ho : special o = false) (s s' : List Bytes)
    (hm : main env o.toByte s = some s') : Flows (flow o) s s' := by
  cases o
  all_goals first
    | (cases ho; done)
    | (cases hm; done)
    | (cases hm; exact ⟨[], [], s, rfl, rfl, rfl, .nil⟩)
    | (cases hm; exact push_flow s)
    | exact un1_flow hm
    | exact bin1_flow hm
    | exact cmp_flow hm
    | exact bitwise_flow hm
    | (refine un_flow hm fun _ _ h => ?_; exact verify_items h)
    | (refine bin_flow hm fun _ _ _ h => ?_; exact verify_items h)
    | (refine un_flow hm fun _ _ h => ?_; cases h; flow_items; done)
    | (refine bin_flow hm fun _ _ _ h => ?_; cases h; flow_items; done)
    | (refine tern_flow hm fun _ _ _ _ h => ?_; cases h; flow_items; done)
    | (refine un_flow hm fun _ _ h => ?_
       obtain ⟨n, _, rfl⟩ := Option.map_eq_some_iff.mp h
       exact one_item)
    | (refine bin_flow hm fun _ _ _ h => ?_
       obtain ⟨n, _, rfl⟩ := Option.map_eq_some_iff.mp h
       exact one_item)
    | (refine tern_flow hm fun _ _ _ _ h => ?_
       obtain ⟨n, _, rfl⟩ := Option.map_eq_some_iff.mp h
       exact one_item)
    | (refine bin_flow hm fun _ _ _ h => ?_
       obtain ⟨n, _, h⟩ := Option.bind_eq_some_iff.mp h
       exact verify_items h)
    | (refine tern_flow hm fun _ _ _ _ h => ?_
       obtain ⟨n, _, h⟩ := Option.bind_eq_some_iff.mp h
       exact verify_items h)
    | (refine un_flow hm fun a outs h => ?_
       obtain ⟨n, hn, h⟩ := Option.bind_eq_some_iff.mp h
       split at h <;> cases h
       flow_items
       done)
    | (match s, hm with
       | d :: c :: b :: a :: r, hm =>
         cases hm
         exact ⟨[d, c, b, a], [_, _, _, _], r, rfl, rfl, rfl, by flow_items⟩)
    | (match s, hm with
       | d :: c :: b :: a :: r, hm =>
         cases hm
         exact ⟨[d, c, b, a], [_, _, _, _, _, _], r, rfl, rfl, rfl, by flow_items⟩)
    | (match s, hm with
       | f :: e :: d :: c :: b :: a :: r, hm =>
         cases hm
         exact ⟨[f, e, d, c, b, a], [_, _, _, _, _, _], r, rfl, rfl, rfl, by flow_items⟩)
    | skip
  case OP_SPLIT =>
    refine bin_flow hm fun _ _ _ h => ?_
    obtain ⟨n, _, h⟩ := Option.bind_eq_some_iff.mp h
    split at h <;> cases h
    flow_items
  case OP_NUM2BIN =>
    refine bin_flow hm fun _ _ _ h => ?_
    obtain ⟨n, _, h⟩ := Option.bind_eq_some_iff.mp h
    obtain ⟨r, _, rfl⟩ := Option.map_eq_some_iff.mp h
    exact one_item
  case OP_BIN2NUM =>
    refine un_flow hm fun _ _ h => ?_
    split at h <;> cases h
    exact one_item
  case OP_NUMEQUALVERIFY =>
    refine bin_flow hm fun _ _ _ h => ?_
    obtain ⟨n, _, h⟩ := Option.bind_eq_some_iff.mp h
    obtain ⟨n, _, h⟩ := Option.bind_eq_some_iff.mp h
    exact verify_items h
  case OP_WITHIN =>
    refine tern_flow hm fun _ _ _ _ h => ?_
    obtain ⟨n, _, h⟩ := Option.bind_eq_some_iff.mp h
    obtain ⟨n, _, h⟩ := Option.bind_eq_some_iff.mp h
    obtain ⟨r, _, rfl⟩ := Option.map_eq_some_iff.mp h
    exact one_item

end NamedProofs
end BCash
