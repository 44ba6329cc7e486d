import Verif.Proofs.MacroSim
import Verif.Props.Exec

/-! # One statement: tracked names against execution with names -/

namespace BCash
open Spec Spec.Macro Spec.Named Macro

namespace GenProofs

/-- The tracked state of a variant carries the names of the items. -/
def Tracks (v : String) (cond : Predicate) (g : Gen) (L : LState) : Prop :=
  ∃ s, (v, s) ∈ g.states ∧ s.condition = cond ∧ s.stack.map Item.tag = L.stack.map LItem.name ∧
    s.alt.map Item.tag = L.alt.map LItem.name

/-- The top item is the known depth of a named item, in every variant that is possible. -/
def SDepth (g : Gen) (k : Nat) : Prop :=
  k < 2 ^ 31 ∧ ∃ x : String, ∀ v s, (v, s) ∈ g.states → s.condition.holds g.atoms = true →
    ∃ i rest j, s.stack = i :: rest ∧ i.integer = some (k : Int) ∧ rest[k]? = some j ∧ j.tag = some x

/-- The top item is the number `k`. -/
def DDepth (L : LState) (k : Nat) : Prop :=
  ∃ top st, L.stack = top :: st ∧ top.value = Vm.numBytes k

/-- Operations that are neither conditionals nor malformed. -/
def Plain (op : Op Bytes) : Prop :=
  op.WellFormed ∧ ((∃ d, Vm.item op = some d) ∨
    ∃ o, op = .code o ∧ o.toByte ≠ 0x63 ∧ o.toByte ≠ 0x64 ∧ o.toByte ≠ 0x65 ∧ o.toByte ≠ 0x66 ∧
      o.toByte ≠ 0x67 ∧ o.toByte ≠ 0x68)

/-- The effect of an operation. -/
def execOp (env : Vm.Env) (op : Op Bytes) (s : Vm.State) : Option Vm.State :=
  match op with
  | .code o => Vm.step env o.toByte s
  | op => (Vm.item op).map fun d => ⟨d :: s.stack, s.alt⟩

def execOps (env : Vm.Env) : List (Op Bytes) → Vm.State → Option Vm.State
  | [], s => some s
  | op :: ops, s => (execOp env op s).bind (execOps env ops)

/-- One statement of the generator agrees with execution with names; `k?`, `k'?` are the depth known to
be on top before and after. -/
def Sim (env : Vm.Env) (k? : Option Nat) (l : Leaf) (g g' : Gen) (ops : List (Op Bytes))
    (k'? : Option Nat) : Prop :=
  signature g' = signature g ∧ g'.atoms = g.atoms ∧ GoodGen g' ∧ (∀ op ∈ ops, Plain op) ∧
  (∀ k, k'? = some k → SDepth g' k) ∧ (isDepthOf l = true → k'?.isSome = true) ∧
  ∀ v cond L, Tracks v cond g L → cond.holds g.atoms = true → (∀ k, k? = some k → DDepth L k) →
    match Named.leaf env l L with
    | .ok L' => Tracks v cond g' L' ∧ execOps env ops L.erase = some L'.erase ∧
        (∀ k, k'? = some k → DDepth L' k)
    | .fail => execOps env ops L.erase = none
    | _ => False

theorem execOps_one (env : Vm.Env) (op : Op Bytes) (s : Vm.State) : execOps env [op] s = execOp env op s := by
  simp only [execOps]
  cases execOp env op s <;> rfl

/-! ### Pushes -/

theorem push_sim (env : Vm.Env) (k? : Option Nat) (op : Op Bytes) (name : Option String) (g g' : Gen)
    (e : List Emit) (hg : GoodGen g) (hok : pushOk op = true)
    (hn : name.all (fun x => !reserved x) = true) (h : runPush op name g = (e, g')) :
    Sim env k? (.push op name) g g' (e.map Emit.op) none := by
  unfold runPush at h
  simp only [Prod.mk.injEq] at h
  obtain ⟨rfl, rfl⟩ := h
  -- the pushed item
  generalize hit : (⟨(match name with
    | some name => (name, 0)
    | none => (freshName g.nIdent, 1)).1, name.isNone, none⟩ : Item) = it
  have htag : it.tag = name := by subst hit; cases name <;> rfl
  have hgood : Good it := by
    subst hit
    cases name with
    | none => exact good_fresh _ _
    | some x => exact good_user (by simpa using hn) _
  have hstep := (Step.refl g (g.nIdent + (match name with
    | some name => (name, 0)
    | none => (freshName g.nIdent, 1)).2)).trans (push_step _ it)
    (R := fun s s' => s' = { s with stack := it :: s.stack }) (by rintro a b c rfl rfl; rfl)
  obtain ⟨d, hd, hw⟩ : ∃ d, Vm.item op = some d ∧ op.WellFormed := by
    cases op with
    | code o => cases hok
    | invalid b => cases hok
    | pushByteArray d m => exact ⟨d, rfl, by simpa [pushOk, Op.WellFormed] using hok⟩
    | pushBoolean b => exact ⟨_, rfl, trivial⟩
    | pushInteger i =>
      refine ⟨_, rfl, ?_⟩
      simp only [pushOk, Bool.and_eq_true, decide_eq_true_eq] at hok
      simp only [Op.WellFormed, InScriptRange]
      omega
  refine ⟨hstep.signature, hstep.1, ?_, ?_, by simp, by simp [isDepthOf], ?_⟩
  · refine hstep.good hg ?_
    rintro s s' ⟨g1, g2⟩ rfl
    refine ⟨?_, g2⟩
    intro i hi
    rcases List.mem_cons.mp hi with rfl | hi
    · exact hgood
    · exact g1 i hi
  · intro o ho
    simp only [List.map_cons, List.map_nil, List.mem_singleton] at ho
    subst ho
    exact ⟨hw, .inl ⟨d, hd⟩⟩
  · rintro v cond L ⟨s, hm, hc, hs, ha⟩ hh _
    obtain ⟨s', hm', hc', hP, _⟩ := hstep.mem hm
    have := hP (by rw [hc]; exact hh)
    subst this
    simp only [Named.leaf, hd, List.map_cons, List.map_nil]
    refine ⟨⟨_, hm', hc, ?_, ha⟩, ?_, by simp⟩
    · simp [htag, hs]
    · rw [execOps_one]
      have : execOp env op L.erase = (Vm.item op).map fun d => ⟨d :: L.erase.stack, L.erase.alt⟩ := by
        cases op <;> first | rfl | cases hd
      rw [this, hd]
      rfl

/-! ### Ordinary operations -/

theorem argsOk_of_check {items : List Item} {names : Option (List OpcodeInput)} {u : Unit}
    (h : checkInputNames items names = .ok u) : argsOk names (items.map Item.tag) = true := by
  unfold checkInputNames at h
  unfold argsOk
  split at h
  · rfl
  · next ns =>
    dsimp only
    split at h
    · cases h
    · next hl =>
      simp only [ne_eq, Decidable.not_not] at hl
      split at h
      · next hall =>
        simp only [List.all_eq_true, Bool.and_eq_true, List.length_map] at hall ⊢
        refine ⟨by simp [hl], ?_⟩
        rintro ⟨a, n⟩ hm
        obtain ⟨i, hi, hget⟩ := List.getElem_of_mem hm
        have hi1 : i < ns.length := by simp at hi; omega
        have hi2 : i < items.length := by omega
        simp only [List.getElem_zip, List.getElem_map, Prod.mk.injEq] at hget
        have := hall (items[i], ns[i]) (by
          rw [List.mem_iff_getElem]
          exact ⟨i, by simp; omega, by simp⟩)
        rw [← hget.1, ← hget.2]
        dsimp only at this ⊢
        cases hns : ns[i] with
        | expr t v => rfl
        | ident x =>
          rw [hns] at this
          simp only [inputNameOk, argOk, Bool.or_eq_true, beq_iff_eq, Bool.and_eq_true, Bool.not_eq_true'] at this ⊢
          rcases this with h | ⟨h1, h2⟩
          · exact .inl h
          · exact .inr (tag_eq_some.mpr ⟨h1, h2⟩)
      · cases h

theorem labels_taken (taken : List LItem) (T : List (Option String)) (h : taken.map LItem.name = T)
    (out : List (Option Nat)) :
    (out.map fun i => i.bind fun i => (taken[i]?).bind LItem.name) = out.map (labelAt T) := by
  subst h
  apply List.map_congr_left
  intro i _
  cases i with
  | none => rfl
  | some i =>
    simp only [labelAt, Option.bind_some, List.getElem?_map]
    cases taken[i]? <;> rfl

theorem ordinary_sim (env : Vm.Env) (o : Opcode) (stmt : OpcodeStmt) (g g' : Gen)
    (e : List Emit) (hg : GoodGen g) (h1 : NamedProofs.special o = false) (h2 : o ≠ .OP_NOTIF)
    (hn : NamesOk o stmt.outputNames) (h : runOther o stmt g = .ok (e, g')) :
    signature g' = signature g ∧ g'.atoms = g.atoms ∧ GoodGen g' ∧ e.map Emit.op = [.code o] ∧
    ∀ v cond L, Tracks v cond g L → cond.holds g.atoms = true →
      match ordinary env o stmt L with
      | .ok L' => Tracks v cond g' L' ∧ Vm.main env o.toByte L.erase.stack = some L'.erase.stack ∧
          L'.erase.alt = L.erase.alt
      | .fail => Vm.main env o.toByte L.erase.stack = none
      | _ => False := by
  unfold runOther at h
  cases hb : o.behavior with
  | none => rw [hb] at h; cases h
  | some b =>
    rw [hb] at h
    simp only [Res.bind_eq_ok, Prod.exists, Res.ok.injEq, Prod.mk.injEq] at h
    obtain ⟨items, g1, hp, u, hcheck, out, m, hout, rfl, rfl⟩ := h
    obtain ⟨s1, n1, gi, li, gg1⟩ := popN_spec _ g g1 items hg hp
    obtain ⟨hren, hgo⟩ := outputItems_spec o b items stmt.outputNames g1.nIdent out m hb h1 h2 hn gi li hout
    obtain ⟨s3, _⟩ := pushAll_step out { g1 with nIdent := g1.nIdent + m }
    have s2 : Step (fun s s' => s' = { s with stack := out.reverse ++ s.stack }) g1 _ :=
      (Step.refl g1 (g1.nIdent + m)).trans s3 (by rintro a b c rfl rfl; rfl)
    have hgood' := s2.good gg1 (by
      rintro s s' ⟨q1, q2⟩ rfl
      refine ⟨?_, q2⟩
      intro i hi
      rcases List.mem_append.mp hi with hi | hi
      · exact hgo i (List.mem_reverse.mp hi)
      · exact q1 i hi)
    have hstep := s1.trans s2 (R := fun s s' => ∃ (its : List Item) (rest : List Item),
        its.length = b.inputTypes.length ∧ s.stack = its.reverse ++ rest ∧
        s'.stack = out.reverse ++ rest ∧ s'.alt = s.alt ∧ its.map Item.tag = items.map Item.tag) (by
      rintro a b c ⟨its, q1, q2, q3, q4⟩ rfl
      exact ⟨its, b.stack, q1, q2, rfl, q3, q4⟩)
    refine ⟨hstep.signature, hstep.1, hgood', rfl, ?_⟩
    rintro v cond L ⟨s, hm, hc, hs, ha⟩ hh
    obtain ⟨s', hm', hc', hP, _⟩ := hstep.mem hm
    obtain ⟨its, rest, l1, e1, e2, e3, e4⟩ := hP (by rw [hc]; exact hh)
    obtain ⟨t1, t2, _⟩ := flow_table o b hb h1 h2
    -- the taken items
    have hlen : (flow o).1 ≤ L.stack.length := by
      have := congrArg List.length hs
      rw [e1] at this
      simp at this
      omega
    have htake : (L.stack.take (flow o).1).map LItem.name = (its.reverse).map Item.tag := by
      rw [List.map_take, ← hs, e1, List.map_append, List.take_left' (by simp [t1, l1])]
    have hdrop : (L.stack.drop (flow o).1).map LItem.name = rest.map Item.tag := by
      rw [List.map_drop, ← hs, e1, List.map_append, List.drop_left' (by simp [t1, l1])]
    have htaken : ((L.stack.take (flow o).1).reverse).map LItem.name = items.map Item.tag := by
      rw [List.map_reverse, htake, List.map_reverse, List.reverse_reverse, e4]
    unfold ordinary
    dsimp only
    rw [if_neg (by omega), htaken, argsOk_of_check hcheck, labels_taken _ _ htaken, hren]
    simp only [Bool.not_true, Bool.false_eq_true, if_false]
    have herase : L.erase.stack = L.stack.map LItem.value := rfl
    rw [herase]
    cases hmain : Vm.main env o.toByte (L.stack.map LItem.value) with
    | none => rfl
    | some st =>
      obtain ⟨ins, outs, rs, f1, f2, f3, f4⟩ := NamedProofs.main_flow env o h1 _ _ hmain
      have hol : outs.length = out.length := by
        have q := f4.length_eq
        have q2 := congrArg List.length (Option.some.inj (hren ▸ rfl :
          some (out.map Item.tag) = some (out.map Item.tag)))
        have q3 : (flow o).2.length = out.length := by
          cases hns : stmt.outputNames with
          | none =>
            rw [hns] at hren
            simp only [rename, Option.some.injEq] at hren
            have := congrArg List.length hren
            simpa using this
          | some ns =>
            rw [hns] at hren
            simp only [rename] at hren
            split at hren
            · next hl =>
              simp only [Option.some.injEq] at hren
              have := congrArg List.length hren
              simp only [List.length_zipWith, List.length_map] at this hl
              omega
            · cases hren
        rw [List.length_reverse] at q
        omega
      have hrs : rs = (L.stack.drop (flow o).1).map LItem.value := by
        rw [List.map_drop, f1, List.drop_left' f3]
      have hzip : List.zipWith LItem.mk st (out.map Item.tag).reverse =
          List.zipWith LItem.mk outs (out.map Item.tag).reverse := by
        rw [f2]
        apply List.ext_getElem
        · simp [hol]
        · intro i hi1 hi2
          simp only [List.length_zipWith, List.length_reverse, List.length_map] at hi2
          simp only [List.getElem_zipWith]
          rw [List.getElem_append_left (by omega)]
      have hzv : (List.zipWith LItem.mk outs (out.map Item.tag).reverse).map LItem.value = outs := by
        apply List.ext_getElem
        · simp [hol]
        · intro i hi1 hi2
          simp
      have hzn : (List.zipWith LItem.mk outs (out.map Item.tag).reverse).map LItem.name =
          (out.map Item.tag).reverse := by
        apply List.ext_getElem
        · simp [hol]
        · intro i hi1 hi2
          simp
      refine ⟨⟨s', hm', by rw [hc', hc], ?_, ?_⟩, ?_, rfl⟩
      · rw [e2, hzip, List.map_append, List.map_append, hzn, hdrop, List.map_reverse]
      · rw [e3]; exact ha
      · have : (List.zipWith LItem.mk st (out.map Item.tag).reverse ++
            L.stack.drop (flow o).1).map LItem.value = st := by
          rw [List.map_append, hzip, hzv, ← hrs, f2]
        exact congrArg some this.symm

set_option maxRecDepth 100000 in
theorem plain_code (o : Opcode) (b : OpcodeBehavior) (hb : o.behavior = some b) (hn : inNameMap o = true)
    (h1 : o ≠ .OP_IF) (h2 : o ≠ .OP_NOTIF) (h3 : o ≠ .OP_ELSE) (h4 : o ≠ .OP_ENDIF) :
    Plain (.code o) := by
  cases o
  all_goals first
    | exact absurd rfl h1
    | exact absurd rfl h2
    | exact absurd rfl h3
    | exact absurd rfl h4
    | (cases hb; done)
    | (cases hn; done)
    | exact ⟨⟨by decide, by decide, by decide⟩, .inr ⟨_, rfl, by decide, by decide, by decide,
        by decide, by decide, by decide⟩⟩

theorem execOp_main (env : Vm.Env) (o : Opcode) (h1 : o ≠ .OP_TOALTSTACK) (h2 : o ≠ .OP_FROMALTSTACK)
    (s : Vm.State) : execOp env (.code o) s = (Vm.main env o.toByte s.stack).map fun st => ⟨st, s.alt⟩ := by
  have q : ∀ o : Opcode, o ≠ .OP_TOALTSTACK → o ≠ .OP_FROMALTSTACK →
      o.toByte ≠ 0x6b ∧ o.toByte ≠ 0x6c := by
    intro o h1 h2
    cases o
    all_goals first
      | exact absurd rfl h1
      | exact absurd rfl h2
      | decide
  simp only [execOp, Vm.step]
  rw [if_neg (q o h1 h2).1, if_neg (q o h1 h2).2]

/-- Statements that go through `run_other_opcode`. -/
theorem other_sim (env : Vm.Env) (k? : Option Nat) (o : Opcode) (stmt : OpcodeStmt) (g g' : Gen)
    (e : List Emit) (hg : GoodGen g) (hhead : stmt.head = .op o)
    (h1 : NamedProofs.special o = false) (h2 : o ≠ .OP_NOTIF)
    (h3 : o ≠ .OP_IF) (h4 : o ≠ .OP_ELSE) (h5 : o ≠ .OP_ENDIF) (hmap : inNameMap o = true)
    (hn : NamesOk o stmt.outputNames) (h : runOther o stmt g = .ok (e, g')) :
    Sim env k? (.opcode stmt) g g' (e.map Emit.op) none := by
  obtain ⟨q1, q2, q3, q4, q5⟩ := ordinary_sim env o stmt g g' e hg h1 h2 hn h
  obtain ⟨b, hb⟩ : ∃ b, o.behavior = some b := by
    unfold runOther at h
    cases hb : o.behavior with
    | none => rw [hb] at h; cases h
    | some b => exact ⟨b, rfl⟩
  have n1 : o ≠ .OP_TOALTSTACK := by rintro rfl; cases h1
  have n2 : o ≠ .OP_FROMALTSTACK := by rintro rfl; cases h1
  have n3 : o ≠ .OP_PICK := by rintro rfl; cases h1
  have n4 : o ≠ .OP_ROLL := by rintro rfl; cases h1
  refine ⟨q1, q2, q3, ?_, by simp, ?_, ?_⟩
  · rw [q4]
    intro op hop
    simp only [List.mem_singleton] at hop
    subst hop
    exact plain_code o b hb hmap h3 h2 h4 h5
  · obtain ⟨hd, i, o⟩ := stmt
    simp only at hhead
    subst hhead
    simp [isDepthOf]
  · intro v cond L ht hh _
    have := q5 v cond L ht hh
    have hl : Named.leaf env (.opcode stmt) L = ordinary env o stmt L := by
      unfold Named.leaf
      dsimp only
      rw [hhead]
      split <;> simp_all
    rw [hl, q4, execOps_one, execOp_main env o n1 n2]
    cases hr : ordinary env o stmt L with
    | ok L' =>
      rw [hr] at this
      obtain ⟨t1, t2, t3⟩ := this
      refine ⟨t1, ?_, by simp⟩
      rw [t2]
      simp only [Option.map_some, ← t3]
    | fail => rw [hr] at this; simp only at this ⊢; rw [this]; rfl
    | mismatch => rw [hr] at this; exact this
    | undecided => rw [hr] at this; exact this

end GenProofs
end BCash
