import Verif.Proofs.MacroLeaf
import Mathlib.Data.List.InsertIdx

/-! # The special statements: tracked names against execution with names -/

namespace BCash
open Spec Spec.Macro Spec.Named Macro

namespace GenProofs

theorem nameIs_of_verify {stmt : OpcodeStmt} {item : Item} {u : Unit} (hi : Good item)
    (hw : (writtenNames stmt).all (fun x => !reserved x) = true)
    (h : verifyItemName stmt item = .ok u) : nameIs stmt.inputNames item.tag = true := by
  unfold verifyItemName at h
  unfold nameIs
  split at h
  · next hn => rw [hn]
  · next a hn =>
    rw [hn]
    dsimp only
    split at h
    · next he =>
      have : reserved a.toString = false := by
        have := List.all_eq_true.mp hw a.toString (by simp [writtenNames, hn])
        simpa using this
      rw [(good_name hi this).mp he.symm]
      simp
    · cases h
  · cases h

/-- If a name was required, the item is named. -/
theorem named_of_verify {stmt : OpcodeStmt} {item : Item} {u : Unit} (hi : Good item)
    (hw : (writtenNames stmt).all (fun x => !reserved x) = true)
    (h : verifyItemName stmt item = .ok u) (hs : stmt.inputNames.isSome = true) :
    item.generated = false := by
  unfold verifyItemName at h
  split at h
  · next hn => rw [hn] at hs; cases hs
  · next a hn =>
    split at h
    · next he =>
      have : reserved a.toString = false := by
        have := List.all_eq_true.mp hw a.toString (by simp [writtenNames, hn])
        simpa using this
      exact (tag_eq_some.mp ((good_name hi this).mp he.symm)).1
    · cases h
  · cases h

theorem update_spec {stmt : OpcodeStmt} {item item' : Item} (hi : Good item)
    (hw : (writtenNames stmt).all (fun x => !reserved x) = true)
    (hg : stmt.outputNames.isSome = true → item.generated = false)
    (h : updateItemName stmt item = .ok item') :
    Good item' ∧ renameOne stmt.outputNames item.tag = some item'.tag := by
  unfold updateItemName at h
  unfold renameOne
  split at h
  · next hn => cases h; rw [hn]; exact ⟨hi, rfl⟩
  · next w hn =>
    cases h
    rw [hn]
    have hr : reserved w = false := by
      have := List.all_eq_true.mp hw w (by simp [writtenNames, hn])
      simpa using this
    have := hg (by rw [hn]; rfl)
    refine ⟨?_, ?_⟩
    · unfold Good; simp only [this, hr]
    · unfold Item.tag; simp only [this]; rfl
  · cases h

theorem plain_alt (o : Opcode) (h : o = .OP_TOALTSTACK ∨ o = .OP_FROMALTSTACK ∨ o = .OP_PICK ∨ o = .OP_ROLL) :
    Plain (.code o) := by
  rcases h with rfl | rfl | rfl | rfl <;>
    exact ⟨⟨by decide, by decide, by decide⟩, .inr ⟨_, rfl, by decide, by decide, by decide,
        by decide, by decide, by decide⟩⟩

theorem toalt_sim (env : Vm.Env) (k? : Option Nat) (i : Option (List OpcodeInput)) (o : Option (List String))
    (g g' : Gen) (e : List Emit) (hg : GoodGen g)
    (hok : stmtOk k?.isSome ⟨.op .OP_TOALTSTACK, i, o⟩ = true)
    (h : runOpcode ⟨.op .OP_TOALTSTACK, i, o⟩ g = .ok (e, g')) :
    Sim env k? (.opcode ⟨.op .OP_TOALTSTACK, i, o⟩) g g' (e.map Emit.op) none := by
  unfold runOpcode at h
  dsimp only at h
  simp only [Res.bind_eq_ok, Prod.exists, Res.ok.injEq, Prod.mk.injEq] at h
  obtain ⟨item, g1, hp, u, hv, item', hu, rfl, rfl⟩ := h
  obtain ⟨s1, n1, v0, s0, rest0, m1, m2, m3⟩ := pop_spec g g1 item (lift_ok hp)
  have hgi : Good item := (hg _ m1).1 item (by rw [m3]; simp)
  simp only [stmtOk, Bool.and_eq_true] at hok
  obtain ⟨hw, hio⟩ := hok
  have hnm := nameIs_of_verify hgi hw hv
  obtain ⟨hgi', hren⟩ := update_spec hgi hw (fun ho => named_of_verify hgi hw hv (by
    dsimp only at ho ⊢
    cases o with
    | none => cases ho
    | some _ => simpa using hio)) hu
  have hstep := s1.trans (pushAlt_step g1 item') (R := fun s s' => ∃ i, s.stack = i :: s'.stack ∧
      s'.alt = item' :: s.alt ∧ i.tag = item.tag) (by
    rintro a b c ⟨i, q1, q2, q3⟩ rfl
    exact ⟨i, q1, by simp [q2], q3⟩)
  refine ⟨hstep.signature, hstep.1, ?_, ?_, by simp, by simp [isDepthOf], ?_⟩
  · refine hstep.good hg ?_
    rintro s s' ⟨q1, q2⟩ ⟨i, r1, r2, _⟩
    refine ⟨fun x hx => q1 x (by rw [r1]; simp [hx]), ?_⟩
    rw [r2]
    intro x hx
    rcases List.mem_cons.mp hx with rfl | hx
    · exact hgi'
    · exact q2 x hx
  · intro op hop
    simp only [List.map_cons, List.map_nil, List.mem_singleton] at hop
    subst hop
    exact plain_alt _ (.inl rfl)
  · rintro v cond L ⟨s, hm, hc, hs, ha⟩ hh _
    obtain ⟨s', hm', hc', hP, _⟩ := hstep.mem hm
    obtain ⟨it, r1, r2, r3⟩ := hP (by rw [hc]; exact hh)
    rw [r1] at hs
    simp only [Named.leaf, List.map_cons, List.map_nil]
    cases hL : L.stack with
    | nil => rw [hL] at hs; simp at hs
    | cons top st =>
      rw [hL] at hs
      simp only [List.map_cons, List.cons.injEq] at hs
      have hname : top.name = item.tag := by rw [← hs.1, r3]
      dsimp only
      rw [hname, hnm]
      dsimp only at hren
      rw [hren]
      simp only [Bool.not_true, Bool.false_eq_true, if_false]
      refine ⟨⟨s', hm', hc'.trans hc, hs.2, ?_⟩, ?_, by simp⟩
      · rw [r2]; simp [ha]
      · rw [execOps_one]
        simp only [execOp, LState.erase, hL, List.map_cons]
        rfl

theorem fromalt_sim (env : Vm.Env) (k? : Option Nat) (i : Option (List OpcodeInput)) (o : Option (List String))
    (g g' : Gen) (e : List Emit) (hg : GoodGen g)
    (hok : stmtOk k?.isSome ⟨.op .OP_FROMALTSTACK, i, o⟩ = true)
    (h : runOpcode ⟨.op .OP_FROMALTSTACK, i, o⟩ g = .ok (e, g')) :
    Sim env k? (.opcode ⟨.op .OP_FROMALTSTACK, i, o⟩) g g' (e.map Emit.op) none := by
  unfold runOpcode at h
  dsimp only at h
  simp only [Res.bind_eq_ok, Prod.exists, Res.ok.injEq, Prod.mk.injEq] at h
  obtain ⟨item, g1, hp, u, hv, item', hu, rfl, rfl⟩ := h
  obtain ⟨s1, n1, v0, s0, rest0, m1, m2, m3⟩ := popAlt_spec g g1 item (lift_ok hp)
  have hgi : Good item := (hg _ m1).2 item (by rw [m3]; simp)
  simp only [stmtOk, Bool.and_eq_true] at hok
  obtain ⟨hw, hio⟩ := hok
  have hnm := nameIs_of_verify hgi hw hv
  obtain ⟨hgi', hren⟩ := update_spec hgi hw (fun ho => named_of_verify hgi hw hv (by
    dsimp only at ho ⊢
    cases o with
    | none => cases ho
    | some _ => simpa using hio)) hu
  have hstep := s1.trans (push_step g1 item') (R := fun s s' => ∃ i, s.alt = i :: s'.alt ∧
      s'.stack = item' :: s.stack ∧ i.tag = item.tag) (by
    rintro a b c ⟨i, q1, q2, q3⟩ rfl
    exact ⟨i, q1, by simp [q2], q3⟩)
  refine ⟨hstep.signature, hstep.1, ?_, ?_, by simp, by simp [isDepthOf], ?_⟩
  · refine hstep.good hg ?_
    rintro s s' ⟨q1, q2⟩ ⟨i, r1, r2, _⟩
    refine ⟨?_, fun x hx => q2 x (by rw [r1]; simp [hx])⟩
    rw [r2]
    intro x hx
    rcases List.mem_cons.mp hx with rfl | hx
    · exact hgi'
    · exact q1 x hx
  · intro op hop
    simp only [List.map_cons, List.map_nil, List.mem_singleton] at hop
    subst hop
    exact plain_alt _ (.inr (.inl rfl))
  · rintro v cond L ⟨s, hm, hc, hs, ha⟩ hh _
    obtain ⟨s', hm', hc', hP, _⟩ := hstep.mem hm
    obtain ⟨it, r1, r2, r3⟩ := hP (by rw [hc]; exact hh)
    rw [r1] at ha
    simp only [Named.leaf, List.map_cons, List.map_nil]
    cases hL : L.alt with
    | nil => rw [hL] at ha; simp at ha
    | cons top st =>
      rw [hL] at ha
      simp only [List.map_cons, List.cons.injEq] at ha
      have hname : top.name = item.tag := by rw [← ha.1, r3]
      dsimp only
      rw [hname, hnm]
      dsimp only at hren
      rw [hren]
      simp only [Bool.not_true, Bool.false_eq_true, if_false]
      refine ⟨⟨s', hm', hc'.trans hc, ?_, ha.2⟩, ?_, by simp⟩
      · rw [r2]; simp [hs]
      · rw [execOps_one]
        simp only [execOp, LState.erase, hL, List.map_cons]
        rfl

/-! ### Depths -/

theorem findLoop_spec (name : String) (atoms : List Atom) (l : List (String × VState)) (prev : Option Nat)
    (r : Option Nat) (h : Gen.findLoop name atoms l prev = .ok r) :
    (∀ d, prev = some d → r = some d) ∧
    (∀ v s, (v, s) ∈ l → s.condition.holds atoms = true →
      s.stack.findIdx? (fun item => item.name == name) = r ∧ r.isSome = true) := by
  induction l generalizing prev with
  | nil =>
    simp only [Gen.findLoop, Except.ok.injEq] at h
    subst h
    exact ⟨fun d h => h, by simp⟩
  | cons p ps ih =>
    obtain ⟨v0, s0⟩ := p
    simp only [Gen.findLoop] at h
    split at h
    · next hh =>
      split at h
      · cases h
      · next d hd =>
        split at h
        · next hp =>
          obtain ⟨i1, i2⟩ := ih _ h
          have hr := i1 d rfl
          subst hr
          refine ⟨?_, ?_⟩
          · rintro d' rfl
            simp only [Option.all_some, beq_iff_eq] at hp
            rw [hp]
          · intro v s hm hc
            rcases List.mem_cons.mp hm with hm | hm
            · cases hm; exact ⟨hd, rfl⟩
            · exact i2 v s hm hc
        · cases h
    · next hh =>
      obtain ⟨i1, i2⟩ := ih _ h
      refine ⟨i1, ?_⟩
      intro v s hm hc
      rcases List.mem_cons.mp hm with hm | hm
      · cases hm; exact absurd hc hh
      · exact i2 v s hm hc

theorem findItem_spec (g : Gen) (name : String) (d : Nat) (h : g.findItem name = .ok d) :
    ∀ v s, (v, s) ∈ g.states → s.condition.holds g.atoms = true →
      s.stack.findIdx? (fun item => item.name == name) = some d := by
  unfold Gen.findItem at h
  cases hr : Gen.findLoop name g.atoms g.states none with
  | error e => rw [hr] at h; cases h
  | ok r =>
    rw [hr] at h
    simp only [Except.bind] at h
    cases r with
    | none => cases h
    | some d' =>
      cases h
      intro v s hm hc
      exact ((findLoop_spec _ _ _ _ _ hr).2 v s hm hc).1

/-- Finding by tracked name and finding by the name on the item. -/
theorem findIdx_tag (stack : List Item) (L : List LItem) (x : String) (hx : reserved x = false)
    (hg : ∀ i ∈ stack, Good i) (h : stack.map Item.tag = L.map LItem.name) :
    stack.findIdx? (fun item => item.name == x) = L.findIdx? fun i => i.name == some x := by
  induction stack generalizing L with
  | nil =>
    cases L with
    | nil => rfl
    | cons a as => simp at h
  | cons i is ih =>
    cases L with
    | nil => simp at h
    | cons a as =>
      simp only [List.map_cons, List.cons.injEq] at h
      simp only [List.findIdx?_cons]
      rw [ih as (fun j hj => hg j (by simp [hj])) h.2]
      have : (i.name == x) = (a.name == some x) := by
        rw [Bool.eq_iff_iff, beq_iff_eq, beq_iff_eq, good_name (hg i (by simp)) hx, h.1]
      rw [this]

theorem integerNew_ok {x i : Int} (h : Integer.new x = .ok i) : i = x ∧ -2 ^ 31 < x ∧ x < 2 ^ 31 := by
  unfold Integer.new at h
  split at h
  · split at h
    · next hh =>
      cases h
      simp only [MIN_SCRIPT_INTEGER, MAX_SCRIPT_INTEGER] at hh
      omega
    · cases h
  · split at h <;> cases h

theorem runDepthOf_ok {x : String} {offset : Int} {stmt : OpcodeStmt} {g g' : Gen} {e : List Emit}
    (h : runDepthOf x offset stmt g = .ok (e, g')) :
    ∃ depth fresh : Nat, g.findItem x = .ok depth ∧ (depth : Int) < 2 ^ 31 ∧
      -2 ^ 31 < (depth : Int) + offset ∧ (depth : Int) + offset < 2 ^ 31 ∧
      e.map Emit.op = [.pushInteger ((depth : Int) + offset)] ∧
      g' = ({ g with nIdent := g.nIdent + fresh }).push ⟨(match stmt.outputNames with
          | some [out] => (out, 0)
          | _ => (freshName g.nIdent, 1)).1, stmt.outputNames.isNone, some (depth : Int)⟩ := by
  unfold runDepthOf at h
  obtain ⟨depth, hf, h⟩ := Res.bind_eq_ok.mp h
  cases hi : Integer.new (depth : Int) with
  | error e => rw [hi] at h; cases h
  | ok d =>
    rw [hi] at h
    obtain ⟨rfl, hd1, hd2⟩ := integerNew_ok hi
    dsimp only at h
    split at h
    · cases h
    · cases hi2 : Integer.new ((depth : Int) + offset) with
      | error e => rw [hi2] at h; cases h
      | ok i =>
        rw [hi2] at h
        obtain ⟨rfl, hr1, hr2⟩ := integerNew_ok hi2
        simp only [Res.ok.injEq, Prod.mk.injEq] at h
        obtain ⟨rfl, rfl⟩ := h
        exact ⟨depth, _, lift_ok hf, hd2, hr1, hr2, rfl, rfl⟩

theorem depthOf_sim (x : String) (offset : Int) (k? : Option Nat)
    (stmt : OpcodeStmt) (g g' : Gen) (e : List Emit) (hg : GoodGen g)
    (hleaf : ∀ env L, Named.leaf env (.opcode stmt) L = depthOf x offset stmt L)
    (hx : reserved x = false)
    (hw : (writtenNames stmt).all (fun x => !reserved x) = true)
    (hout : stmt.outputNames = none ∨ ∃ y, stmt.outputNames = some [y])
    (hdep : isDepthOf (.opcode stmt) = true → offset = 0)
    (h : runDepthOf x offset stmt g = .ok (e, g')) :
    ∃ k'?, ∀ env, Sim env k? (.opcode stmt) g g' (e.map Emit.op) k'? := by
  obtain ⟨depth, fresh, hf, hd2, hr1, hr2, hops, rfl⟩ := runDepthOf_ok h
  have hfind := findItem_spec g x depth hf
  -- the pushed item
  generalize hit : (⟨(match stmt.outputNames with
    | some [out] => (out, 0)
    | _ => (freshName g.nIdent, 1)).1, stmt.outputNames.isNone, some (depth : Int)⟩ : Item) = it
  have hint : it.integer = some (depth : Int) := by rw [← hit]
  have htag : renameOne stmt.outputNames none = some it.tag ∧ Good it := by
    subst hit
    rcases hout with ho | ⟨y, ho⟩
    · rw [ho]; exact ⟨rfl, good_fresh _ _⟩
    · rw [ho]
      refine ⟨rfl, good_user ?_ _⟩
      have := List.all_eq_true.mp hw y (by simp [writtenNames, ho])
      simpa using this
  have hstep := (Step.refl g (g.nIdent + fresh)).trans (push_step _ it)
    (R := fun s s' => s' = { s with stack := it :: s.stack }) (by rintro a b c rfl rfl; rfl)
  have hfound : ∀ (stack : List Item), (∀ i ∈ stack, Good i) →
      stack.findIdx? (fun item => item.name == x) = some depth →
      ∃ j, stack[depth]? = some j ∧ j.tag = some x := by
    intro stack hgs hq
    obtain ⟨hl, q1, _⟩ := List.findIdx?_eq_some_iff_getElem.mp hq
    refine ⟨_, List.getElem?_eq_getElem hl, ?_⟩
    exact (good_name (hgs _ (List.getElem_mem hl)) hx).mp (by simpa using q1)
  refine ⟨if offset = 0 then some depth else none, fun env => ⟨hstep.signature, hstep.1, ?_, ?_, ?_, ?_, ?_⟩⟩
  · refine hstep.good hg ?_
    rintro s s' ⟨g1, g2⟩ rfl
    refine ⟨?_, g2⟩
    intro i hi
    rcases List.mem_cons.mp hi with rfl | hi
    · exact htag.2
    · exact g1 i hi
  · intro o ho
    rw [hops] at ho
    simp only [List.mem_singleton] at ho
    subst ho
    refine ⟨?_, .inl ⟨_, rfl⟩⟩
    simp only [Op.WellFormed, InScriptRange]
    omega
  · intro k hk
    split at hk
    · cases hk
      refine ⟨by omega, x, ?_⟩
      intro v s' hm' hc'
      obtain ⟨s, hm, hc, hP, _⟩ := hstep.mem' hm'
      have hh : s.condition.holds g.atoms = true := by rw [← hc]; exact hc'
      have := hP hh
      subst this
      obtain ⟨j, j1, j2⟩ := hfound _ (hg _ hm).1 (hfind v s hm hh)
      exact ⟨it, s.stack, j, rfl, hint, j1, j2⟩
    · cases hk
  · intro hd
    rw [if_pos (hdep hd)]
    rfl
  · rintro v cond L ⟨s, hm, hc, hs, ha⟩ hh _
    obtain ⟨s', hm', hc', hP, _⟩ := hstep.mem hm
    have hh' : s.condition.holds g.atoms = true := by rw [hc]; exact hh
    have := hP hh'
    subst this
    rw [hleaf]
    unfold depthOf
    rw [← findIdx_tag s.stack L.stack x hx (hg _ hm).1 hs, hfind v s hm hh', htag.1]
    dsimp only
    refine ⟨⟨_, hm', hc, ?_, ha⟩, ?_, ?_⟩
    · simp [hs]
    · rw [hops, execOps_one]
      simp only [execOp, Vm.item, LState.erase, List.map_cons, Option.map_some]
    · intro k hk
      split at hk
      · next h0 =>
        cases hk
        subst h0
        exact ⟨_, _, rfl, by simp⟩
      · cases hk

theorem of_ite_err {α : Type} {c : Prop} [Decidable c] {m : String} {x : Res String α} {a : α}
    (h : (if c then Res.err m else x) = .ok a) : x = .ok a := by
  split at h
  · cases h
  · exact h

theorem transmute_sim (env : Vm.Env) (k? : Option Nat) (i : Option (List OpcodeInput)) (o : Option (List String))
    (g g' : Gen) (e : List Emit) (hg : GoodGen g)
    (hw : (writtenNames ⟨.transmute, i, o⟩).all (fun x => !reserved x) = true)
    (h : runTransmute ⟨.transmute, i, o⟩ g = .ok (e, g')) :
    Sim env k? (.opcode ⟨.transmute, i, o⟩) g g' (e.map Emit.op) none := by
  unfold runTransmute at h
  dsimp only at h
  split at h
  · next name a =>
    · replace h := of_ite_err h
      simp only [Res.bind_eq_ok, Res.ok.injEq, Prod.mk.injEq] at h
      obtain ⟨d, hf, rfl, rfl⟩ := h
      have hfind := findItem_spec g name d (lift_ok hf)
      have hx : reserved name = false := by
        have := List.all_eq_true.mp hw name (by simp [writtenNames, OpcodeInput.toString])
        simpa using this
      refine ⟨rfl, rfl, hg, by simp, by simp, by simp [isDepthOf], ?_⟩
      rintro v cond L ⟨s, hm, hc, hs, ha⟩ hh _
      have hq := hfind v s hm (by rw [hc]; exact hh)
      rw [findIdx_tag s.stack L.stack name hx (hg _ hm).1 hs] at hq
      have hany : (L.stack.any fun i => i.name == some name) = true := by
        obtain ⟨hl, q1, _⟩ := List.findIdx?_eq_some_iff_getElem.mp hq
        exact List.any_eq_true.mpr ⟨_, List.getElem_mem hl, q1⟩
      simp only [Named.leaf, hany, if_true]
      exact ⟨⟨s, hm, hc, hs, ha⟩, rfl, by simp⟩
  · cases h

/-! ### OP_PICK and OP_ROLL -/

theorem pickRoll_sim (isRoll : Bool) (op : Opcode) (hop : op = if isRoll then .OP_ROLL else .OP_PICK)
    (env : Vm.Env) (k : Nat) (stmt : OpcodeStmt)
    (g g' : Gen) (e : List Emit) (hg : GoodGen g) (hk : SDepth g k)
    (hleaf : ∀ L, Named.leaf env (.opcode stmt) L = pickRoll isRoll stmt L)
    (hdep : isDepthOf (.opcode stmt) = false)
    (hw : (writtenNames stmt).all (fun x => !reserved x) = true)
    (h : runPickRoll op isRoll stmt g = .ok (e, g')) :
    Sim env (some k) (.opcode stmt) g g' (e.map Emit.op) none := by
  unfold runPickRoll at h
  simp only [Res.bind_eq_ok, Prod.exists] at h
  obtain ⟨top, g1, hp, u, hv, depth, hd, item, g2, ht, item', hu, h⟩ := h
  simp only [Res.ok.injEq, Prod.mk.injEq] at h
  obtain ⟨rfl, rfl⟩ := h
  obtain ⟨hk31, x, hsd⟩ := hk
  obtain ⟨s1, n1, v0, s0, rest0, m1, m2, m3⟩ := pop_spec g g1 top (lift_ok hp)
  have hgt : Good top := (hg _ m1).1 top (by rw [m3]; simp)
  obtain ⟨i0, r0, j0, z1, z2, z3, z4⟩ := hsd v0 s0 m1 m2
  rw [m3] at z1
  simp only [List.cons.injEq] at z1
  obtain ⟨rfl, rfl⟩ := z1
  have hdk : depth = k := by
    rw [z2] at hd
    simp only at hd
    rw [if_pos (by omega)] at hd
    simp only [Int.toNat_natCast, Res.ok.injEq] at hd
    exact hd.symm
  subst hdk
  have gg1 : GoodGen g1 := s1.good hg (by
    rintro s s' ⟨q1, q2⟩ ⟨i, r1, r2, _⟩
    exact ⟨fun x hx => q1 x (by rw [r1]; simp [hx]), by rw [r2]; exact q2⟩)
  -- the taken item
  have htake : Step (fun s s' => ∃ i, s.stack[depth]? = some i ∧
      s' = { s with stack := if isRoll then s.stack.eraseIdx depth else s.stack } ∧ i.tag = item.tag) g1 g2 ∧
      ∃ v s, (v, s) ∈ g1.states ∧ s.condition.holds g1.atoms = true ∧ s.stack[depth]? = some item := by
    cases isRoll with
    | true =>
      obtain ⟨q1, _, q2⟩ := roll_spec g1 g2 depth item (lift_ok ht)
      exact ⟨q1, q2⟩
    | false =>
      obtain ⟨q1, _, q2⟩ := pick_spec g1 g2 depth item (lift_ok ht)
      exact ⟨q1, q2⟩
  obtain ⟨s2, v2, t2, p1, p2, p3⟩ := htake
  have hitem : item.tag = some x := by
    obtain ⟨s, hm, hc, hP, _⟩ := s1.mem' p1
    have hh : s.condition.holds g.atoms = true := by rw [← hc, ← s1.1]; exact p2
    obtain ⟨i, r1, r2, _⟩ := hP hh
    obtain ⟨i', rest, j, y1, y2, y3, y4⟩ := hsd v2 s hm hh
    rw [r1] at y1
    simp only [List.cons.injEq] at y1
    rw [← y1.2, p3] at y3
    cases y3
    exact y4
  have hgitem : Good item := (gg1 _ p1).1 item (List.mem_of_getElem? p3)
  have hnm := nameIs_of_verify hgt hw hv
  obtain ⟨hgi', hren⟩ := update_spec hgitem hw (fun _ => (tag_eq_some.mp hitem).1) hu
  have hstep := (s1.trans s2 (R := fun s s' => ∃ i st j, s.stack = i :: st ∧ i.tag = top.tag ∧
      st[depth]? = some j ∧ j.tag = item.tag ∧ s'.alt = s.alt ∧
      s'.stack = if isRoll then st.eraseIdx depth else st) (by
    rintro a b c ⟨i, q1, q2, q3⟩ ⟨j, r1, rfl, r3⟩
    exact ⟨i, _, j, q1, q3, r1, r3, q2, rfl⟩)).trans (push_step g2 item')
    (R := fun s s' => ∃ i st j, s.stack = i :: st ∧ i.tag = top.tag ∧
      st[depth]? = some j ∧ j.tag = item.tag ∧ s'.alt = s.alt ∧
      s'.stack = item' :: if isRoll then st.eraseIdx depth else st) (by
    rintro a b c ⟨i, st, j, q1, q2, q3, q4, q5, q6⟩ rfl
    exact ⟨i, st, j, q1, q2, q3, q4, q5, by simp [q6]⟩)
  have hplain : Plain (.code op) := by
    cases isRoll <;> subst hop
    · exact plain_alt _ (.inr (.inr (.inl rfl)))
    · exact plain_alt _ (.inr (.inr (.inr rfl)))
  refine ⟨hstep.signature, hstep.1, ?_, ?_, by simp, by simp [hdep], ?_⟩
  · refine hstep.good hg ?_
    rintro s s' ⟨q1, q2⟩ ⟨i, st, j, r1, _, r3, _, r5, r6⟩
    refine ⟨?_, by rw [r5]; exact q2⟩
    rw [r6]
    intro y hy
    rcases List.mem_cons.mp hy with rfl | hy
    · exact hgi'
    · refine q1 y ?_
      rw [r1]
      refine List.mem_cons_of_mem _ ?_
      split at hy
      · exact List.mem_of_mem_eraseIdx hy
      · exact hy
  · intro o ho
    simp only [List.map_cons, List.map_nil, List.mem_singleton] at ho
    subst ho
    exact hplain
  · rintro v cond L ⟨s, hm, hc, hs, ha⟩ hh hdd
    obtain ⟨ltop, lst, hL, hval⟩ := hdd depth rfl
    obtain ⟨s', hm', hc', hP, _⟩ := hstep.mem hm
    obtain ⟨i, st, j, r1, r2, r3, r4, r5, r6⟩ := hP (by rw [hc]; exact hh)
    rw [r1, hL] at hs
    simp only [List.map_cons, List.cons.injEq] at hs
    have hnum : Vm.num? 4 ltop.value = some (depth : Int) := by
      rw [hval]; exact NumProofs.num?_small _ ⟨by omega, by omega⟩
    obtain ⟨lj, hlj, hljn⟩ : ∃ lj, lst[depth]? = some lj ∧ lj.name = item.tag := by
      have := congrArg (fun l => l[depth]?) hs.2
      simp only [List.getElem?_map, r3, Option.map_some] at this
      cases hq : lst[depth]? with
      | none => rw [hq] at this; simp at this
      | some lj =>
        rw [hq] at this
        simp only [Option.map_some, Option.some.injEq] at this
        exact ⟨lj, rfl, by rw [← this, r4]⟩
    rw [hleaf]
    unfold pickRoll
    rw [hL]
    dsimp only
    rw [← hs.1, r2, hnm, hnum]
    simp only [Bool.not_true, Bool.false_eq_true, if_false]
    rw [if_neg (by omega)]
    simp only [Int.toNat_natCast, hlj, hljn, hren]
    refine ⟨⟨s', hm', hc'.trans hc, ?_, by rw [r5]; exact ha⟩, ?_, by simp⟩
    · rw [r6]
      simp only [List.map_cons, List.cons.injEq, true_and]
      split
      · rw [← List.eraseIdx_map, ← List.eraseIdx_map, hs.2]
      · exact hs.2
    · simp only [List.map_cons, List.map_nil]
      rw [execOps_one]
      have hmain : Vm.main env op.toByte L.erase.stack =
          some (lj.value :: ((if isRoll then lst.eraseIdx depth else lst).map LItem.value)) := by
        have hst : L.erase.stack = ltop.value :: lst.map LItem.value := by
          simp [LState.erase, hL]
        rw [hst]
        have hget : (lst.map LItem.value)[depth]? = some lj.value := by
          rw [List.getElem?_map, hlj]; rfl
        cases isRoll <;> subst hop
        · have : Vm.main env Opcode.OP_PICK.toByte (ltop.value :: lst.map LItem.value) =
              (Vm.num? 4 ltop.value).bind fun n => if 0 ≤ n then
                ((lst.map LItem.value)[n.toNat]?).map fun x => x :: lst.map LItem.value else none := rfl
          simp only [Bool.false_eq_true, if_false]
          rw [this, hnum, Option.bind_some, if_pos (by omega), Int.toNat_natCast, hget]
          rfl
        · have : Vm.main env Opcode.OP_ROLL.toByte (ltop.value :: lst.map LItem.value) =
              (Vm.num? 4 ltop.value).bind fun n => if 0 ≤ n then
                ((lst.map LItem.value)[n.toNat]?).map fun x =>
                  x :: (lst.map LItem.value).eraseIdx n.toNat else none := rfl
          simp only [if_true]
          rw [this, hnum, Option.bind_some, if_pos (by omega), Int.toNat_natCast, hget,
            List.eraseIdx_map]
          rfl
      rw [execOp_main env op (by cases isRoll <;> subst hop <;> simp)
        (by cases isRoll <;> subst hop <;> simp), hmain]
      rfl

/-! ### All statements -/

theorem single_out {o : Option (List String)} (h : (match o with
    | none => true
    | some [_] => true
    | _ => false) = true) : o = none ∨ ∃ y, o = some [y] := by
  split at h
  · exact .inl rfl
  · exact .inr ⟨_, rfl⟩
  · cases h

theorem leaf_sim_all (k? : Option Nat) (l : Leaf) (g g' : Gen) (e : List Emit)
    (hg : GoodGen g) (hk : ∀ k, k? = some k → SDepth g k)
    (hn1 : opens l = false) (hn2 : isElse l = false) (hn3 : closes l = false)
    (hok : leafOk k?.isSome l = true)
    (h : runLeaf l g = .ok (e, g')) : ∃ k'?, ∀ env, Sim env k? l g g' (e.map Emit.op) k'? := by
  cases l with
  | push op name =>
    simp only [leafOk, Bool.and_eq_true] at hok
    simp only [runLeaf, Res.ok.injEq] at h
    exact ⟨none, fun env => push_sim env k? op name g g' e hg hok.1 hok.2 h⟩
  | forLoop => cases h
  | rustIf => cases h
  | opcode stmt =>
    simp only [runLeaf] at h
    simp only [leafOk] at hok
    have hw : (writtenNames stmt).all (fun x => !reserved x) = true := by
      simp only [stmtOk, Bool.and_eq_true] at hok
      exact hok.1
    obtain ⟨hd, i, o⟩ := stmt
    cases hd with
    | depthOf =>
      simp only [runOpcode] at h
      split at h
      · next x =>
        refine depthOf_sim x 0 k? _ g g' e hg (fun env L => rfl) ?_ hw ?_ (fun _ => rfl) h
        · have := List.all_eq_true.mp hw x (by simp [writtenNames, OpcodeInput.toString])
          simpa using this
        · simp only [stmtOk, Bool.and_eq_true] at hok
          exact single_out hok.2
      · cases h
    | depthOfOffset =>
      simp only [runOpcode] at h
      split at h
      · next x t off =>
        refine depthOf_sim x off k? _ g g' e hg (fun env L => rfl) ?_ hw ?_ (by simp [isDepthOf]) h
        · have := List.all_eq_true.mp hw x (by simp [writtenNames, OpcodeInput.toString])
          simpa using this
        · simp only [stmtOk, Bool.and_eq_true] at hok
          exact single_out hok.2
      · cases h
    | transmute =>
      simp only [runOpcode] at h
      exact ⟨none, fun env => transmute_sim env k? i o g g' e hg hw h⟩
    | unknown => cases h
    | op c =>
      by_cases c1 : c = .OP_TOALTSTACK
      · subst c1; exact ⟨none, fun env => toalt_sim env k? i o g g' e hg hok h⟩
      by_cases c2 : c = .OP_FROMALTSTACK
      · subst c2; exact ⟨none, fun env => fromalt_sim env k? i o g g' e hg hok h⟩
      by_cases c3 : c = .OP_PICK
      · subst c3
        simp only [stmtOk, Bool.and_eq_true] at hok
        obtain ⟨k, rfl⟩ := Option.isSome_iff_exists.mp hok.2
        exact ⟨none, fun env => pickRoll_sim false _ rfl env k _ g g' e hg (hk k rfl) (fun _ => rfl) rfl hw h⟩
      by_cases c4 : c = .OP_ROLL
      · subst c4
        simp only [stmtOk, Bool.and_eq_true] at hok
        obtain ⟨k, rfl⟩ := Option.isSome_iff_exists.mp hok.2
        exact ⟨none, fun env => pickRoll_sim true _ rfl env k _ g g' e hg (hk k rfl) (fun _ => rfl) rfl hw h⟩
      have h' : (if inNameMap c then runOther c ⟨.op c, i, o⟩ g else .err "Unknown opcode/function") =
          .ok (e, g') := by
        rw [← h]
        unfold runOpcode
        dsimp only
        split <;> simp_all
      split at h'
      · next hmap =>
        have hsp : NamedProofs.special c = false := by
          cases hs : NamedProofs.special c with
          | false => rfl
          | true =>
            have : c = .OP_IFDUP := by
              cases c <;> first | rfl | (cases hs; done) | exact absurd rfl c1 | exact absurd rfl c2 |
                exact absurd rfl c3 | exact absurd rfl c4
            subst this
            cases h'
        refine ⟨none, fun env => other_sim env k? c _ g g' e hg rfl hsp ?_ ?_ ?_ ?_ hmap ?_ h'⟩
        · rintro rfl; cases hn1
        · rintro rfl; cases hn1
        · rintro rfl; cases hn2
        · rintro rfl; cases hn3
        · refine ⟨?_, ?_⟩
          · intro ns hns x hx
            have := List.all_eq_true.mp hw x (by
              simp only [writtenNames]
              dsimp only at hns
              rw [hns]
              simp [hx])
            simpa using this
          · rintro rfl
            simp only [stmtOk, Bool.and_eq_true] at hok
            match o, hok.2 with
            | some [a, b], hh => exact ⟨a, b, rfl, by simpa using hh⟩
      · cases h'

theorem leaf_sim (env : Vm.Env) (k? : Option Nat) (l : Leaf) (g g' : Gen) (e : List Emit)
    (hg : GoodGen g) (hk : ∀ k, k? = some k → SDepth g k)
    (hn1 : opens l = false) (hn2 : isElse l = false) (hn3 : closes l = false)
    (hok : leafOk k?.isSome l = true)
    (h : runLeaf l g = .ok (e, g')) : ∃ k'?, Sim env k? l g g' (e.map Emit.op) k'? :=
  (leaf_sim_all k? l g g' e hg hk hn1 hn2 hn3 hok h).imp fun _ h => h env

end GenProofs
end BCash
