import Verif.Proofs.MacroTyped

/-! # The variables of the generated code -/

namespace BCash
open Spec Spec.Macro Spec.Named Macro

namespace TypeProofs
open GenProofs

theorem freshName_inj {a b : Nat} (h : freshName a = freshName b) : a = b := by
  unfold freshName at h
  have h' := congrArg String.toList h
  simp only [String.toList_append, List.append_cancel_left_eq] at h'
  have h2 : Nat.toDigits 10 a = Nat.toDigits 10 b := by
    have : ∀ n : Nat, (toString n).toList = Nat.toDigits 10 n := fun n => Nat.toList_repr
    rwa [this, this] at h'
  rw [← Nat.ofDigitChars_toDigits (b := 10) (n := a) (by omega) (by omega), h2,
    Nat.ofDigitChars_toDigits (by omega) (by omega)]

/-- The bound variables are the named ones and fresh ones. -/
def Binds (names : List String) (n n' : Nat) (code : List RustStmt) : Prop :=
  n ≤ n' ∧ ∃ ns : List Nat, (code.flatMap boundOf).Perm (names ++ ns.map freshName) ∧ ns.Nodup ∧
    ∀ k ∈ ns, n ≤ k ∧ k < n'

theorem Binds.append {a b : List String} {n n1 n2 : Nat} {c d : List RustStmt} (h1 : Binds a n n1 c)
    (h2 : Binds b n1 n2 d) : Binds (a ++ b) n n2 (c ++ d) := by
  obtain ⟨l1, ns1, p1, d1, r1⟩ := h1
  obtain ⟨l2, ns2, p2, d2, r2⟩ := h2
  refine ⟨by omega, ns1 ++ ns2, ?_, ?_, ?_⟩
  · rw [List.flatMap_append, List.map_append]
    refine (p1.append p2).trans ?_
    rw [List.append_assoc, List.append_assoc]
    refine List.Perm.append_left a ?_
    rw [← List.append_assoc, ← List.append_assoc]
    exact List.Perm.append_right _ List.perm_append_comm
  · rw [List.nodup_append]
    refine ⟨d1, d2, ?_⟩
    rintro x hx y hy rfl
    have := r1 x hx
    have := r2 x hy
    omega
  · intro k hk
    rcases List.mem_append.mp hk with hk | hk
    · have := r1 k hk; omega
    · have := r2 k hk; omega

theorem Binds.none (n : Nat) : Binds [] n n [] :=
  ⟨Nat.le_refl _, [], List.Perm.refl _, List.nodup_nil, by simp⟩

theorem pop_nIdent {g g' : Gen} {i : Item} (h : g.pop = .ok (i, g')) : g'.nIdent = g.nIdent := by
  exact (pop_spec g g' i h).2.1

theorem popN_nIdent {n : Nat} {g g' : Gen} {items : List Item} (h : popN n g = .ok (items, g')) :
    g'.nIdent = g.nIdent := by
  induction n generalizing g items with
  | zero => cases h; rfl
  | succ n ih =>
    simp only [popN, Res.bind_eq_ok, Prod.exists] at h
    obtain ⟨i, g1, h1, is, g2, h2, h3⟩ := h
    cases h3
    rw [ih h2, pop_nIdent (lift_ok h1)]

theorem push_nIdent (g : Gen) (i : Item) : (g.push i).nIdent = g.nIdent := rfl

theorem pushAll_nIdent (items : List Item) (g : Gen) : (items.foldl Gen.push g).nIdent = g.nIdent := by
  induction items generalizing g with
  | nil => rfl
  | cons i items ih => rw [List.foldl_cons, ih, push_nIdent]

theorem outputItems_count {o : Opcode} {b : OpcodeBehavior} {items out : List Item} {names : Option (List String)}
    {n m : Nat} (h : outputItems o b items names n = .ok (out, m)) : m = outputCount b names := by
  unfold outputItems at h
  unfold outputCount
  cases names with
  | some ns =>
    dsimp only at h ⊢
    split at h
    · cases h
    · obtain ⟨_, _, h⟩ := Res.bind_eq_ok.mp h
      cases h; rfl
  | none =>
    dsimp only at h ⊢
    cases ho : b.outputOrder with
    | none =>
      rw [ho] at h
      obtain ⟨_, _, h⟩ := Res.bind_eq_ok.mp h
      cases h; rfl
    | some order =>
      rw [ho] at h
      obtain ⟨_, _, h⟩ := Res.bind_eq_ok.mp h
      cases h; rfl

theorem fresh_range (n m : Nat) : ((List.range m).map fun i => freshName (n + i)) =
    ((List.range m).map (n + ·)).map freshName := by
  rw [List.map_map]; rfl

theorem binds_fresh (n m : Nat) (o : Opcode) (xss : List (List String)) :
    Binds [] n (n + m) [.call ((List.range m).map fun i => freshName (n + i)) o xss] := by
  refine ⟨by omega, (List.range m).map (n + ·), ?_, ?_, ?_⟩
  · simp [boundOf, Function.comp_def]
  · exact List.Nodup.map (fun a b h => by simpa using h) List.nodup_range
  · intro k hk
    obtain ⟨i, hi, rfl⟩ := List.mem_map.mp hk
    have := List.mem_range.mp hi
    omega

theorem depth_nIdent {x : String} {off : Int} {stmt : OpcodeStmt} {g g' : Gen} {e : List Emit}
    (h : runDepthOf x off stmt g = .ok (e, g')) :
    (∃ o, stmt.outputNames = some [o] ∧ g'.nIdent = g.nIdent) ∨
    ((∀ o, stmt.outputNames ≠ some [o]) ∧ g'.nIdent = g.nIdent + 1) := by
  obtain ⟨hd, inp, out⟩ := stmt
  unfold runDepthOf at h
  obtain ⟨depth, hf, h⟩ := Res.bind_eq_ok.mp h
  split at h
  · cases h
  · dsimp only at h
    split at h
    · cases h
    · split at h
      · cases h
      · cases h
        rcases out with _ | _ | ⟨o, _ | ⟨o2, os⟩⟩
        · exact .inr ⟨by simp, rfl⟩
        · exact .inr ⟨by simp, rfl⟩
        · exact .inl ⟨o, rfl, rfl⟩
        · exact .inr ⟨by simp, rfl⟩

theorem opcode_binds {tyOf : String → Option FTy} {stmt : OpcodeStmt} {g g' : Gen} {e : List Emit}
    {is is' : List Idents} {code : List RustStmt} (hnt : stmt.head ≠ .transmute)
    (h : runOpcode stmt g = .ok (e, g')) (hi : identsOpcode tyOf stmt g is = some (code, is')) :
    Binds (letNames.leafLets (.opcode stmt)) g.nIdent g'.nIdent code := by
  obtain ⟨hd, inp, out⟩ := stmt
  cases hd with
  | depthOf =>
    simp only [runOpcode] at h
    split at h
    · rcases depth_nIdent h with ⟨o, rfl, hn⟩ | ⟨hne, hn⟩
      · simp only [identsOpcode, Option.some.injEq, Prod.mk.injEq] at hi
        rw [hn, ← hi.1]
        exact ⟨Nat.le_refl _, [], by simp [boundOf, letNames.leafLets], List.nodup_nil, by simp⟩
      · rw [hn]
        dsimp only at hne
        rcases out with _ | _ | ⟨o, _ | ⟨o2, os⟩⟩
        · simp only [identsOpcode, Option.some.injEq, Prod.mk.injEq] at hi
          rw [← hi.1]
          exact ⟨by omega, [g.nIdent], by simp [boundOf, letNames.leafLets], by simp, by simp⟩
        · simp only [identsOpcode, Option.some.injEq, Prod.mk.injEq] at hi
          rw [← hi.1]
          exact ⟨by omega, [g.nIdent], by simp [boundOf, letNames.leafLets], by simp, by simp⟩
        · exact absurd rfl (hne o)
        · simp only [identsOpcode, Option.some.injEq, Prod.mk.injEq] at hi
          rw [← hi.1]
          exact ⟨by omega, [g.nIdent], by simp [boundOf, letNames.leafLets], by simp, by simp⟩
    · cases h
  | depthOfOffset =>
    simp only [runOpcode] at h
    split at h
    · rcases depth_nIdent h with ⟨o, rfl, hn⟩ | ⟨hne, hn⟩
      · simp only [identsOpcode, Option.some.injEq, Prod.mk.injEq] at hi
        rw [hn, ← hi.1]
        exact ⟨Nat.le_refl _, [], by simp [boundOf, letNames.leafLets], List.nodup_nil, by simp⟩
      · rw [hn]
        dsimp only at hne
        rcases out with _ | _ | ⟨o, _ | ⟨o2, os⟩⟩
        · simp only [identsOpcode, Option.some.injEq, Prod.mk.injEq] at hi
          rw [← hi.1]
          exact ⟨by omega, [g.nIdent], by simp [boundOf, letNames.leafLets], by simp, by simp⟩
        · simp only [identsOpcode, Option.some.injEq, Prod.mk.injEq] at hi
          rw [← hi.1]
          exact ⟨by omega, [g.nIdent], by simp [boundOf, letNames.leafLets], by simp, by simp⟩
        · exact absurd rfl (hne o)
        · simp only [identsOpcode, Option.some.injEq, Prod.mk.injEq] at hi
          rw [← hi.1]
          exact ⟨by omega, [g.nIdent], by simp [boundOf, letNames.leafLets], by simp, by simp⟩
    · cases h
  | transmute => exact absurd rfl hnt
  | unknown => cases h
  | op c =>
    have hl : letNames.leafLets (.opcode ⟨.op c, inp, out⟩) = [] := rfl
    rw [hl]
    have hnil : ∀ ds : List (List String), Binds [] g.nIdent g.nIdent [.call [] c ds] := fun ds => by
      simpa using binds_fresh g.nIdent 0 c ds
    have hmv : ∀ xs, Binds [] g.nIdent g.nIdent [.moved xs] := fun xs =>
      ⟨Nat.le_refl _, [], by simp [boundOf], List.nodup_nil, by simp⟩
    have hpr : ∀ (isRoll : Bool), identsOpcode.pickRoll g is c isRoll = some (code, is') →
        runPickRoll c isRoll ⟨.op c, inp, out⟩ g = .ok (e, g') → Binds [] g.nIdent g'.nIdent code := by
      intro isRoll hid hrun
      have hn : g'.nIdent = g.nIdent := by
        unfold runPickRoll at hrun
        obtain ⟨⟨_, g1⟩, q1, hrun⟩ := Res.bind_eq_ok.mp hrun
        obtain ⟨_, _, hrun⟩ := Res.bind_eq_ok.mp hrun
        obtain ⟨_, _, hrun⟩ := Res.bind_eq_ok.mp hrun
        obtain ⟨⟨_, g2⟩, q2, hrun⟩ := Res.bind_eq_ok.mp hrun
        obtain ⟨_, _, hrun⟩ := Res.bind_eq_ok.mp hrun
        cases hrun
        rw [push_nIdent, ← pop_nIdent (lift_ok q1)]
        cases isRoll with
        | true => exact (roll_spec _ _ _ _ (lift_ok q2)).2.1
        | false => exact (pick_spec _ _ _ _ (lift_ok q2)).2.1
      rw [hn]
      unfold identsOpcode.pickRoll at hid
      split at hid
      · obtain ⟨⟨ds, is1⟩, p1, hid⟩ := Option.bind_eq_some_iff.mp hid
        obtain ⟨⟨xs, is2⟩, p2, hid⟩ := Option.bind_eq_some_iff.mp hid
        obtain ⟨y, p3, hid⟩ := Option.map_eq_some_iff.mp hid
        simp only [Prod.mk.injEq] at hid
        obtain ⟨rfl, rfl⟩ := hid
        exact (hnil [ds]).append (hmv xs)
      · cases hid
    by_cases c1 : c = .OP_TOALTSTACK
    · subst c1
      simp only [identsOpcode] at hi
      obtain ⟨⟨xs, is1⟩, p1, hi⟩ := Option.bind_eq_some_iff.mp hi
      obtain ⟨x, p2, hi⟩ := Option.map_eq_some_iff.mp hi
      simp only [Prod.mk.injEq] at hi
      obtain ⟨rfl, rfl⟩ := hi
      have he : g'.nIdent = g.nIdent := by
        simp only [runOpcode] at h
        obtain ⟨⟨_, _⟩, q, h⟩ := Res.bind_eq_ok.mp h
        obtain ⟨_, _, h⟩ := Res.bind_eq_ok.mp h
        obtain ⟨_, _, h⟩ := Res.bind_eq_ok.mp h
        cases h
        have := pop_nIdent (lift_ok q); exact this
      rw [he]
      exact hmv xs
    by_cases c2 : c = .OP_FROMALTSTACK
    · subst c2
      simp only [identsOpcode] at hi
      obtain ⟨⟨xs, is1⟩, p1, hi⟩ := Option.bind_eq_some_iff.mp hi
      obtain ⟨x, p2, hi⟩ := Option.map_eq_some_iff.mp hi
      simp only [Prod.mk.injEq] at hi
      obtain ⟨rfl, rfl⟩ := hi
      have he : g'.nIdent = g.nIdent := by
        simp only [runOpcode] at h
        obtain ⟨⟨_, _⟩, q, h⟩ := Res.bind_eq_ok.mp h
        obtain ⟨_, _, h⟩ := Res.bind_eq_ok.mp h
        obtain ⟨_, _, h⟩ := Res.bind_eq_ok.mp h
        cases h
        exact (popAlt_spec _ _ _ (lift_ok q)).2.1
      rw [he]
      exact hmv xs
    by_cases c3 : c = .OP_PICK
    · subst c3; exact hpr false hi h
    by_cases c4 : c = .OP_ROLL
    · subst c4; exact hpr true hi h
    have h' : (if inNameMap c then runOther c ⟨.op c, inp, out⟩ g else .err "Unknown opcode/function") =
        .ok (e, g') := by
      rw [← h]
      unfold runOpcode
      dsimp only
      split <;> simp_all
    have hi' : ((c.behavior).bind fun b => (popNIdents g.active b.inputTypes.length is).map fun (xss, is) =>
        let outs := (List.range (outputCount b out)).map fun i => freshName (g.nIdent + i)
        ([RustStmt.call outs c xss], outs.foldl (fun is x => pushIdent x g.active is) is)) =
        some (code, is') := by
      rw [← hi]
      unfold identsOpcode
      dsimp only
      split <;> simp_all
    split at h'
    · obtain ⟨b, hb, hi'⟩ := Option.bind_eq_some_iff.mp hi'
      obtain ⟨⟨xss, is1⟩, p1, hi'⟩ := Option.map_eq_some_iff.mp hi'
      simp only [Prod.mk.injEq] at hi'
      obtain ⟨rfl, rfl⟩ := hi'
      unfold runOther at h'
      rw [hb] at h'
      simp only [Res.bind_eq_ok, Prod.exists, Res.ok.injEq, Prod.mk.injEq] at h'
      obtain ⟨items, g1, hp, u, hcheck, outI, m, hout, rfl, rfl⟩ := h'
      rw [pushAll_nIdent]
      dsimp only
      rw [popN_nIdent hp, outputItems_count hout]
      exact binds_fresh _ _ _ _
    · cases h'

theorem leaf_binds {tyOf : String → Option FTy} {l : Leaf} {g g' : Gen} {e : List Emit}
    {is is' : List Idents} {code : List RustStmt} (hnt : ∀ i o, l ≠ .opcode ⟨.transmute, i, o⟩)
    (h : runLeaf l g = .ok (e, g')) (hi : identsLeaf tyOf l g is = some (code, is')) :
    Binds (letNames.leafLets l) g.nIdent g'.nIdent code := by
  cases l with
  | push op name =>
    simp only [identsLeaf, Option.map_eq_some_iff, Prod.mk.injEq] at hi
    obtain ⟨t, h1, rfl, rfl⟩ := hi
    simp only [runLeaf, Res.ok.injEq] at h
    unfold runPush at h
    cases h
    cases name with
    | some x => exact ⟨by simp [push_nIdent], [], by simp [boundOf, letNames.leafLets], List.nodup_nil, by simp⟩
    | none =>
      exact ⟨by simp [push_nIdent], [g.nIdent], by simp [boundOf, letNames.leafLets], by simp, by simp [push_nIdent]⟩
  | opcode stmt =>
    refine opcode_binds ?_ h hi
    obtain ⟨hd, i, o⟩ := stmt
    rintro rfl
    exact hnt _ _ rfl
  | forLoop => cases h
  | rustIf => cases h

theorem optional_binds {tyOf : String → Option FTy} {o : Option OpcodeStmt} {g g' : Gen} {e : List Emit}
    {is is' : List Idents} {code : List RustStmt} (hel : ∀ s, o = some s → isElse (.opcode s) = true)
    (h : runOptional o g = .ok (e, g')) (hi : identsOptional tyOf o g is = some (code, is')) :
    Binds [] g.nIdent g'.nIdent code := by
  cases o with
  | none => cases h; cases hi; exact Binds.none _
  | some s =>
    have hh : s.head = .op .OP_ELSE := by
      have := hel s rfl
      unfold isElse at this
      split at this
      · next q => cases q; rfl
      · cases this
    have := opcode_binds (stmt := s) (by rw [hh]; simp) h hi
    obtain ⟨hd, i, o⟩ := s
    dsimp only at hh
    subst hh
    exact this

theorem prog_binds {tyOf : String → Option FTy} {p : Prog} {g g' : Gen} {e : List Emit}
    {is is' : List Idents} {code : List RustStmt} (hwn : WellNested p) (hnt : noTransmute p = true)
    (h : runProg p g = .ok (e, g')) (hi : identsProg tyOf p g is = some (code, is')) :
    Binds (letNames p) g.nIdent g'.nIdent code := by
  induction p generalizing g g' e is is' code with
  | nil => cases h; cases hi; exact Binds.none _
  | leaf l rest ih =>
    obtain ⟨w1, w2, w3, w4⟩ := hwn
    simp only [runProg] at h
    obtain ⟨⟨e1, g1⟩, h1, h⟩ := Res.bind_eq_ok.mp h
    obtain ⟨⟨e2, g2⟩, h2, h⟩ := Res.bind_eq_ok.mp h
    cases h
    simp only [identsProg, h1, ok?, Option.bind_some, Option.bind_eq_some_iff, Option.map_eq_some_iff] at hi
    obtain ⟨⟨c1, is1⟩, hi1, ⟨c2, is2⟩, hi2, hi⟩ := hi
    cases hi
    have hn : (∀ i o, l ≠ .opcode ⟨.transmute, i, o⟩) ∧ noTransmute rest = true := by
      unfold noTransmute at hnt
      split at hnt
      · next q => cases q
      · cases hnt
      · next l' r' hne q => cases q; exact ⟨fun i o hl => hne i o hl, hnt⟩
      · next q => cases q
    exact (leaf_binds hn.1 h1 hi1).append (ih w4 hn.2 h2 hi2)
  | scriptIf ifOp thenStmts elseOp elseStmts endifOp rest iht ihe ihr =>
    obtain ⟨w1, w2, w3, w4, w5, w6, w7⟩ := hwn
    simp only [noTransmute, Bool.and_eq_true] at hnt
    simp only [runProg] at h
    obtain ⟨⟨e1, g1⟩, h1, h⟩ := Res.bind_eq_ok.mp h
    obtain ⟨x, hx, h⟩ := Res.bind_eq_ok.mp h
    obtain ⟨⟨e2, gt⟩, h2, h⟩ := Res.bind_eq_ok.mp h
    obtain ⟨⟨e3, gt'⟩, h3, h⟩ := Res.bind_eq_ok.mp h
    obtain ⟨⟨e4, ge⟩, h4, h⟩ := Res.bind_eq_ok.mp h
    obtain ⟨⟨e5, ge'⟩, h5, h⟩ := Res.bind_eq_ok.mp h
    obtain ⟨states, h6, h⟩ := Res.bind_eq_ok.mp h
    obtain ⟨⟨e6, g6⟩, h7, h⟩ := Res.bind_eq_ok.mp h
    cases h
    dsimp only at h2 h3 h4 h5 h6 h7
    simp only [identsProg, h1, hx, h2, h3, h4, h5, h6, ok?, Option.bind_some, Option.bind_eq_some_iff,
      Option.map_eq_some_iff] at hi
    obtain ⟨⟨c1, is1⟩, hi1, ⟨c2, is2⟩, hi2, ⟨c3, is3⟩, hi3, ⟨c4, is4⟩, hi4, ⟨c5, is5⟩, hi5, ⟨c6, is6⟩, hi6, hi⟩ := hi
    cases hi
    dsimp only at hi1 hi2 hi3 hi4 hi5 hi6 ⊢
    have b1 : Binds [] g.nIdent g1.nIdent c1 := by
      have hh : ifOp.head = .op .OP_IF ∨ ifOp.head = .op .OP_NOTIF := by
        unfold opens at w1
        split at w1
        · next q => cases q; exact .inl rfl
        · next q => cases q; exact .inr rfl
        · cases w1
      have := opcode_binds (stmt := ifOp) (by rcases hh with hh | hh <;> rw [hh] <;> simp) h1 hi1
      obtain ⟨hd, i, o⟩ := ifOp
      rcases hh with hh | hh <;> dsimp only at hh <;> subst hh <;> exact this
    have b5 : Binds [] ge.nIdent ge'.nIdent c5 := by
      have hh : endifOp.head = .op .OP_ENDIF := by
        unfold closes at w4
        split at w4
        · next q => cases q; rfl
        · cases w4
      have := opcode_binds (stmt := endifOp) (by rw [hh]; simp) h5 hi5
      obtain ⟨hd, i, o⟩ := endifOp
      dsimp only at hh
      subst hh
      exact this
    have b2 := iht w5 hnt.1.1 h2 hi2
    have b3 := optional_binds w2 h3 hi3
    have b4 := ihe w6 hnt.1.2 h4 hi4
    have b6 := ihr w7 hnt.2 h7 hi6
    dsimp only at b2 b4 b6
    have := ((((b1.append b2).append b3).append b4).append b5).append b6
    simpa [letNames] using this

/-! ## Candidates -/

theorem takeIdents_length {f : Idents → Option (String × Idents)} {act : List Bool} {is is' : List Idents}
    {xs : List String} (h : takeIdents f act is = some (xs, is')) : xs.length ≤ is.length := by
  induction is generalizing act xs is' with
  | nil =>
    cases act with
    | nil => cases h; simp
    | cons b act => cases b <;> cases h <;> simp
  | cons i is ih =>
    cases act with
    | nil => cases h; simp
    | cons b act =>
      cases b with
      | true =>
        simp only [takeIdents, Option.bind_eq_some_iff, Option.map_eq_some_iff] at h
        obtain ⟨⟨x, i1⟩, h1, ⟨xs1, is1⟩, h2, h3⟩ := h
        cases h3
        have := ih h2
        simpa using this
      | false =>
        simp only [takeIdents, Option.map_eq_some_iff] at h
        obtain ⟨⟨xs1, is1⟩, h2, h3⟩ := h
        cases h3
        have := ih h2
        simp only [List.length_cons]
        omega

theorem popN_length {act : List Bool} {n : Nat} {is is' : List Idents} {xss : List (List String)}
    (h : popNIdents act n is = some (xss, is')) : ∀ xs ∈ xss, xs.length ≤ is.length := by
  induction n generalizing is xss with
  | zero => cases h; simp
  | succ n ih =>
    simp only [popNIdents, Option.bind_eq_some_iff, Option.map_eq_some_iff] at h
    obtain ⟨⟨xs, is1⟩, h1, ⟨xss1, is2⟩, h2, h3⟩ := h
    cases h3
    intro ys hys
    rcases List.mem_append.mp hys with hys | hys
    · have := ih h2 ys hys
      rw [(popIdents_spec h1).1] at this
      exact this
    · simp only [List.mem_singleton] at hys
      subst hys
      exact takeIdents_length h1

/-- Operands have at most as many candidates as there are variants; their number does not change. -/
def Few (is is' : List Idents) (code : List RustStmt) : Prop :=
  is'.length = is.length ∧ ∀ s ∈ code, ∀ xs ∈ operandsOf s, xs.length ≤ is.length

theorem Few.append {is is1 is2 : List Idents} {c d : List RustStmt} (h1 : Few is is1 c) (h2 : Few is1 is2 d) :
    Few is is2 (c ++ d) := by
  refine ⟨h2.1.trans h1.1, ?_⟩
  intro s hs
  rcases List.mem_append.mp hs with hs | hs
  · exact h1.2 s hs
  · rw [← h1.1]; exact h2.2 s hs

theorem opcode_few {tyOf : String → Option FTy} {stmt : OpcodeStmt} {g : Gen}
    {is is' : List Idents} {code : List RustStmt} (hi : identsOpcode tyOf stmt g is = some (code, is')) :
    Few is is' code := by
  obtain ⟨hd, inp, out⟩ := stmt
  have hpr : ∀ c (isRoll : Bool), identsOpcode.pickRoll g is c isRoll = some (code, is') → Few is is' code := by
    intro c isRoll hid
    unfold identsOpcode.pickRoll at hid
    split at hid
    · obtain ⟨⟨ds, is1⟩, p1, hid⟩ := Option.bind_eq_some_iff.mp hid
      obtain ⟨⟨xs, is2⟩, p2, hid⟩ := Option.bind_eq_some_iff.mp hid
      obtain ⟨y, p3, hid⟩ := Option.map_eq_some_iff.mp hid
      simp only [Prod.mk.injEq] at hid
      obtain ⟨rfl, rfl⟩ := hid
      have l1 := (popIdents_spec p1).1
      have l2 := (pickIdents_spec p2).1
      refine ⟨((pushIdent_spec y g.active is2).1.trans l2).trans l1, ?_⟩
      intro s hs xs hxs
      simp only [List.mem_cons, List.not_mem_nil, or_false] at hs
      rcases hs with rfl | rfl <;> simp only [operandsOf, List.mem_singleton] at hxs <;> subst hxs
      · exact takeIdents_length p1
      · rw [← l1]; exact takeIdents_length p2
    · cases hid
  cases hd with
  | depthOf =>
    simp only [identsOpcode, Option.some.injEq, Prod.mk.injEq] at hi
    obtain ⟨rfl, rfl⟩ := hi
    exact ⟨(pushIdent_spec _ _ _).1, by simp [operandsOf]⟩
  | depthOfOffset =>
    simp only [identsOpcode, Option.some.injEq, Prod.mk.injEq] at hi
    obtain ⟨rfl, rfl⟩ := hi
    exact ⟨(pushIdent_spec _ _ _).1, by simp [operandsOf]⟩
  | transmute =>
    simp only [identsOpcode] at hi
    split at hi
    · split at hi
      · obtain ⟨_, _, hi⟩ := Option.bind_eq_some_iff.mp hi
        obtain ⟨_, _, hi⟩ := Option.bind_eq_some_iff.mp hi
        obtain ⟨_, _, hi⟩ := Option.map_eq_some_iff.mp hi
        cases hi
        exact ⟨rfl, by simp [operandsOf]⟩
      · cases hi
    · cases hi
  | unknown => cases hi
  | op c =>
    by_cases c1 : c = .OP_TOALTSTACK
    · subst c1
      simp only [identsOpcode] at hi
      obtain ⟨⟨xs, is1⟩, p1, hi⟩ := Option.bind_eq_some_iff.mp hi
      obtain ⟨x, p2, hi⟩ := Option.map_eq_some_iff.mp hi
      cases hi
      refine ⟨(pushAltIdent_spec _ _ _).1.trans (popIdents_spec p1).1, ?_⟩
      simp only [List.mem_singleton, operandsOf, forall_eq]
      exact takeIdents_length p1
    by_cases c2 : c = .OP_FROMALTSTACK
    · subst c2
      simp only [identsOpcode] at hi
      obtain ⟨⟨xs, is1⟩, p1, hi⟩ := Option.bind_eq_some_iff.mp hi
      obtain ⟨x, p2, hi⟩ := Option.map_eq_some_iff.mp hi
      cases hi
      refine ⟨(pushIdent_spec _ _ _).1.trans (popAltIdents_spec p1).1, ?_⟩
      simp only [List.mem_singleton, operandsOf, forall_eq]
      exact takeIdents_length p1
    by_cases c3 : c = .OP_PICK
    · subst c3; exact hpr _ false hi
    by_cases c4 : c = .OP_ROLL
    · subst c4; exact hpr _ true hi
    have hi' : ((c.behavior).bind fun b => (popNIdents g.active b.inputTypes.length is).map fun (xss, is) =>
        let outs := (List.range (outputCount b out)).map fun i => freshName (g.nIdent + i)
        ([RustStmt.call outs c xss], outs.foldl (fun is x => pushIdent x g.active is) is)) =
        some (code, is') := by
      rw [← hi]
      unfold identsOpcode
      dsimp only
      split <;> simp_all
    obtain ⟨b, hb, hi'⟩ := Option.bind_eq_some_iff.mp hi'
    obtain ⟨⟨xss, is1⟩, p1, hi'⟩ := Option.map_eq_some_iff.mp hi'
    simp only [Prod.mk.injEq] at hi'
    obtain ⟨rfl, rfl⟩ := hi'
    refine ⟨(pushIdents_spec _ _ _).1.trans (popNIdents_spec p1).1, ?_⟩
    simp only [List.mem_singleton, operandsOf, forall_eq]
    exact popN_length p1

theorem prog_few {tyOf : String → Option FTy} {p : Prog} {g : Gen}
    {is is' : List Idents} {code : List RustStmt} (hi : identsProg tyOf p g is = some (code, is')) :
    Few is is' code := by
  induction p generalizing g is is' code with
  | nil => cases hi; exact ⟨rfl, by simp⟩
  | leaf l rest ih =>
    simp only [identsProg, Option.bind_eq_some_iff, Option.map_eq_some_iff] at hi
    obtain ⟨r, _, ⟨c1, is1⟩, hi1, ⟨c2, is2⟩, hi2, hi⟩ := hi
    cases hi
    refine Few.append ?_ (ih hi2)
    cases l with
    | push op name =>
      simp only [identsLeaf, Option.map_eq_some_iff, Prod.mk.injEq] at hi1
      obtain ⟨t, h1, rfl, rfl⟩ := hi1
      exact ⟨(pushIdent_spec _ _ _).1, by simp [operandsOf]⟩
    | opcode stmt => exact opcode_few hi1
    | forLoop => cases hi1
    | rustIf => cases hi1
  | scriptIf ifOp thenStmts elseOp elseStmts endifOp rest iht ihe ihr =>
    simp only [identsProg, Option.bind_eq_some_iff, Option.map_eq_some_iff] at hi
    obtain ⟨r1, _, x, _, ⟨c1, is1⟩, hi1, r2, _, ⟨c2, is2⟩, hi2, r3, _, ⟨c3, is3⟩, hi3, r4, _, ⟨c4, is4⟩, hi4,
      r5, _, ⟨c5, is5⟩, hi5, st, _, ⟨c6, is6⟩, hi6, hi⟩ := hi
    cases hi
    dsimp only at hi2 hi3 hi4 hi5 hi6 ⊢
    have f1 := opcode_few hi1
    have f2 := iht hi2
    have f3 : Few is2 is3 c3 := by
      cases elseOp with
      | none => cases hi3; exact ⟨rfl, by simp⟩
      | some o => exact opcode_few hi3
    have f4 := ihe hi4
    have f5 := opcode_few hi5
    have f6 := ihr hi6
    refine ⟨by rw [f6.1, mergeIdents_length, f5.1, f4.1, f1.1], ?_⟩
    intro s hs
    simp only [List.mem_append] at hs
    have l1 := f1.1
    have l2 := f2.1
    have l4 := f4.1
    have l5 := f5.1
    have l6 : (mergeIdents (thenOnly (r1.2.atoms ++ [⟨x, true⟩]) (r1.2.atoms ++ [⟨x, false⟩]) r5.2.states) is3 is5).length =
      is.length := by rw [mergeIdents_length, l5, l4, l1]
    rcases hs with ((((hs | hs) | hs) | hs) | hs) | hs
    · exact f1.2 s hs
    · rw [← l1]; exact f2.2 s hs
    · rw [← l1, ← l2]; exact f3.2 s hs
    · rw [← l1]; exact f4.2 s hs
    · rw [← l1, ← l4]; exact f5.2 s hs
    · rw [← l6]; exact f6.2 s hs

end TypeProofs
end BCash
