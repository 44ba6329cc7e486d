import Verif.Proofs.MacroTyped
import Verif.Proofs.MacroBalanced

/-! # Well-typed execution through balanced conditionals -/

namespace BCash
open Spec Spec.Macro Spec.Named Macro

namespace TypeProofs
open GenProofs

/-- The variables have these types. -/
def HasTypes (Δ : String → Option FTy) (i : Idents) (T : Types) : Prop :=
  List.Forall₂ (fun x t => Δ x = some t) i.stack T.stack ∧ List.Forall₂ (fun x t => Δ x = some t) i.alt T.alt

/-- Values are typed by variables of the same types. -/
theorem typed_swap {Δ : String → Option FTy} {i i' : Idents} {T : Types} {V : Vm.State} (h : Typed Δ i V)
    (h1 : HasTypes Δ i T) (h2 : HasTypes Δ i' T) : Typed Δ i' V := by
  have key : ∀ {xs ys : List String} {ts : List FTy} {vs : List Bytes}, List.Forall₂ (Ty Δ) xs vs →
      List.Forall₂ (fun x t => Δ x = some t) xs ts → List.Forall₂ (fun x t => Δ x = some t) ys ts →
      List.Forall₂ (Ty Δ) ys vs := by
    intro xs ys ts vs a
    induction a generalizing ys ts with
    | nil => intro b c; cases b; cases c; exact .nil
    | cons a1 a2 ih =>
      intro b c
      cases b with
      | cons b1 b2 =>
        cases c with
        | cons c1 c2 =>
          refine .cons ?_ (ih b2 c2)
          obtain ⟨t, t1, t2⟩ := a1
          rw [b1] at t1
          cases t1
          exact ⟨_, c1, t2⟩
  exact ⟨key h.1 h1.1 h2.1, key h.2 h1.2 h2.2⟩

theorem infer_length {ps ts : List FTy} {σ σ' : List (Nat × FTy)} (h : infer ps ts σ = some σ') :
    ps.length = ts.length := by
  induction ps generalizing ts σ with
  | nil =>
    cases ts with
    | nil => rfl
    | cons t ts => cases h
  | cons p ps ih =>
    cases ts with
    | nil => cases p <;> cases h
    | cons t ts =>
      simp only [List.length_cons, Nat.add_right_cancel_iff]
      cases p with
      | var j =>
        simp only [infer] at h
        split at h
        · exact ih h
        · split at h
          · exact ih h
          · cases h
      | _ =>
        simp only [infer] at h
        split at h
        · exact ih h
        · cases h

/-- The conclusion for one statement. -/
def LeafStatic (Δ : String → Option FTy) (k? : Option Nat) (l : Leaf) (act : List Bool) (is is' : List Idents) : Prop :=
  ∀ (j : Nat) i T T', act[j]? = some true → is[j]? = some i → HasTypes Δ i T → leafTypes k? l T = some T' →
    ∃ i', is'[j]? = some i' ∧ HasTypes Δ i' T'

theorem call_static {Δ : String → Option FTy} {o : Opcode} {act : List Bool} {n : Nat} {is is1 : List Idents}
    {xss : List (List String)} {outs : List String}
    (hp : popNIdents act n is = some (xss, is1))
    (hc : Consistent Δ (.call outs o xss)) (hs : Same Δ (.call outs o xss)) {j : Nat} {i : Idents} {T T' : Types}
    (ha : act[j]? = some true) (hj : is[j]? = some i) (ht : HasTypes Δ i T) (hT : callTypes o T = some T') :
    ∃ i', (outs.foldl (fun is x => pushIdent x act is) is1)[j]? = some i' ∧ HasTypes Δ i' T' := by
  have hst := (popNIdents_spec hp).trans (pushIdents_spec outs act is1)
    (R := fun i i' => ∃ as st, List.Forall₂ (fun x (xs : List String) => x ∈ xs) as xss ∧
      i.stack = as.reverse ++ st ∧ i'.stack = outs.reverse ++ st ∧ i'.alt = i.alt) (by
    rintro a b c ⟨as, e1, e2, e3⟩ rfl
    exact ⟨as, b.stack, e1, e2, rfl, e3⟩)
  obtain ⟨i', e0, as, st, e1, e2, e3, e4⟩ := hst.2 j i ha hj
  refine ⟨i', e0, ?_⟩
  obtain ⟨f, ts, σ, rts, h1, h2, h3, h4, h5⟩ := hc
  obtain ⟨ht1, ht2⟩ := ht
  rw [e2] at ht1
  obtain ⟨us, rest, u1, u2, u3⟩ := forall2_split ht1
  have hus : us = ts := by
    have hs' : ∀ xs ∈ xss, ∀ x ∈ xs, ∀ y ∈ xs, Δ x = Δ y := hs
    clear hs h3 ht1 u1 e2 hst hp
    induction e1 generalizing ts us with
    | nil => cases h2; cases u2; rfl
    | cons m1 m2 ih =>
      cases h2 with
      | cons a1 a2 =>
        cases u2 with
        | cons b1 b2 =>
          rw [ih _ a2 _ b2 (fun xs hx => hs' xs (List.mem_cons_of_mem _ hx))]
          obtain ⟨y, y1, y2⟩ := a1
          rw [hs' _ List.mem_cons_self _ m1 _ (List.mem_of_getLast? y1), y2] at b1
          cases b1
          rfl
  subst hus
  have hl := infer_length h3
  unfold callTypes at hT
  rw [h1, u1] at hT
  simp only [Option.bind_some] at hT
  rw [List.take_left' (by simp [hl]), List.drop_left' (by simp [hl]), List.reverse_reverse, h3] at hT
  simp only [Option.bind_some, h4, Option.map_some, Option.some.injEq] at hT
  subst hT
  exact ⟨by rw [e3]; exact List.rel_append (List.rel_reverse h5) u3, by rw [e4]; exact ht2⟩

theorem push_static {Δ : String → Option FTy} {x : String} {t : FTy} {act : List Bool} {is : List Idents}
    (hc : Consistent Δ (.bind x t)) {j : Nat} {i : Idents} {T : Types}
    (ha : act[j]? = some true) (hj : is[j]? = some i) (ht : HasTypes Δ i T) :
    ∃ i', (pushIdent x act is)[j]? = some i' ∧ HasTypes Δ i' ⟨t :: T.stack, T.alt⟩ := by
  obtain ⟨i', e1, rfl⟩ := (pushIdent_spec x act is).2 j i ha hj
  exact ⟨_, e1, .cons hc ht.1, ht.2⟩

theorem same_last_static {Δ : String → Option FTy} {xs : List String} (hs : Same Δ (.moved xs)) {x y : String} (hx : x ∈ xs)
    (hy : xs.getLast? = some y) {t : FTy} (h : Δ x = some t) : Δ y = some t := by
  rw [← hs xs (by simp [operandsOf]) x hx y (List.mem_of_getLast? hy)]; exact h

theorem opcode_static (Δ : String → Option FTy) (tyOf : String → Option FTy) (k? : Option Nat)
    (stmt : OpcodeStmt) (g : Gen) (is is' : List Idents) (code : List RustStmt)
    (hk : ∀ k, k? = some k → SDepth g k)
    (hi : identsOpcode tyOf stmt g is = some (code, is'))
    (hc : ∀ s ∈ code, Consistent Δ s) (hs : ∀ s ∈ code, Same Δ s) :
    LeafStatic Δ k? (.opcode stmt) g.active is is' := by
  obtain ⟨hd, inp, out⟩ := stmt
  intro j i T T' ha hj ht hT
  cases hd with
  | depthOf =>
    simp only [identsOpcode, Option.some.injEq, Prod.mk.injEq] at hi
    obtain ⟨rfl, rfl⟩ := hi
    cases hT
    exact push_static (hc _ List.mem_cons_self) ha hj ht
  | depthOfOffset =>
    simp only [identsOpcode, Option.some.injEq, Prod.mk.injEq] at hi
    obtain ⟨rfl, rfl⟩ := hi
    cases hT
    exact push_static (hc _ List.mem_cons_self) ha hj ht
  | transmute =>
    have his : is' = is := by
      simp only [identsOpcode] at hi
      split at hi
      · split at hi
        · obtain ⟨_, _, hi⟩ := Option.bind_eq_some_iff.mp hi
          obtain ⟨_, _, hi⟩ := Option.bind_eq_some_iff.mp hi
          obtain ⟨_, _, hi⟩ := Option.map_eq_some_iff.mp hi
          cases hi; rfl
        · cases hi
      · cases hi
    subst his
    cases hT
    exact ⟨i, hj, ht⟩
  | unknown => cases hT
  | op c =>
    have hpr : ∀ (isRoll : Bool), identsOpcode.pickRoll g is c isRoll = some (code, is') →
        (∃ k u us t, k? = some k ∧ T.stack = u :: us ∧ us[k]? = some t ∧
          T' = ⟨t :: (if isRoll then us.eraseIdx k else us), T.alt⟩) →
        ∃ i', is'[j]? = some i' ∧ HasTypes Δ i' T' := by
      rintro isRoll hid ⟨k, u, us, t, rfl, hTs, hu, rfl⟩
      obtain ⟨hk31, x, hsd⟩ := hk k rfl
      unfold identsOpcode.pickRoll at hid
      split at hid
      · next top g1 hpop =>
        obtain ⟨s1, n1, v0, s0, rest0, m1, m2, m3⟩ := pop_spec g g1 top hpop
        obtain ⟨i0, r0, j0, z1, z2, z3, z4⟩ := hsd v0 s0 m1 m2
        rw [m3] at z1
        simp only [List.cons.injEq] at z1
        rw [← z1.1] at z2
        rw [z2] at hid
        obtain ⟨⟨ds, is1⟩, p1, hid⟩ := Option.bind_eq_some_iff.mp hid
        obtain ⟨⟨xs, is2⟩, p2, hid⟩ := Option.bind_eq_some_iff.mp hid
        obtain ⟨y, p3, hid⟩ := Option.map_eq_some_iff.mp hid
        simp only [Prod.mk.injEq] at hid
        obtain ⟨rfl, rfl⟩ := hid
        have p2 : pickIdents isRoll k g.active is1 = some (xs, is2) := by simpa using p2
        obtain ⟨i1, q1, _, _, q3, q4⟩ := (popIdents_spec p1).2 j i ha hj
        obtain ⟨i2, r1, z, r2, r3, r4, r5⟩ := (pickIdents_spec p2).2 j i1 ha q1
        obtain ⟨i3, w1, rfl⟩ := (pushIdent_spec y g.active is2).2 j i2 ha r1
        obtain ⟨t1, t2⟩ := ht
        rw [q3, hTs] at t1
        cases t1 with
        | cons t0 t1 =>
        have hz : Δ z = some t := by
          obtain ⟨e1, e2⟩ := List.forall₂_iff_get.mp t1
          obtain ⟨b1, b2⟩ := List.getElem?_eq_some_iff.mp r3
          obtain ⟨b3, b4⟩ := List.getElem?_eq_some_iff.mp hu
          have := e2 k b1 b3
          simp only [List.get_eq_getElem, b2, b4] at this
          exact this
        refine ⟨_, w1, .cons (same_last_static (hs (.moved xs) (by simp)) r2 p3 hz) ?_, ?_⟩
        · rw [r4]
          cases isRoll with
          | false => exact t1
          | true =>
            simp only [if_true, List.eraseIdx_eq_take_drop_succ]
            exact List.rel_append (List.forall₂_take k t1) (List.forall₂_drop (k + 1) t1)
        · rw [r5, q4]; exact t2
      · cases hid
    by_cases c1 : c = .OP_TOALTSTACK
    · subst c1
      simp only [identsOpcode] at hi
      obtain ⟨⟨xs, is1⟩, p1, hi⟩ := Option.bind_eq_some_iff.mp hi
      obtain ⟨x, p2, hi⟩ := Option.map_eq_some_iff.mp hi
      simp only [Prod.mk.injEq] at hi
      obtain ⟨rfl, rfl⟩ := hi
      obtain ⟨i1, q1, z, q2, q3, q4⟩ := (popIdents_spec p1).2 j i ha hj
      obtain ⟨i3, w1, rfl⟩ := (pushAltIdent_spec x g.active is1).2 j i1 ha q1
      obtain ⟨TS, TA⟩ := T
      obtain ⟨t1, t2⟩ := ht
      rw [q3] at t1
      cases t1 with
      | cons t0 t1 =>
        cases hT
        exact ⟨_, w1, t1, .cons (same_last_static (hs (.moved xs) (by simp)) q2 p2 t0) (by rw [q4]; exact t2)⟩
    by_cases c2 : c = .OP_FROMALTSTACK
    · subst c2
      simp only [identsOpcode] at hi
      obtain ⟨⟨xs, is1⟩, p1, hi⟩ := Option.bind_eq_some_iff.mp hi
      obtain ⟨x, p2, hi⟩ := Option.map_eq_some_iff.mp hi
      simp only [Prod.mk.injEq] at hi
      obtain ⟨rfl, rfl⟩ := hi
      obtain ⟨i1, q1, z, q2, q3, q4⟩ := (popAltIdents_spec p1).2 j i ha hj
      obtain ⟨i3, w1, rfl⟩ := (pushIdent_spec x g.active is1).2 j i1 ha q1
      obtain ⟨TS, TA⟩ := T
      obtain ⟨t1, t2⟩ := ht
      rw [q3] at t2
      cases t2 with
      | cons t0 t2 =>
        cases hT
        exact ⟨_, w1, .cons (same_last_static (hs (.moved xs) (by simp)) q2 p2 t0) (by rw [q4]; exact t1), t2⟩
    by_cases c3 : c = .OP_PICK
    · subst c3
      refine hpr false hi ?_
      simp only [leafTypes] at hT
      split at hT
      · next k u us hst =>
        obtain ⟨t, h1, rfl⟩ := Option.map_eq_some_iff.mp hT
        exact ⟨k, u, us, t, rfl, hst, h1, rfl⟩
      · cases hT
    by_cases c4 : c = .OP_ROLL
    · subst c4
      refine hpr true hi ?_
      simp only [leafTypes] at hT
      split at hT
      · next k u us hst =>
        obtain ⟨t, h1, rfl⟩ := Option.map_eq_some_iff.mp hT
        exact ⟨k, u, us, t, rfl, hst, h1, rfl⟩
      · cases hT
    have hi' : ((c.behavior).bind fun b => (popNIdents g.active b.inputTypes.length is).map fun (xss, is) =>
        let outs := (List.range (outputCount b out)).map fun i => freshName (g.nIdent + i)
        ([RustStmt.call outs c xss], outs.foldl (fun is x => pushIdent x g.active is) is)) =
        some (code, is') := by
      rw [← hi]
      unfold identsOpcode
      dsimp only
      split <;> simp_all
    have hT' : callTypes c T = some T' := by
      rw [← hT]
      unfold leafTypes
      dsimp only
      split <;> simp_all
    obtain ⟨b, _, hi'⟩ := Option.bind_eq_some_iff.mp hi'
    obtain ⟨⟨xss, is1⟩, p1, hi'⟩ := Option.map_eq_some_iff.mp hi'
    simp only [Prod.mk.injEq] at hi'
    obtain ⟨rfl, rfl⟩ := hi'
    exact call_static p1 (hc _ List.mem_cons_self) (hs _ List.mem_cons_self) ha hj ht hT'

theorem leaf_static (Δ : String → Option FTy) (tyOf : String → Option FTy) (k? : Option Nat)
    (l : Leaf) (g : Gen) (is is' : List Idents) (code : List RustStmt)
    (hk : ∀ k, k? = some k → SDepth g k) (hi : identsLeaf tyOf l g is = some (code, is'))
    (hc : ∀ s ∈ code, Consistent Δ s) (hs : ∀ s ∈ code, Same Δ s) :
    LeafStatic Δ k? l g.active is is' := by
  cases l with
  | push op name =>
    simp only [identsLeaf, Option.map_eq_some_iff, Prod.mk.injEq] at hi
    obtain ⟨t, h1, rfl, rfl⟩ := hi
    intro j i T T' ha hj ht hT
    simp only [leafTypes, Option.map_eq_some_iff] at hT
    obtain ⟨t', h2, rfl⟩ := hT
    have : t' = t := by
      have : pushedType op = pushType op := by cases op <;> rfl
      rw [this, h1] at h2
      cases h2; rfl
    subst this
    exact push_static (hc _ List.mem_cons_self) ha hj ht
  | opcode stmt => exact opcode_static Δ tyOf k? stmt g is is' code hk hi hc hs
  | forLoop => cases hi
  | rustIf => cases hi

/-- Names and types together are the names. -/
theorem typedAfter_names (cond : Predicate) (p : Prog) (known : List Atom) (k? : Option Nat) (N : Names) (T : Types)
    (r : Names × Types) (h : typedAfter cond p known k? N T = some r) :
    namesAfter cond p known k? N = some r.1 := by
  induction p generalizing known k? N T r with
  | nil => cases h; rfl
  | leaf l rest ih =>
    simp only [typedAfter] at h
    obtain ⟨N1, h1, h⟩ := Option.bind_eq_some_iff.mp h
    obtain ⟨T1, h2, h⟩ := Option.bind_eq_some_iff.mp h
    simp only [namesAfter, h1, Option.bind_some]
    exact ih _ _ _ _ _ h
  | scriptIf i t e el en rest iht ihe ihr =>
    simp only [typedAfter] at h
    split at h
    · next x n ns t0 ts hx hn ht =>
      obtain ⟨r1, h1, h⟩ := Option.bind_eq_some_iff.mp h
      simp only [namesAfter, hx, hn]
      refine Option.bind_eq_some_iff.mpr ⟨r1.1, ?_, ihr _ _ _ _ _ h⟩
      cases c1 : cond.holds (known ++ [Atom.mk x true]) <;> cases c2 : cond.holds (known ++ [Atom.mk x false]) <;>
        rw [c1, c2] at h1 <;> dsimp only at h1 ⊢
      · cases h1
      · exact ihe _ _ _ _ _ h1
      · exact iht _ _ _ _ _ h1
      · split at h1
        · next heq =>
          rw [iht _ _ _ _ _ (heq.trans h1), ihe _ _ _ _ _ h1, if_pos rfl]
        · cases h1
    · cases h

/-- The variables of a variant have these types. -/
def TracksT (Δ : String → Option FTy) (v : String) (cond : Predicate) (g : Gen) (is : List Idents) (T : Types) : Prop :=
  ∃ (j : Nat) (i : Idents), (signature g)[j]? = some (v, cond) ∧ is[j]? = some i ∧ HasTypes Δ i T

theorem if_static {tyOf : String → Option FTy} {Δ : String → Option FTy} {stmt : OpcodeStmt}
    (hh : stmt.head = .op .OP_IF) {g : Gen} {is is' : List Idents} {code : List RustStmt}
    (h : identsOpcode tyOf stmt g is = some (code, is')) (hc : ∀ s ∈ code, Consistent Δ s)
    {j : Nat} {i : Idents} {t : FTy} {ts ta : List FTy} (ha : g.active[j]? = some true) (hj : is[j]? = some i)
    (ht : HasTypes Δ i ⟨t :: ts, ta⟩) : ∃ i1, is'[j]? = some i1 ∧ HasTypes Δ i1 ⟨ts, ta⟩ := by
  obtain ⟨b, outs, xss, is1, hb, hp, rfl, rfl⟩ := identsOther hh (.inl rfl) h
  have := outs_nil (.inl rfl) (hc _ List.mem_cons_self)
  subst this
  cases hb
  simp only [List.foldl_nil]
  simp only [popNIdents, Option.bind_eq_some_iff, Option.map_eq_some_iff, List.length_cons, List.length_nil] at hp
  obtain ⟨⟨xs, is2⟩, h1, ⟨ys, is3⟩, h2, h3⟩ := hp
  cases h2
  cases h3
  obtain ⟨i1, e1, x, e2, e3, e4⟩ := (popIdents_spec h1).2 j i ha hj
  obtain ⟨t1, t2⟩ := ht
  rw [e3] at t1
  cases t1 with
  | cons a b => exact ⟨i1, e1, b, by rw [e4]; exact t2⟩

theorem merge_get {g : Gen} {j : Nat} {v : String} {cond : Predicate} (hsig : (signature g)[j]? = some (v, cond))
    {a1 a2 : List Atom} {is3 is5 : List Idents} {it ie : Idents} (h3 : is3[j]? = some it) (h5 : is5[j]? = some ie) :
    (mergeIdents (thenOnly a1 a2 g.states) is3 is5)[j]? =
      some (if cond.holds a1 && !cond.holds a2 then it else ie) := by
  refine mergeIdents_get _ _ _ j _ it ie ?_ h3 h5
  unfold thenOnly
  unfold signature at hsig
  rw [List.getElem?_map] at hsig ⊢
  obtain ⟨pp, hp1, hp2⟩ := Option.map_eq_some_iff.mp hsig
  rw [hp1]
  cases hp2
  rfl

theorem get_of_length {α β : Type} {l : List α} {l' : List β} (h : l'.length = l.length) {j : Nat} {a : α}
    (hj : l[j]? = some a) : ∃ b, l'[j]? = some b := by
  obtain ⟨q, _⟩ := List.getElem?_eq_some_iff.mp hj
  exact ⟨_, List.getElem?_eq_getElem (by rw [h]; exact q)⟩

set_option maxHeartbeats 1000000 in
theorem prog_static (Δ : String → Option FTy) (tyOf : String → Option FTy) (p : Prog)
    (k? : Option Nat) (g g' : Gen) (e : List Emit) (is is' : List Idents) (code : List RustStmt)
    (hwn : WellNested p) (hok : progOk k?.isSome p = true) (hg : GoodGen g)
    (hkeys : (g.states.map Prod.fst).Nodup)
    (hk : ∀ k, k? = some k → SDepth g k) (h : runProg p g = .ok (e, g'))
    (hi : identsProg tyOf p g is = some (code, is'))
    (hc : ∀ s ∈ code, Consistent Δ s) (hs : ∀ s ∈ code, Same Δ s) :
    ∀ v cond N T r, TracksN v cond g N → TracksT Δ v cond g is T → cond.holds g.atoms = true →
      typedAfter cond p g.atoms k? N T = some r → TracksT Δ v cond g' is' r.2 := by
  induction p generalizing k? g g' e is is' code with
  | nil =>
    cases h
    cases hi
    intro v cond N T r _ ht _ hr
    cases hr
    exact ht
  | leaf l rest ih =>
    obtain ⟨w1, w2, w3, w4⟩ := hwn
    simp only [progOk, Bool.and_eq_true] at hok
    simp only [runProg] at h
    obtain ⟨⟨e1, g1⟩, h1, h⟩ := Res.bind_eq_ok.mp h
    obtain ⟨⟨e2, g2⟩, h2, h⟩ := Res.bind_eq_ok.mp h
    cases h
    simp only [identsProg, h1, ok?, Option.bind_some, Option.bind_eq_some_iff, Option.map_eq_some_iff] at hi
    obtain ⟨⟨c1, is1⟩, hi1, ⟨c2, is2⟩, hi2, hi⟩ := hi
    cases hi
    dsimp only at h2 hi2 hc hs ⊢
    obtain ⟨k'?, a1, a2, a3, a4, a5, a6, a7⟩ := leaf_sim anyVm k? l g g1 e1 hg hk w1 w2 w3 hok.1 h1
    have z := leaf_static Δ tyOf k? l g is is1 c1 hk hi1
      (fun s h => hc s (List.mem_append_left _ h)) (fun s h => hs s (List.mem_append_left _ h))
    rintro v cond N T r hN ⟨j, i, t1, t2, t3⟩ hh hr
    simp only [typedAfter] at hr
    obtain ⟨N1, hN1, hr⟩ := Option.bind_eq_some_iff.mp hr
    obtain ⟨T1, hT1, hr⟩ := Option.bind_eq_some_iff.mp hr
    obtain ⟨q1, q2, q3⟩ := leaf_names k? l g g1 e1 hg hk w1 w2 w3 hok.1 h1 v cond N N1 hN hh hN1
    obtain ⟨i1, f1, f2⟩ := z j i T T1 (active_of t1 hh) t2 t3 hT1
    exact ih (depthLeft l N) g1 g2 e2 is1 is2 c2 w4 (by rw [q2]; exact hok.2) a3
      (by rw [keys_of_signature a1]; exact hkeys) q3 h2 hi2
      (fun s h => hc s (List.mem_append_right _ h)) (fun s h => hs s (List.mem_append_right _ h))
      v cond N1 T1 r q1 ⟨j, i1, by rw [a1]; exact t1, f1, f2⟩ (by rw [a2]; exact hh) (by rw [a2]; exact hr)
  | scriptIf ifOp thenStmts elseOp elseStmts endifOp rest iht ihe ihr =>
    obtain ⟨w1, w2, w3, w4, w5, w6, w7⟩ := hwn
    simp only [progOk, Bool.and_eq_true] at hok
    obtain ⟨⟨⟨ok1, ok2⟩, ok3⟩, ok4⟩ := hok
    simp only [runProg] at h
    obtain ⟨⟨e1, g1⟩, h1, h⟩ := Res.bind_eq_ok.mp h
    obtain ⟨x, hx, h⟩ := Res.bind_eq_ok.mp h
    obtain ⟨⟨e2, gt⟩, h2, h⟩ := Res.bind_eq_ok.mp h
    obtain ⟨⟨e3, gt'⟩, h3, h⟩ := Res.bind_eq_ok.mp h
    obtain ⟨⟨e4, ge⟩, h4, h⟩ := Res.bind_eq_ok.mp h
    obtain ⟨⟨e5, ge'⟩, h5, h⟩ := Res.bind_eq_ok.mp h
    obtain ⟨states, h6, h⟩ := Res.bind_eq_ok.mp h
    obtain ⟨⟨e6, g6⟩, h7, h⟩ := Res.bind_eq_ok.mp h
    cases h
    dsimp only at h2 h3 h4 h5 h6 h7
    -- the variables
    simp only [identsProg, h1, hx, h2, h3, h4, h5, h6, ok?, Option.bind_some, Option.bind_eq_some_iff,
      Option.map_eq_some_iff] at hi
    obtain ⟨⟨c1, is1⟩, hi1, ⟨c2, is2⟩, hi2, ⟨c3, is3⟩, hi3, ⟨c4, is4⟩, hi4, ⟨c5, is5⟩, hi5, ⟨c6, is6⟩, hi6, hi⟩ := hi
    cases hi
    dsimp only at hi1 hi2 hi3 hi4 hi5 hi6 hc hs ⊢
    have hmem : ∀ s, (s ∈ c1 ∨ s ∈ c2 ∨ s ∈ c3 ∨ s ∈ c4 ∨ s ∈ c5 ∨ s ∈ c6) → Consistent Δ s ∧ Same Δ s := by
      intro s h
      have : s ∈ c1 ++ c2 ++ c3 ++ c4 ++ c5 ++ c6 := by
        simp only [List.mem_append]
        tauto
      exact ⟨hc s this, hs s this⟩
    obtain ⟨i1, i2, i3, item, i4, i5⟩ := if_spec ifOp w1 g g1 e1 x hg h1 hx
    have k1 : (g1.states.map Prod.fst).Nodup := by rw [keys_of_signature i5.signature]; exact hkeys
    obtain ⟨t1, t2, t3, tst, ct, simt⟩ := prog_sim anyVm thenStmts none
      { g1 with atoms := g1.atoms ++ [⟨x, true⟩] } gt e2 w5 ok2 i3 k1 (by simp) h2
    obtain ⟨lt, _⟩ := prog_types anyVm Δ tyOf thenStmts none { g1 with atoms := g1.atoms ++ [⟨x, true⟩] } gt e2 is1 is2 c2
      w5 ok2 i3 k1 (by simp) h2 hi2 (fun s h => (hmem s (by tauto)).1) (fun s h => (hmem s (by tauto)).2)
    have rt := iht none { g1 with atoms := g1.atoms ++ [⟨x, true⟩] } gt e2 is1 is2 c2 w5 ok2
      i3 k1 (by simp) h2 hi2 (fun s h => (hmem s (by tauto)).1) (fun s h => (hmem s (by tauto)).2)
    obtain ⟨l1, l2, l3⟩ := else_code elseOp gt gt' e3 w2 h3
    obtain ⟨u1, u2, u3, tse, ce, sime⟩ := prog_sim anyVm elseStmts none
      { g1 with atoms := g1.atoms ++ [⟨x, false⟩], nIdent := gt'.nIdent } ge e4 w6 ok3 i3 k1 (by simp) h4
    obtain ⟨le, _⟩ := prog_types anyVm Δ tyOf elseStmts none
      { g1 with atoms := g1.atoms ++ [⟨x, false⟩], nIdent := gt'.nIdent }
      ge e4 is1 is4 c4 w6 ok3 i3 k1 (by simp) h4 hi4 (fun s h => (hmem s (by tauto)).1)
      (fun s h => (hmem s (by tauto)).2)
    have re := ihe none { g1 with atoms := g1.atoms ++ [⟨x, false⟩], nIdent := gt'.nIdent }
      ge e4 is1 is4 c4 w6 ok3 i3 k1 (by simp) h4 hi4 (fun s h => (hmem s (by tauto)).1)
      (fun s h => (hmem s (by tauto)).2)
    have lst := leaves_sound thenStmts none { g1 with atoms := g1.atoms ++ [⟨x, true⟩] } gt e2 w5 ok2
      i3 k1 (by simp) h2
    have lse := leaves_sound elseStmts none
      { g1 with atoms := g1.atoms ++ [⟨x, false⟩], nIdent := gt'.nIdent } ge e4 w6 ok3 i3 k1 (by simp) h4
    have hen : endifOp.head = .op .OP_ENDIF := by
      unfold closes at w4
      split at w4
      · next q => cases q; rfl
      · cases w4
    obtain ⟨n1, n2, n3⟩ := bracket_spec .OP_ENDIF (.inr rfl) endifOp hen ge ge' e5 h5
    have hsig : signature gt' = signature ge' := by
      have p1 : signature gt' = signature gt := by simp only [signature, l1]
      have p2 : signature ge' = signature ge := by simp only [signature, n2]
      rw [p1, p2, t1, u1]
      rfl
    have hsige : signature ge' = signature g1 := by
      have p2 : signature ge' = signature ge := by simp only [signature, n2]
      rw [p2, u1]
      rfl
    have ke : (ge'.states.map Prod.fst).Nodup := by rw [keys_of_signature hsige]; exact k1
    obtain ⟨m1, m2, m3, m4⟩ := merge_spec gt' ge' _ _ states hsig ke h6
    have gm : GoodGen { ge' with states := states, atoms := g1.atoms } := by
      intro p hp
      rcases m2 p hp with hp | hp
      · rw [l1] at hp; exact t3 p hp
      · rw [n2] at hp; exact u3 p hp
    have sigm : signature { ge' with states := states, atoms := g1.atoms } = signature g := by
      rw [← i5.signature, ← hsige]
      exact m1
    have rr := ihr none { ge' with states := states, atoms := g1.atoms } g6 e6 _ is6 c6 w7 ok4 gm
      (by rw [keys_of_signature sigm]; exact hkeys) (by simp) h7 hi6 (fun s h => (hmem s (by tauto)).1)
      (fun s h => (hmem s (by tauto)).2)
    -- the brackets
    have hif : ifOp.head = .op .OP_IF := by
      unfold opens at w1
      split at w1
      · next q => cases q; rfl
      · next q =>
        cases q
        exfalso
        have : e1.map Emit.op = [.code .OP_NOTIF] := by
          simp only [runOpcode] at h1
          exact runOther_emit (h1 : runOther .OP_NOTIF _ g = .ok (e1, g1))
        rw [this] at i1
        cases i1
      · cases w1
    have f3 : is3 = is2 := by
      cases elseOp with
      | none => cases hi3; rfl
      | some o =>
        have hh : o.head = .op .OP_ELSE := by
          have := w2 o rfl
          unfold isElse at this
          split at this
          · next q => cases q; rfl
          · cases this
        exact close_types (.inl rfl) hh hi3 (fun s h => (hmem s (by tauto)).1)
    have f5 : is5 = is4 := close_types (.inr rfl) hen hi5 (fun s h => (hmem s (by tauto)).1)
    subst f3 f5
    rintro v cond N T r ⟨s, hm, hcd, hst, hsa⟩ ⟨j, i, j1, j2, j3⟩ hh hr
    obtain ⟨s1, hm1, hc1, hP, _⟩ := i5.mem hm
    obtain ⟨it, z1, z2, z3⟩ := hP (by rw [hcd]; exact hh)
    have hat : g1.atoms = g.atoms := i5.1
    obtain ⟨NS, NA⟩ := N
    obtain ⟨TS, TA⟩ := T
    simp only [typedAfter, i2] at hr
    cases NS with
    | nil => cases hr
    | cons n0 ns =>
    cases TS with
    | nil => cases hr
    | cons t0 ts =>
    dsimp only at hr hst hsa
    obtain ⟨ia, y1, y2⟩ := if_static hif hi1 (fun s h => (hmem s (by tauto)).1) (active_of j1 hh) j2 j3
    have hjs : (signature g1)[j]? = some (v, cond) := by rw [i5.signature]; exact j1
    have hN1 : TracksN v cond g1 ⟨ns, NA⟩ := by
      rw [z1] at hst
      simp only [List.map_cons, List.cons.injEq] at hst
      exact ⟨s1, hm1, hc1.trans hcd, hst.2, by rw [z2]; exact hsa⟩
    obtain ⟨r1, hr1, hr⟩ := Option.bind_eq_some_iff.mp hr
    obtain ⟨ix, x2⟩ := get_of_length lt y1
    obtain ⟨iy, x3⟩ := get_of_length le y1
    -- the branches
    have bt : cond.holds (g.atoms ++ [⟨x, true⟩]) = true →
        typedAfter cond thenStmts (g.atoms ++ [⟨x, true⟩]) none ⟨ns, NA⟩ ⟨ts, TA⟩ = some r1 →
        HasTypes Δ ix r1.2 ∧ TracksN v cond gt r1.1 := by
      intro c1 c2
      obtain ⟨j', i', v1, v2, v3⟩ := rt v cond ⟨ns, NA⟩ ⟨ts, TA⟩ r1 hN1 ⟨j, ia, hjs, y1, y2⟩ (by rw [hat]; exact c1)
        (by dsimp only; rw [hat]; exact c2)
      rw [t1] at v1
      have := sig_index k1 hjs v1
      subst this
      rw [x2] at v2
      cases v2
      exact ⟨v3, lst v cond _ _ hN1 (by rw [hat]; exact c1)
        (typedAfter_names _ _ _ _ _ _ _ (by dsimp only; rw [hat]; exact c2))⟩
    have be : cond.holds (g.atoms ++ [⟨x, false⟩]) = true →
        typedAfter cond elseStmts (g.atoms ++ [⟨x, false⟩]) none ⟨ns, NA⟩ ⟨ts, TA⟩ = some r1 →
        HasTypes Δ iy r1.2 ∧ TracksN v cond ge r1.1 := by
      intro c1 c2
      obtain ⟨j', i', v1, v2, v3⟩ := re v cond ⟨ns, NA⟩ ⟨ts, TA⟩ r1 hN1 ⟨j, ia, hjs, y1, y2⟩
        (by dsimp only; rw [hat]; exact c1) (by dsimp only; rw [hat]; exact c2)
      rw [u1] at v1
      have := sig_index k1 hjs v1
      subst this
      rw [x3] at v2
      cases v2
      exact ⟨v3, lse v cond _ _ hN1 (by dsimp only; rw [hat]; exact c1)
        (typedAfter_names _ _ _ _ _ _ _ (by dsimp only; rw [hat]; exact c2))⟩
    have hmg := merge_get (a1 := g1.atoms ++ [⟨x, true⟩]) (a2 := g1.atoms ++ [⟨x, false⟩])
      (show (signature ge')[j]? = some (v, cond) by rw [hsige]; exact hjs) x2 x3
    have fin : ∀ i', (mergeIdents (thenOnly (g1.atoms ++ [⟨x, true⟩]) (g1.atoms ++ [⟨x, false⟩]) ge'.states) is3 is5)[j]? =
        some i' → HasTypes Δ i' r1.2 → TracksN v cond { ge' with states := states, atoms := g1.atoms } r1.1 →
        TracksT Δ v cond g6 is6 r.2 := by
      intro i' q1 q2 q3
      exact rr v cond r1.1 r1.2 r q3 ⟨j, i', by rw [sigm]; exact j1, q1, q2⟩ (by dsimp only; rw [hat]; exact hh)
        (by dsimp only; rw [hat]; exact hr)
    rw [hat] at hmg fin
    have celse : cond.holds (g.atoms ++ [⟨x, false⟩]) = true →
        typedAfter cond elseStmts (g.atoms ++ [⟨x, false⟩]) none ⟨ns, NA⟩ ⟨ts, TA⟩ = some r1 →
        TracksT Δ v cond g6 is6 r.2 := by
      intro c2 c3
      obtain ⟨q1, s3, hm3, hc3', hs3, ha3⟩ := be c2 c3
      rw [c2] at hmg
      refine fin iy (by simpa using hmg) q1 ?_
      exact ⟨s3, m4 v s3 (by rw [n2]; exact hm3) (by rw [hc3', hat]; exact c2), hc3', hs3, ha3⟩
    cases c1 : cond.holds (g.atoms ++ [Atom.mk x true]) <;> cases c2 : cond.holds (g.atoms ++ [Atom.mk x false]) <;>
      rw [c1, c2] at hr1 <;> dsimp only at hr1
    · cases hr1
    · exact celse c2 hr1
    · obtain ⟨q1, s3, hm3, hc3', hs3, ha3⟩ := bt c1 hr1
      rw [c1, c2] at hmg
      refine fin ix (by simpa using hmg) q1 ?_
      exact ⟨s3, m3 v s3 (by rw [l1]; exact hm3) (by rw [hc3', hat]; exact c1)
        (by rw [hc3', hat]; exact c2), hc3', hs3, ha3⟩
    · split at hr1
      · exact celse c2 hr1
      · cases hr1

/-- The variables of a variant have these types, and so have the items. -/
def TracksB (Δ : String → Option FTy) (v : String) (cond : Predicate) (g : Gen) (is : List Idents) (L : LState)
    (T : Types) : Prop :=
  ∃ (j : Nat) (i : Idents), (signature g)[j]? = some (v, cond) ∧ is[j]? = some i ∧ Typed Δ i L.erase ∧ HasTypes Δ i T

set_option maxHeartbeats 2000000 in
theorem prog_typed_balanced (env : Vm.Env) (Δ : String → Option FTy) (tyOf : String → Option FTy) (p : Prog)
    (k? : Option Nat) (g g' : Gen) (e : List Emit) (is is' : List Idents) (code : List RustStmt)
    (hwn : WellNested p) (hok : progOk k?.isSome p = true) (hg : GoodGen g)
    (hkeys : (g.states.map Prod.fst).Nodup)
    (hk : ∀ k, k? = some k → SDepth g k) (h : runProg p g = .ok (e, g'))
    (hi : identsProg tyOf p g is = some (code, is'))
    (hc : ∀ s ∈ code, Consistent Δ s) (hs : ∀ s ∈ code, Same Δ s) :
    ∀ v cond L T r, Tracks v cond g L → TracksB Δ v cond g is L T → cond.holds g.atoms = true →
      (∀ k, k? = some k → DDepth L k) → typedAfter cond p g.atoms k? L.names T = some r →
      Obeys env cond p g.atoms L →
      TypesOk env p L ∧ ∀ L', exec env p L = .ok L' → TracksB Δ v cond g' is' L' r.2 := by
  induction p generalizing k? g g' e is is' code with
  | nil =>
    cases h
    cases hi
    intro v cond L T r _ ht _ _ hr _
    cases hr
    refine ⟨trivial, fun L' hL => ?_⟩
    cases hL
    exact ht
  | leaf l rest ih =>
    obtain ⟨w1, w2, w3, w4⟩ := hwn
    simp only [progOk, Bool.and_eq_true] at hok
    simp only [runProg] at h
    obtain ⟨⟨e1, g1⟩, h1, h⟩ := Res.bind_eq_ok.mp h
    obtain ⟨⟨e2, g2⟩, h2, h⟩ := Res.bind_eq_ok.mp h
    cases h
    simp only [identsProg, h1, ok?, Option.bind_some, Option.bind_eq_some_iff, Option.map_eq_some_iff] at hi
    obtain ⟨⟨c1, is1⟩, hi1, ⟨c2, is2⟩, hi2, hi⟩ := hi
    cases hi
    dsimp only at h2 hi2 hc hs ⊢
    obtain ⟨k'?, a1, a2, a3, a4, a5, a6, a7⟩ := leaf_sim env k? l g g1 e1 hg hk w1 w2 w3 hok.1 h1
    obtain ⟨z1, z2⟩ := leaf_types env Δ tyOf k? l g g1 e1 is is1 c1 hk hok.1 h1 hi1
      (fun s h => hc s (List.mem_append_left _ h)) (fun s h => hs s (List.mem_append_left _ h))
    have z := leaf_static Δ tyOf k? l g is is1 c1 hk hi1
      (fun s h => hc s (List.mem_append_left _ h)) (fun s h => hs s (List.mem_append_left _ h))
    rintro v cond L T r ht ⟨j, i, t1, t2, t3, t4⟩ hh hdd hr hob
    simp only [typedAfter] at hr
    obtain ⟨N1, hN1, hr⟩ := Option.bind_eq_some_iff.mp hr
    obtain ⟨T1, hT1, hr⟩ := Option.bind_eq_some_iff.mp hr
    obtain ⟨n1, n2, n3⟩ := leaf_names k? l g g1 e1 hg hk w1 w2 w3 hok.1 h1 v cond _ N1
      (tracksN_names.mp ht) hh hN1
    have k1 : (g1.states.map Prod.fst).Nodup := by rw [keys_of_signature a1]; exact hkeys
    have hl := a7 v cond L ht hh hdd
    obtain ⟨q1, q2⟩ := z2 j i L.erase (active_of t1 hh) t2 t3 (by
      intro k hk
      obtain ⟨top, st, d1, d2⟩ := hdd k hk
      exact ⟨_, by rw [erase_stack d1, d2]⟩)
    obtain ⟨ib, f3, f4⟩ := z j i T T1 (active_of t1 hh) t2 t4 hT1
    have hlt : leafTyped env l L := leafTyped_of q1 (by
      intro hf; rw [hf] at hl; exact hl)
    simp only [TypesOk, exec]
    cases hx : Named.leaf env l L with
    | ok L1 =>
      rw [hx] at hl
      obtain ⟨r1, r2, r3⟩ := hl
      obtain ⟨ia, f1, f2⟩ := q2 _ r2
      rw [f1] at f3
      cases f3
      have hname := tracks_names_unique k1 r1 n1
      obtain ⟨y1, y2⟩ := ih (depthLeft l L.names) g1 g2 e2 is1 is2 c2 w4 (by rw [n2]; exact hok.2) a3 k1 n3 h2 hi2
        (fun s h => hc s (List.mem_append_right _ h)) (fun s h => hs s (List.mem_append_right _ h))
        v cond L1 T1 r r1 ⟨j, _, by rw [a1]; exact t1, f1, f2, f4⟩ (by rw [a2]; exact hh)
        (fun k hk => depthLeft_ddepth hx hk) (by rw [a2, hname]; exact hr) (by rw [a2]; exact hob L1 hx)
      exact ⟨⟨hlt, fun s' hs' => by cases hs'; exact y1⟩, fun L' hL => y2 L' hL⟩
    | _ => exact ⟨⟨hlt, fun s' hs' => nomatch hs'⟩, fun L' hL => nomatch hL⟩
  | scriptIf ifOp thenStmts elseOp elseStmts endifOp rest iht ihe ihr =>
    obtain ⟨w1, w2, w3, w4, w5, w6, w7⟩ := hwn
    simp only [progOk, Bool.and_eq_true] at hok
    obtain ⟨⟨⟨ok1, ok2⟩, ok3⟩, ok4⟩ := hok
    simp only [runProg] at h
    obtain ⟨⟨e1, g1⟩, h1, h⟩ := Res.bind_eq_ok.mp h
    obtain ⟨x, hx, h⟩ := Res.bind_eq_ok.mp h
    obtain ⟨⟨e2, gt⟩, h2, h⟩ := Res.bind_eq_ok.mp h
    obtain ⟨⟨e3, gt'⟩, h3, h⟩ := Res.bind_eq_ok.mp h
    obtain ⟨⟨e4, ge⟩, h4, h⟩ := Res.bind_eq_ok.mp h
    obtain ⟨⟨e5, ge'⟩, h5, h⟩ := Res.bind_eq_ok.mp h
    obtain ⟨states, h6, h⟩ := Res.bind_eq_ok.mp h
    obtain ⟨⟨e6, g6⟩, h7, h⟩ := Res.bind_eq_ok.mp h
    cases h
    dsimp only at h2 h3 h4 h5 h6 h7
    -- the variables
    simp only [identsProg, h1, hx, h2, h3, h4, h5, h6, ok?, Option.bind_some, Option.bind_eq_some_iff,
      Option.map_eq_some_iff] at hi
    obtain ⟨⟨c1, is1⟩, hi1, ⟨c2, is2⟩, hi2, ⟨c3, is3⟩, hi3, ⟨c4, is4⟩, hi4, ⟨c5, is5⟩, hi5, ⟨c6, is6⟩, hi6, hi⟩ := hi
    cases hi
    dsimp only at hi1 hi2 hi3 hi4 hi5 hi6 hc hs ⊢
    have hmem : ∀ s, (s ∈ c1 ∨ s ∈ c2 ∨ s ∈ c3 ∨ s ∈ c4 ∨ s ∈ c5 ∨ s ∈ c6) → Consistent Δ s ∧ Same Δ s := by
      intro s h
      have : s ∈ c1 ++ c2 ++ c3 ++ c4 ++ c5 ++ c6 := by
        simp only [List.mem_append]
        tauto
      exact ⟨hc s this, hs s this⟩
    obtain ⟨i1, i2, i3, item, i4, i5⟩ := if_spec ifOp w1 g g1 e1 x hg h1 hx
    have k1 : (g1.states.map Prod.fst).Nodup := by rw [keys_of_signature i5.signature]; exact hkeys
    obtain ⟨t1, t2, t3, tst, ct, simt⟩ := prog_sim env thenStmts none
      { g1 with atoms := g1.atoms ++ [⟨x, true⟩] } gt e2 w5 ok2 i3 k1 (by simp) h2
    obtain ⟨lt, _⟩ := prog_types anyVm Δ tyOf thenStmts none { g1 with atoms := g1.atoms ++ [⟨x, true⟩] } gt e2 is1 is2 c2
      w5 ok2 i3 k1 (by simp) h2 hi2 (fun s h => (hmem s (by tauto)).1) (fun s h => (hmem s (by tauto)).2)
    have rt := iht none { g1 with atoms := g1.atoms ++ [⟨x, true⟩] } gt e2 is1 is2 c2 w5 ok2
      i3 k1 (by simp) h2 hi2 (fun s h => (hmem s (by tauto)).1) (fun s h => (hmem s (by tauto)).2)
    obtain ⟨l1, l2, l3⟩ := else_code elseOp gt gt' e3 w2 h3
    obtain ⟨u1, u2, u3, tse, ce, sime⟩ := prog_sim env elseStmts none
      { g1 with atoms := g1.atoms ++ [⟨x, false⟩], nIdent := gt'.nIdent } ge e4 w6 ok3 i3 k1 (by simp) h4
    obtain ⟨le, _⟩ := prog_types anyVm Δ tyOf elseStmts none
      { g1 with atoms := g1.atoms ++ [⟨x, false⟩], nIdent := gt'.nIdent }
      ge e4 is1 is4 c4 w6 ok3 i3 k1 (by simp) h4 hi4 (fun s h => (hmem s (by tauto)).1)
      (fun s h => (hmem s (by tauto)).2)
    have re := ihe none { g1 with atoms := g1.atoms ++ [⟨x, false⟩], nIdent := gt'.nIdent }
      ge e4 is1 is4 c4 w6 ok3 i3 k1 (by simp) h4 hi4 (fun s h => (hmem s (by tauto)).1)
      (fun s h => (hmem s (by tauto)).2)
    have st := prog_static Δ tyOf thenStmts none { g1 with atoms := g1.atoms ++ [⟨x, true⟩] } gt e2 is1 is2 c2 w5 ok2
      i3 k1 (by simp) h2 hi2 (fun s h => (hmem s (by tauto)).1) (fun s h => (hmem s (by tauto)).2)
    have se := prog_static Δ tyOf elseStmts none { g1 with atoms := g1.atoms ++ [⟨x, false⟩], nIdent := gt'.nIdent }
      ge e4 is1 is4 c4 w6 ok3 i3 k1 (by simp) h4 hi4 (fun s h => (hmem s (by tauto)).1)
      (fun s h => (hmem s (by tauto)).2)
    have pbt := prog_balanced env thenStmts none { g1 with atoms := g1.atoms ++ [⟨x, true⟩] } gt e2 w5 ok2
      i3 k1 (by simp) h2
    have pbe := prog_balanced env elseStmts none
      { g1 with atoms := g1.atoms ++ [⟨x, false⟩], nIdent := gt'.nIdent } ge e4 w6 ok3 i3 k1 (by simp) h4
    have lst := leaves_sound thenStmts none { g1 with atoms := g1.atoms ++ [⟨x, true⟩] } gt e2 w5 ok2
      i3 k1 (by simp) h2
    have lse := leaves_sound elseStmts none
      { g1 with atoms := g1.atoms ++ [⟨x, false⟩], nIdent := gt'.nIdent } ge e4 w6 ok3 i3 k1 (by simp) h4
    have hen : endifOp.head = .op .OP_ENDIF := by
      unfold closes at w4
      split at w4
      · next q => cases q; rfl
      · cases w4
    obtain ⟨n1, n2, n3⟩ := bracket_spec .OP_ENDIF (.inr rfl) endifOp hen ge ge' e5 h5
    have hsig : signature gt' = signature ge' := by
      have p1 : signature gt' = signature gt := by simp only [signature, l1]
      have p2 : signature ge' = signature ge := by simp only [signature, n2]
      rw [p1, p2, t1, u1]
      rfl
    have hsige : signature ge' = signature g1 := by
      have p2 : signature ge' = signature ge := by simp only [signature, n2]
      rw [p2, u1]
      rfl
    have ke : (ge'.states.map Prod.fst).Nodup := by rw [keys_of_signature hsige]; exact k1
    obtain ⟨m1, m2, m3, m4⟩ := merge_spec gt' ge' _ _ states hsig ke h6
    have gm : GoodGen { ge' with states := states, atoms := g1.atoms } := by
      intro p hp
      rcases m2 p hp with hp | hp
      · rw [l1] at hp; exact t3 p hp
      · rw [n2] at hp; exact u3 p hp
    have sigm : signature { ge' with states := states, atoms := g1.atoms } = signature g := by
      rw [← i5.signature, ← hsige]
      exact m1
    have rr := ihr none { ge' with states := states, atoms := g1.atoms } g6 e6 _ is6 c6 w7 ok4 gm
      (by rw [keys_of_signature sigm]; exact hkeys) (by simp) h7 hi6 (fun s h => (hmem s (by tauto)).1)
      (fun s h => (hmem s (by tauto)).2)
    -- the brackets
    have hif : ifOp.head = .op .OP_IF := by
      unfold opens at w1
      split at w1
      · next q => cases q; rfl
      · next q =>
        cases q
        exfalso
        have : e1.map Emit.op = [.code .OP_NOTIF] := by
          simp only [runOpcode] at h1
          exact runOther_emit (h1 : runOther .OP_NOTIF _ g = .ok (e1, g1))
        rw [this] at i1
        cases i1
      · cases w1
    have f3 : is3 = is2 := by
      cases elseOp with
      | none => cases hi3; rfl
      | some o =>
        have hh : o.head = .op .OP_ELSE := by
          have := w2 o rfl
          unfold isElse at this
          split at this
          · next q => cases q; rfl
          · cases this
        exact close_types (.inl rfl) hh hi3 (fun s h => (hmem s (by tauto)).1)
    have f5 : is5 = is4 := close_types (.inr rfl) hen hi5 (fun s h => (hmem s (by tauto)).1)
    subst f3 f5
    obtain ⟨f1, f2⟩ := if_types hif hi1 (fun s h => (hmem s (by tauto)).1)
    rintro v cond L T r ⟨s, hm, hcd, hst, hsa⟩ ⟨j, i, j1, j2, j3, j4⟩ hh _ hr hob
    obtain ⟨b, stv, ia, y1, y2, y3⟩ := f2 j i L.erase (active_of j1 hh) j2 j3
    obtain ⟨s1, hm1, hc1, hP, _⟩ := i5.mem hm
    obtain ⟨it, z1, z2, z3⟩ := hP (by rw [hcd]; exact hh)
    rw [z1] at hst
    have hat : g1.atoms = g.atoms := i5.1
    cases hL : L.stack with
    | nil => rw [hL] at hst; simp at hst
    | cons top st0 =>
    have hnm : L.names = ⟨top.name :: st0.map LItem.name, L.alt.map LItem.name⟩ := by
      simp [LState.names, hL]
    rw [hnm] at hr
    obtain ⟨TS, TA⟩ := T
    simp only [typedAfter, i2] at hr
    cases TS with
    | nil => cases hr
    | cons t0 ts =>
    dsimp only at hr
    have hnm1 : (⟨st0.map LItem.name, L.alt.map LItem.name⟩ : Names) = LState.names ⟨st0, L.alt⟩ := rfl
    rw [hnm1] at hr
    rw [hL] at hst
    simp only [List.map_cons, List.cons.injEq] at hst
    have hob := hob x top st0 i2 hL (by rw [← hst.1, z3]; exact i4)
    have hT : Tracks v cond g1 ⟨st0, L.alt⟩ := ⟨s1, hm1, hc1.trans hcd, hst.2, by rw [z2]; exact hsa⟩
    have hN1 := tracksN_names.mp hT
    have hjs : (signature g1)[j]? = some (v, cond) := by rw [i5.signature]; exact j1
    have y3 : Typed Δ ia (LState.erase ⟨st0, L.alt⟩) := by
      rw [erase_stack hL] at y1 y3
      simp only [List.cons.injEq] at y1
      rw [← y1.2] at y3
      exact y3
    obtain ⟨ib, y4, y5⟩ := if_static hif hi1 (fun s h => (hmem s (by tauto)).1) (active_of j1 hh) j2 j4
    rw [y2, Option.some.injEq] at y4
    rw [← y4] at y5
    obtain ⟨r1, hr1, hr⟩ := Option.bind_eq_some_iff.mp hr
    obtain ⟨ix, x2⟩ := get_of_length lt y2
    obtain ⟨iy, x3⟩ := get_of_length le y2
    have gk : (gt.states.map Prod.fst).Nodup := by rw [keys_of_signature t1]; exact k1
    have gek : (ge.states.map Prod.fst).Nodup := by rw [keys_of_signature u1]; exact k1
    have hmg := merge_get (a1 := g1.atoms ++ [⟨x, true⟩]) (a2 := g1.atoms ++ [⟨x, false⟩])
      (show (signature ge')[j]? = some (v, cond) by rw [hsige]; exact hjs) x2 x3
    -- the branches, statically
    have bt : cond.holds (g.atoms ++ [⟨x, true⟩]) = true →
        typedAfter cond thenStmts (g.atoms ++ [⟨x, true⟩]) none (LState.names ⟨st0, L.alt⟩) ⟨ts, TA⟩ = some r1 →
        HasTypes Δ ix r1.2 ∧ TracksN v cond gt r1.1 := by
      intro c1 c2
      obtain ⟨j', i', v1, v2, v3⟩ := st v cond _ ⟨ts, TA⟩ r1 hN1 ⟨j, ia, hjs, y2, y5⟩ (by rw [hat]; exact c1)
        (by dsimp only; rw [hat]; exact c2)
      rw [t1] at v1
      have := sig_index k1 hjs v1
      subst this
      rw [x2] at v2
      cases v2
      exact ⟨v3, lst v cond _ _ hN1 (by rw [hat]; exact c1)
        (typedAfter_names _ _ _ _ _ _ _ (by dsimp only; rw [hat]; exact c2))⟩
    have be : cond.holds (g.atoms ++ [⟨x, false⟩]) = true →
        typedAfter cond elseStmts (g.atoms ++ [⟨x, false⟩]) none (LState.names ⟨st0, L.alt⟩) ⟨ts, TA⟩ = some r1 →
        HasTypes Δ iy r1.2 ∧ TracksN v cond ge r1.1 := by
      intro c1 c2
      obtain ⟨j', i', v1, v2, v3⟩ := se v cond _ ⟨ts, TA⟩ r1 hN1 ⟨j, ia, hjs, y2, y5⟩
        (by dsimp only; rw [hat]; exact c1) (by dsimp only; rw [hat]; exact c2)
      rw [u1] at v1
      have := sig_index k1 hjs v1
      subst this
      rw [x3] at v2
      cases v2
      exact ⟨v3, lse v cond _ _ hN1 (by dsimp only; rw [hat]; exact c1)
        (typedAfter_names _ _ _ _ _ _ _ (by dsimp only; rw [hat]; exact c2))⟩
    -- the rest
    have fin : ∀ L1 i', (mergeIdents (thenOnly (g1.atoms ++ [⟨x, true⟩]) (g1.atoms ++ [⟨x, false⟩]) ge'.states) is3 is5)[j]? =
        some i' → HasTypes Δ i' r1.2 → Typed Δ i' L1.erase →
        Tracks v cond { ge' with states := states, atoms := g1.atoms } L1 → L1.names = r1.1 →
        Obeys env cond rest g.atoms L1 →
        TypesOk env rest L1 ∧ ∀ L', exec env rest L1 = .ok L' → TracksB Δ v cond g6 is6 L' r.2 := by
      intro L1 i' q1 q2 q3 q4 q5 q6
      exact rr v cond L1 r1.2 r q4 ⟨j, i', by rw [sigm]; exact j1, q1, q3, q2⟩ (by dsimp only; rw [hat]; exact hh)
        (by simp) (by dsimp only; rw [hat, q5]; exact hr) (by dsimp only; rw [hat]; exact q6)
    rw [hat] at hmg fin
    simp only [TypesOk, hL, exec, i2]
    rw [← hst.1, z3, i4]
    simp only [Bool.not_true, Bool.false_eq_true, if_false]
    cases hb : Vm.truthy top.value with
    | true =>
      rw [hb] at hob
      obtain ⟨o1, o2, o3⟩ := hob
      simp only [if_true]
      have hN2 : typedAfter cond thenStmts (g.atoms ++ [⟨x, true⟩]) none (LState.names ⟨st0, L.alt⟩) ⟨ts, TA⟩ = some r1 := by
        cases c2 : cond.holds (g.atoms ++ [⟨x, false⟩]) <;> rw [o1, c2] at hr1 <;> dsimp only at hr1
        · exact hr1
        · split at hr1
          · next heq => rw [heq]; exact hr1
          · cases hr1
      obtain ⟨p1, p2⟩ := rt v cond ⟨st0, L.alt⟩ ⟨ts, TA⟩ r1 hT ⟨j, ia, hjs, y2, y3, y5⟩
        (by dsimp only; rw [hat]; exact o1) (by simp)
        (by dsimp only; rw [hat]; exact hN2) (by dsimp only; rw [hat]; exact o2)
      obtain ⟨s1t, s2t⟩ := bt o1 hN2
      have hu := pbt v cond ⟨st0, L.alt⟩ r1.1 hT (by dsimp only; rw [hat]; exact o1) (by simp)
        (by dsimp only; rw [hat]; exact typedAfter_names _ _ _ _ _ _ _ hN2) (by dsimp only; rw [hat]; exact o2)
      have sm := simt v cond ⟨st0, L.alt⟩ [] [] hT (by dsimp only; rw [hat]; exact o1) (by simp) rfl
      dsimp only at sm
      rw [run_exec env cond _ _ _ hu] at sm
      have hrest : ∀ L1, exec env thenStmts ⟨st0, L.alt⟩ = .ok L1 →
          TypesOk env rest L1 ∧ ∀ L', exec env rest L1 = .ok L' → TracksB Δ v cond g6 is6 L' r.2 := by
        intro L1 hex
        obtain ⟨j', i', v1, v2, v3, v4⟩ := p2 L1 hex
        rw [t1] at v1
        have := sig_index k1 hjs v1
        subst this
        rw [x2] at v2
        cases v2
        rw [hex] at sm
        have hname : L1.names = r1.1 := tracks_names_unique gk sm.1 s2t
        obtain ⟨⟨s2, hm2, hc2, hs2, ha2⟩, _⟩ := sm
        cases hc3 : cond.holds (g.atoms ++ [⟨x, false⟩]) with
        | false =>
          rw [o1, hc3] at hmg
          exact fin L1 ix (by simpa using hmg) s1t v3 ⟨s2, m3 v s2 (by rw [l1]; exact hm2) (by rw [hc2, hat]; exact o1)
            (by rw [hc2, hat]; exact hc3), hc2, hs2, ha2⟩ hname (o3 L1 hex)
        | true =>
          have hN3 : typedAfter cond elseStmts (g.atoms ++ [⟨x, false⟩]) none (LState.names ⟨st0, L.alt⟩) ⟨ts, TA⟩ =
              some r1 := by
            rw [o1, hc3] at hr1
            dsimp only at hr1
            split at hr1
            · exact hr1
            · cases hr1
          obtain ⟨s1e, s2e⟩ := be hc3 hN3
          rw [o1, hc3] at hmg
          refine fin L1 iy (by simpa using hmg) s1e (typed_swap v3 s1t s1e) ?_ hname (o3 L1 hex)
          rw [← hname] at s2e
          obtain ⟨s3, hm3, hc3', hs3, ha3⟩ := s2e
          exact ⟨s3, m4 v s3 (by rw [n2]; exact hm3) (by rw [hc3', hat]; exact hc3), hc3', hs3, ha3⟩
      refine ⟨⟨p1, fun L1 hex => (hrest L1 hex).1⟩, ?_⟩
      intro L' hL'
      cases hex : exec env thenStmts ⟨st0, L.alt⟩ with
      | ok L1 => rw [hex] at hL'; exact (hrest L1 hex).2 L' hL'
      | _ => rw [hex] at hL'; cases hL'
    | false =>
      rw [hb] at hob
      obtain ⟨o1, o2, o3⟩ := hob
      simp only [Bool.false_eq_true, if_false]
      have hN2 : typedAfter cond elseStmts (g.atoms ++ [⟨x, false⟩]) none (LState.names ⟨st0, L.alt⟩) ⟨ts, TA⟩ = some r1 := by
        cases c2 : cond.holds (g.atoms ++ [⟨x, true⟩]) <;> rw [o1, c2] at hr1 <;> dsimp only at hr1
        · exact hr1
        · split at hr1
          · exact hr1
          · cases hr1
      obtain ⟨p1, p2⟩ := re v cond ⟨st0, L.alt⟩ ⟨ts, TA⟩ r1 hT ⟨j, ia, hjs, y2, y3, y5⟩
        (by dsimp only; rw [hat]; exact o1) (by simp)
        (by dsimp only; rw [hat]; exact hN2) (by dsimp only; rw [hat]; exact o2)
      obtain ⟨s1e, s2e⟩ := be o1 hN2
      have hu := pbe v cond ⟨st0, L.alt⟩ r1.1 hT (by dsimp only; rw [hat]; exact o1) (by simp)
        (by dsimp only; rw [hat]; exact typedAfter_names _ _ _ _ _ _ _ hN2) (by dsimp only; rw [hat]; exact o2)
      have sm := sime v cond ⟨st0, L.alt⟩ [] [] hT (by dsimp only; rw [hat]; exact o1) (by simp) rfl
      dsimp only at sm hu
      rw [run_exec env cond _ _ _ hu] at sm
      have hrest : ∀ L1, exec env elseStmts ⟨st0, L.alt⟩ = .ok L1 →
          TypesOk env rest L1 ∧ ∀ L', exec env rest L1 = .ok L' → TracksB Δ v cond g6 is6 L' r.2 := by
        intro L1 hex
        obtain ⟨j', i', v1, v2, v3, v4⟩ := p2 L1 hex
        rw [u1] at v1
        have := sig_index k1 hjs v1
        subst this
        rw [x3] at v2
        cases v2
        rw [hex] at sm
        have hname : L1.names = r1.1 := tracks_names_unique gek sm.1 s2e
        obtain ⟨⟨s2, hm2, hc2, hs2, ha2⟩, _⟩ := sm
        rw [o1] at hmg
        exact fin L1 iy (by simpa using hmg) s1e v3 ⟨s2, m4 v s2 (by rw [n2]; exact hm2) (by rw [hc2, hat]; exact o1),
          hc2, hs2, ha2⟩ hname (o3 L1 hex)
      refine ⟨⟨p1, fun L1 hex => (hrest L1 hex).1⟩, ?_⟩
      intro L' hL'
      cases hex : exec env elseStmts ⟨st0, L.alt⟩ with
      | ok L1 => rw [hex] at hL'; exact (hrest L1 hex).2 L' hL'
      | _ => rw [hex] at hL'; cases hL'

end TypeProofs
end BCash
