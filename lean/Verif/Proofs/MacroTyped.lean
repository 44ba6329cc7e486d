import Verif.Proofs.MacroRecord
import Verif.Props.Func
import Verif.Spec.Typed
import Mathlib.Data.List.Nodup

/-! # Well-typed execution -/

namespace BCash
open Spec Spec.Macro Spec.Named Macro

namespace TypeProofs
open GenProofs

/-! ## The type checker against one final scope -/

/-- Variables a statement binds. -/
def boundOf : RustStmt → List String
  | .bind x _ => [x]
  | .call outs _ _ => outs
  | .moved _ => []

/-- A statement agrees with an assignment of types. -/
def Consistent (Δ : String → Option FTy) : RustStmt → Prop
  | .bind x t => Δ x = some t
  | .call outs o operands => ∃ f ts σ rs, o.func = some f ∧
      List.Forall₂ (fun (xs : List String) t => ∃ x, xs.getLast? = some x ∧ Δ x = some t) operands ts ∧
      infer f.params ts [] = some σ ∧ f.results.mapM (FTy.subst σ) = some rs ∧
      List.Forall₂ (fun x t => Δ x = some t) outs rs
  | .moved _ => True

theorem lookup_mem {α β : Type} [BEq α] [LawfulBEq α] {l : List (α × β)} {x : α} {t : β} (h : l.lookup x = some t) :
    (x, t) ∈ l := by
  induction l with
  | nil => cases h
  | cons p l ih =>
    obtain ⟨y, s⟩ := p
    rw [List.lookup_cons] at h
    split at h
    · next he =>
      have : x = y := by simpa using he
      subst this
      cases h
      simp
    · exact List.mem_cons_of_mem _ (ih h)

theorem mem_lookup {Γ : Scope} (hΓ : OneType Γ) {x : String} {t : FTy} (h : (x, t) ∈ Γ) :
    Γ.type x = some t := by
  unfold Scope.type
  cases hl : Γ.lookup x with
  | none =>
    exfalso
    rw [List.lookup_eq_none_iff] at hl
    have := hl _ h
    simp at this
  | some t' => rw [hΓ x t t' h (lookup_mem hl)]

theorem forall2_of_mapM {α β : Type} {f : α → Option β} {l : List α} {r : List β} (h : l.mapM f = some r) :
    List.Forall₂ (fun a b => f a = some b) l r := by
  induction l generalizing r with
  | nil => cases h; exact .nil
  | cons a l ih =>
    simp only [List.mapM_cons, Option.bind_eq_bind, Option.bind_eq_some_iff] at h
    obtain ⟨b, h1, r', h2, h3⟩ := h
    cases h3
    exact .cons h1 (ih h2)

theorem check_sub {Γ Γ' : Scope} {s : RustStmt} (h : s.check Γ = some Γ') : ∀ p ∈ Γ, p ∈ Γ' := by
  intro p hp
  cases s with
  | bind x t => cases h; exact List.mem_cons_of_mem _ hp
  | moved => cases h; exact hp
  | call outs o operands =>
    simp only [RustStmt.check, Option.bind_eq_some_iff] at h
    obtain ⟨f, _, ts, _, σ, _, rs, _, h⟩ := h
    split at h
    · cases h; exact List.mem_append_right _ hp
    · cases h

theorem checkRust_sub {Γ Γ' : Scope} {code : List RustStmt} (h : checkRust Γ code = some Γ') :
    ∀ p ∈ Γ, p ∈ Γ' := by
  induction code generalizing Γ with
  | nil => cases h; exact fun p hp => hp
  | cons s code ih =>
    simp only [checkRust, Option.bind_eq_some_iff] at h
    obtain ⟨Γ1, h1, h2⟩ := h
    exact fun p hp => ih h2 p (check_sub h1 p hp)

theorem check_consistent {Γ Γ1 Γ' : Scope} {s : RustStmt} (h : s.check Γ = some Γ1)
    (hsub : ∀ p ∈ Γ1, p ∈ Γ') (hΓ : OneType Γ') : Consistent Γ'.type s := by
  have hlift : ∀ x t, Γ.type x = some t → Γ'.type x = some t := fun x t hx =>
    mem_lookup hΓ (hsub _ (check_sub h _ (lookup_mem hx)))
  cases s with
  | bind x t =>
    cases h
    exact mem_lookup hΓ (hsub _ (by simp))
  | moved => trivial
  | call outs o operands =>
    simp only [RustStmt.check, Option.bind_eq_some_iff] at h
    obtain ⟨f, h1, ts, h2, σ, h3, rs, h4, h⟩ := h
    split at h
    · next hl =>
      cases h
      refine ⟨f, ts, σ, rs, h1, ?_, h3, h4, ?_⟩
      · refine (forall2_of_mapM h2).imp ?_
        intro xs t hx
        obtain ⟨x, e1, e2⟩ := Option.bind_eq_some_iff.mp hx
        exact ⟨x, e1, hlift x t e2⟩
      · rw [List.forall₂_iff_zip]
        refine ⟨hl, ?_⟩
        intro x t hx
        exact mem_lookup hΓ (hsub _ (List.mem_append_left _ (List.mem_reverse.mpr hx)))
    · cases h

theorem checkRust_consistent {Γ Γ' : Scope} {code : List RustStmt} (h : checkRust Γ code = some Γ')
    (hΓ : OneType Γ') : ∀ s ∈ code, Consistent Γ'.type s := by
  induction code generalizing Γ with
  | nil => intro s hs; cases hs
  | cons s code ih =>
    simp only [checkRust, Option.bind_eq_some_iff] at h
    obtain ⟨Γ1, h1, h2⟩ := h
    intro s' hs
    rcases List.mem_cons.mp hs with rfl | hs
    · exact check_consistent h1 (checkRust_sub h2) hΓ
    · exact ih h2 s' hs

/-! ## Type arguments -/

/-- What a type parameter stands for. -/
def meaning (σ : List (Nat × FTy)) (i : Nat) (x : Bytes) : Prop := ∀ t, σ.lookup i = some t → Is t x

theorem infer_extends {ps ts : List FTy} {σ σ' : List (Nat × FTy)} (h : infer ps ts σ = some σ') :
    ∀ i t, σ.lookup i = some t → σ'.lookup i = some t := by
  induction ps generalizing ts σ with
  | nil =>
    cases ts with
    | nil => cases h; exact fun i t h => h
    | cons t ts => cases h
  | cons p ps ih =>
    cases ts with
    | nil => cases p <;> cases h
    | cons t ts =>
      cases p with
      | var j =>
        simp only [infer] at h
        split at h
        · next hn =>
          intro i u hi
          refine ih h i u ?_
          rw [List.lookup_cons]
          split
          · next he =>
            have : i = j := by simpa using he
            subst this
            rw [hn] at hi; cases hi
          · exact hi
        · split at h
          · exact ih h
          · cases h
      | _ =>
        simp only [infer] at h
        split at h
        · exact ih h
        · cases h

theorem infer_args {ps ts : List FTy} {σ σ' : List (Nat × FTy)} {args : List Bytes}
    (h : infer ps ts σ = some σ') (ha : List.Forall₂ Is ts args) :
    List.Forall₂ (FHasType (meaning σ')) ps args := by
  induction ps generalizing ts σ args with
  | nil =>
    cases ts with
    | nil => cases ha; exact .nil
    | cons t ts => cases h
  | cons p ps ih =>
    cases ts with
    | nil => cases p <;> cases h
    | cons t ts =>
      cases ha with
      | cons ha1 ha2 =>
        cases p with
        | var j =>
          simp only [infer] at h
          split at h
          · next hn =>
            refine .cons ?_ (ih h ha2)
            have := infer_extends h j t (by simp)
            intro u hu
            rw [this] at hu; cases hu
            exact ha1
          · next t' hn =>
            split at h
            · next he =>
              subst he
              refine .cons ?_ (ih h ha2)
              have := infer_extends h j t hn
              intro u hu
              rw [this] at hu; cases hu
              exact ha1
            · cases h
        | _ =>
          simp only [infer] at h
          split at h
          · next he => subst he; exact .cons ha1 (ih h ha2)
          · cases h

theorem subst_is {σ : List (Nat × FTy)} {r t : FTy} {x : Bytes} (h : FTy.subst σ r = some t)
    (hx : FHasType (meaning σ) r x) : Is t x := by
  cases r with
  | var i => exact hx t h
  | _ => cases h; exact hx

/-! ## The stacks of variables -/

/-- In every variant that is possible, the variables change as described. -/
def IStep (P : Idents → Idents → Prop) (act : List Bool) (is is' : List Idents) : Prop :=
  is'.length = is.length ∧
  ∀ (k : Nat) i, act[k]? = some true → is[k]? = some i → ∃ i', is'[k]? = some i' ∧ P i i'

theorem IStep.trans {P Q R : Idents → Idents → Prop} {act : List Bool} {is is1 is2 : List Idents}
    (h1 : IStep P act is is1) (h2 : IStep Q act is1 is2) (h : ∀ a b c, P a b → Q b c → R a c) :
    IStep R act is is2 := by
  refine ⟨h2.1.trans h1.1, ?_⟩
  intro k i ha hi
  obtain ⟨i1, e1, p1⟩ := h1.2 k i ha hi
  obtain ⟨i2, e2, p2⟩ := h2.2 k i1 ha e1
  exact ⟨i2, e2, h _ _ _ p1 p2⟩

theorem IStep.refl (act : List Bool) (is : List Idents) : IStep (fun i i' => i' = i) act is is :=
  ⟨rfl, fun _ i _ h => ⟨i, h, rfl⟩⟩

theorem takeIdents_spec {f : Idents → Option (String × Idents)} {act : List Bool} {is is' : List Idents}
    {xs : List String} (h : takeIdents f act is = some (xs, is')) :
    IStep (fun i i' => ∃ x ∈ xs, f i = some (x, i')) act is is' := by
  induction is generalizing act xs is' with
  | nil =>
    have : xs = [] ∧ is' = [] := by
      cases act with
      | nil => cases h; exact ⟨rfl, rfl⟩
      | cons b act => cases b <;> cases h <;> exact ⟨rfl, rfl⟩
    obtain ⟨rfl, rfl⟩ := this
    exact ⟨rfl, by intro k i _ hi; simp at hi⟩
  | cons i is ih =>
    cases act with
    | nil => cases h; exact ⟨rfl, by intro k i ha; simp at ha⟩
    | cons b act =>
      cases b with
      | true =>
        simp only [takeIdents, Option.bind_eq_some_iff, Option.map_eq_some_iff] at h
        obtain ⟨⟨x, i1⟩, h1, ⟨xs1, is1⟩, h2, h3⟩ := h
        cases h3
        obtain ⟨l, hl⟩ := ih h2
        refine ⟨by simp [l], ?_⟩
        intro k j ha hj
        cases k with
        | zero =>
          simp only [List.getElem?_cons_zero, Option.some.injEq] at hj
          subst hj
          exact ⟨i1, rfl, x, by simp, h1⟩
        | succ k =>
          obtain ⟨j', e1, y, e2, e3⟩ := hl k j (by simpa using ha) (by simpa using hj)
          exact ⟨j', by simpa using e1, y, List.mem_cons_of_mem _ e2, e3⟩
      | false =>
        simp only [takeIdents, Option.map_eq_some_iff] at h
        obtain ⟨⟨xs1, is1⟩, h2, h3⟩ := h
        cases h3
        obtain ⟨l, hl⟩ := ih h2
        refine ⟨by simp [l], ?_⟩
        intro k j ha hj
        cases k with
        | zero => simp at ha
        | succ k =>
          obtain ⟨j', e1, y, e2, e3⟩ := hl k j (by simpa using ha) (by simpa using hj)
          exact ⟨j', by simpa using e1, y, e2, e3⟩

theorem popIdents_spec {act : List Bool} {is is' : List Idents} {xs : List String}
    (h : popIdents act is = some (xs, is')) :
    IStep (fun i i' => ∃ x ∈ xs, i.stack = x :: i'.stack ∧ i'.alt = i.alt) act is is' := by
  obtain ⟨l, hl⟩ := takeIdents_spec h
  refine ⟨l, fun k i ha hi => ?_⟩
  obtain ⟨i', e1, x, e2, e3⟩ := hl k i ha hi
  refine ⟨i', e1, x, e2, ?_⟩
  split at e3
  · next hs => cases e3; exact ⟨hs, rfl⟩
  · cases e3

theorem popAltIdents_spec {act : List Bool} {is is' : List Idents} {xs : List String}
    (h : popAltIdents act is = some (xs, is')) :
    IStep (fun i i' => ∃ x ∈ xs, i.alt = x :: i'.alt ∧ i'.stack = i.stack) act is is' := by
  obtain ⟨l, hl⟩ := takeIdents_spec h
  refine ⟨l, fun k i ha hi => ?_⟩
  obtain ⟨i', e1, x, e2, e3⟩ := hl k i ha hi
  refine ⟨i', e1, x, e2, ?_⟩
  split at e3
  · next hs => cases e3; exact ⟨hs, rfl⟩
  · cases e3

theorem pickIdents_spec {isRoll : Bool} {depth : Nat} {act : List Bool} {is is' : List Idents} {xs : List String}
    (h : pickIdents isRoll depth act is = some (xs, is')) :
    IStep (fun i i' => ∃ x ∈ xs, i.stack[depth]? = some x ∧
      i'.stack = (if isRoll then i.stack.eraseIdx depth else i.stack) ∧ i'.alt = i.alt) act is is' := by
  obtain ⟨l, hl⟩ := takeIdents_spec h
  refine ⟨l, fun k i ha hi => ?_⟩
  obtain ⟨i', e1, x, e2, e3⟩ := hl k i ha hi
  refine ⟨i', e1, x, e2, ?_⟩
  obtain ⟨y, e4, e5⟩ := Option.map_eq_some_iff.mp e3
  cases e5
  refine ⟨e4, ?_⟩
  split <;> exact ⟨rfl, rfl⟩

theorem popNIdents_spec {act : List Bool} {n : Nat} {is is' : List Idents} {xss : List (List String)}
    (h : popNIdents act n is = some (xss, is')) :
    IStep (fun i i' => ∃ as, List.Forall₂ (fun x (xs : List String) => x ∈ xs) as xss ∧
      i.stack = as.reverse ++ i'.stack ∧ i'.alt = i.alt) act is is' := by
  induction n generalizing is xss with
  | zero =>
    cases h
    exact ⟨rfl, fun k i _ hi => ⟨i, hi, [], .nil, rfl, rfl⟩⟩
  | succ n ih =>
    simp only [popNIdents, Option.bind_eq_some_iff, Option.map_eq_some_iff] at h
    obtain ⟨⟨xs, is1⟩, h1, ⟨xss1, is2⟩, h2, h3⟩ := h
    cases h3
    refine (popIdents_spec h1).trans (ih h2) ?_
    rintro a b c ⟨x, e1, e2, e3⟩ ⟨as, e4, e5, e6⟩
    refine ⟨as ++ [x], ?_, ?_, e6.trans e3⟩
    · exact List.rel_append e4 (.cons e1 .nil)
    · rw [e2, e5]; simp

theorem pushIdent_spec (x : String) (act : List Bool) (is : List Idents) :
    IStep (fun i i' => i' = { i with stack := x :: i.stack }) act is (pushIdent x act is) := by
  induction is generalizing act with
  | nil =>
    have : pushIdent x act [] = [] := by cases act with
      | nil => rfl
      | cons b act => cases b <;> rfl
    rw [this]
    exact ⟨rfl, by intro k i _ hi; simp at hi⟩
  | cons i is ih =>
    cases act with
    | nil => exact ⟨rfl, by intro k i ha; simp at ha⟩
    | cons b act =>
      obtain ⟨l, hl⟩ := ih act
      cases b with
      | true =>
        refine ⟨by simp [pushIdent, l], ?_⟩
        intro k j ha hj
        cases k with
        | zero =>
          simp only [List.getElem?_cons_zero, Option.some.injEq] at hj
          subst hj
          exact ⟨_, rfl, rfl⟩
        | succ k =>
          obtain ⟨j', e1, e2⟩ := hl k j (by simpa using ha) (by simpa using hj)
          exact ⟨j', by simpa [pushIdent] using e1, e2⟩
      | false =>
        refine ⟨by simp [pushIdent, l], ?_⟩
        intro k j ha hj
        cases k with
        | zero => simp at ha
        | succ k =>
          obtain ⟨j', e1, e2⟩ := hl k j (by simpa using ha) (by simpa using hj)
          exact ⟨j', by simpa [pushIdent] using e1, e2⟩

theorem pushAltIdent_spec (x : String) (act : List Bool) (is : List Idents) :
    IStep (fun i i' => i' = { i with alt := x :: i.alt }) act is (pushAltIdent x act is) := by
  induction is generalizing act with
  | nil =>
    have : pushAltIdent x act [] = [] := by cases act with
      | nil => rfl
      | cons b act => cases b <;> rfl
    rw [this]
    exact ⟨rfl, by intro k i _ hi; simp at hi⟩
  | cons i is ih =>
    cases act with
    | nil => exact ⟨rfl, by intro k i ha; simp at ha⟩
    | cons b act =>
      obtain ⟨l, hl⟩ := ih act
      cases b with
      | true =>
        refine ⟨by simp [pushAltIdent, l], ?_⟩
        intro k j ha hj
        cases k with
        | zero =>
          simp only [List.getElem?_cons_zero, Option.some.injEq] at hj
          subst hj
          exact ⟨_, rfl, rfl⟩
        | succ k =>
          obtain ⟨j', e1, e2⟩ := hl k j (by simpa using ha) (by simpa using hj)
          exact ⟨j', by simpa [pushAltIdent] using e1, e2⟩
      | false =>
        refine ⟨by simp [pushAltIdent, l], ?_⟩
        intro k j ha hj
        cases k with
        | zero => simp at ha
        | succ k =>
          obtain ⟨j', e1, e2⟩ := hl k j (by simpa using ha) (by simpa using hj)
          exact ⟨j', by simpa [pushAltIdent] using e1, e2⟩

theorem pushIdents_spec (xs : List String) (act : List Bool) (is : List Idents) :
    IStep (fun i i' => i' = { i with stack := xs.reverse ++ i.stack }) act is
      (xs.foldl (fun is x => pushIdent x act is) is) := by
  induction xs generalizing is with
  | nil => exact ⟨rfl, fun k i _ hi => ⟨i, hi, rfl⟩⟩
  | cons x xs ih =>
    refine (pushIdent_spec x act is).trans (ih _) ?_
    rintro a b c rfl rfl
    simp

/-! ## One statement -/

/-- The variables of the items on the stacks have the types of the items. -/
def Typed (Δ : String → Option FTy) (i : Idents) (V : Vm.State) : Prop :=
  List.Forall₂ (fun x b => ∃ t, Δ x = some t ∧ Is t b) i.stack V.stack ∧
  List.Forall₂ (fun x b => ∃ t, Δ x = some t ∧ Is t b) i.alt V.alt

/-- The candidates for an operand have one type. -/
def Same (Δ : String → Option FTy) (s : RustStmt) : Prop :=
  ∀ xs ∈ operandsOf s, ∀ x ∈ xs, ∀ y ∈ xs, Δ x = Δ y

abbrev Ty (Δ : String → Option FTy) (x : String) (b : Bytes) : Prop := ∃ t, Δ x = some t ∧ Is t b

theorem is_of {ρ : Nat → Bytes → Prop} {t : FTy} {x : Bytes} (h : FHasType ρ t x) : Is t x := by
  cases t with
  | var i => trivial
  | _ => exact h

theorem forall2_split {α β : Type} {R : α → β → Prop} {as st : List α} {S : List β}
    (h : List.Forall₂ R (as.reverse ++ st) S) :
    ∃ args rest, S = args.reverse ++ rest ∧ List.Forall₂ R as args ∧ List.Forall₂ R st rest := by
  obtain ⟨h1, h2⟩ := (List.forall₂_iff_get.mp h)
  refine ⟨(S.take as.length).reverse, S.drop as.length, by simp, ?_, ?_⟩
  · have := List.forall₂_take as.length h
    rw [List.take_left' (by simp)] at this
    have := List.rel_reverse this
    simpa using this
  · have := List.forall₂_drop as.length h
    rwa [List.drop_left' (by simp)] at this

/-- A call of a typed function that passes the type checker. -/
theorem call_typed {Δ : String → Option FTy} {outs : List String} {o : Opcode} {xss : List (List String)}
    (hc : Consistent Δ (.call outs o xss)) (hs : Same Δ (.call outs o xss)) {as st : List String}
    {S : List Bytes} (hm : List.Forall₂ (fun x (xs : List String) => x ∈ xs) as xss)
    (ht : List.Forall₂ (Ty Δ) (as.reverse ++ st) S) :
    ∃ f ρ args rest, o.func = some f ∧ S = args.reverse ++ rest ∧
      List.Forall₂ (FHasType ρ) f.params args ∧ List.Forall₂ Is f.params args ∧
      List.Forall₂ (Ty Δ) st rest ∧
      ∀ rs, List.Forall₂ (FHasType ρ) f.results rs → List.Forall₂ (Ty Δ) outs rs := by
  obtain ⟨f, ts, σ, rts, h1, h2, h3, h4, h5⟩ := hc
  obtain ⟨args, rest, e1, e2, e3⟩ := forall2_split ht
  have hargs : List.Forall₂ Is ts args := by
    have hs' : ∀ xs ∈ xss, ∀ x ∈ xs, ∀ y ∈ xs, Δ x = Δ y := hs
    clear hs h3 ht e1
    induction hm generalizing ts args with
    | nil => cases h2; cases e2; exact .nil
    | cons m1 m2 ih =>
      cases h2 with
      | cons a1 a2 =>
        cases e2 with
        | cons b1 b2 =>
          refine .cons ?_ (ih _ a2 _ b2 (fun xs hx => hs' xs (List.mem_cons_of_mem _ hx)))
          obtain ⟨y, y1, y2⟩ := a1
          obtain ⟨t, t1, t2⟩ := b1
          rw [hs' _ List.mem_cons_self _ m1 _ (List.mem_of_getLast? y1), y2] at t1
          cases t1
          exact t2
  have hp := infer_args h3 hargs
  refine ⟨f, meaning σ, args, rest, h1, e1, hp, hp.imp fun _ _ => is_of, e3, ?_⟩
  intro rs hrs
  have h4' := forall2_of_mapM h4
  clear h4 h3 h2 hp h1
  generalize f.results = res at *
  induction h4' generalizing outs rs with
  | nil => cases hrs; cases h5; exact .nil
  | cons c1 c2 ih =>
    cases hrs with
    | cons d1 d2 =>
      cases h5 with
      | cons g1 g2 =>
        refine .cons ⟨_, g1, subst_is c1 d1⟩ (ih (hs := ?_) g2 _ d2)
        exact hs

theorem runOther_emit {o : Opcode} {stmt : OpcodeStmt} {g g' : Gen} {e : List Emit}
    (h : runOther o stmt g = .ok (e, g')) : e.map Emit.op = [.code o] := by
  unfold runOther at h
  split at h
  · cases h
  · obtain ⟨_, _, h⟩ := Res.bind_eq_ok.mp h
    obtain ⟨_, _, h⟩ := Res.bind_eq_ok.mp h
    obtain ⟨_, _, h⟩ := Res.bind_eq_ok.mp h
    cases h
    rfl

theorem runPickRoll_emit {o : Opcode} {isRoll : Bool} {stmt : OpcodeStmt} {g g' : Gen} {e : List Emit}
    (h : runPickRoll o isRoll stmt g = .ok (e, g')) : e.map Emit.op = [.code o] := by
  unfold runPickRoll at h
  obtain ⟨_, _, h⟩ := Res.bind_eq_ok.mp h
  obtain ⟨_, _, h⟩ := Res.bind_eq_ok.mp h
  obtain ⟨_, _, h⟩ := Res.bind_eq_ok.mp h
  obtain ⟨_, _, h⟩ := Res.bind_eq_ok.mp h
  obtain ⟨_, _, h⟩ := Res.bind_eq_ok.mp h
  cases h
  rfl

/-- What the type checker has seen of a statement, for the machine. -/
def Checked (env : Vm.Env) (l : Leaf) (ops : List (Op Bytes)) (V : Vm.State) : Prop :=
  match l with
  | .opcode ⟨.op .OP_FROMALTSTACK, _, _⟩ => V.alt ≠ []
  | .opcode ⟨.op o, _, _⟩ => ∃ args, Operands o V.stack args ∧
      (execOps env ops V = none → ¬ Ready env o args ∨ Oversized o args)
  | _ => True

/-- The conclusion for one statement. -/
def LeafTyped (env : Vm.Env) (Δ : String → Option FTy) (k? : Option Nat) (l : Leaf) (ops : List (Op Bytes))
    (act : List Bool) (is is' : List Idents) : Prop :=
  is'.length = is.length ∧
  ∀ (j : Nat) i V, act[j]? = some true → is[j]? = some i → Typed Δ i V →
    (∀ k : Nat, k? = some k → ∃ st, V.stack = Vm.numBytes k :: st) →
    Checked env l ops V ∧
    ∀ V', execOps env ops V = some V' → ∃ i', is'[j]? = some i' ∧ Typed Δ i' V'

/-- An ordinary opcode on the machine. -/
theorem ordinary_typed (env : Vm.Env) {Δ : String → Option FTy} {o : Opcode} (hsp : ¬ Special o)
    {act : List Bool} {n : Nat} {is is1 : List Idents} {xss : List (List String)} {outs : List String}
    (hp : popNIdents act n is = some (xss, is1))
    (hc : Consistent Δ (.call outs o xss)) (hs : Same Δ (.call outs o xss)) :
    (outs.foldl (fun is x => pushIdent x act is) is1).length = is.length ∧
    ∀ (j : Nat) i V, act[j]? = some true → is[j]? = some i → Typed Δ i V →
      (∃ args, Operands o V.stack args ∧
        (Vm.step env o.toByte V = none → ¬ Ready env o args ∨ Oversized o args)) ∧
      ∀ V', Vm.step env o.toByte V = some V' →
        ∃ i', (outs.foldl (fun is x => pushIdent x act is) is1)[j]? = some i' ∧ Typed Δ i' V' := by
  have hst := (popNIdents_spec hp).trans (pushIdents_spec outs act is1)
    (R := fun i i' => ∃ as st, List.Forall₂ (fun x (xs : List String) => x ∈ xs) as xss ∧
      i.stack = as.reverse ++ st ∧ i'.stack = outs.reverse ++ st ∧ i'.alt = i.alt) (by
    rintro a b c ⟨as, e1, e2, e3⟩ rfl
    exact ⟨as, b.stack, e1, e2, rfl, e3⟩)
  refine ⟨hst.1, ?_⟩
  rintro j i ⟨S, A⟩ ha hi ⟨ht, hta⟩
  obtain ⟨i', e0, as, st, e1, e2, e3, e4⟩ := hst.2 j i ha hi
  dsimp only at ht hta ⊢
  rw [e2] at ht
  obtain ⟨f, ρ, args, rest, f1, rfl, f3, f4, f5, f6⟩ := call_typed hc hs e1 ht
  refine ⟨⟨args, ⟨f, rest, f1, rfl, f4⟩, ?_⟩, ?_⟩
  · intro hnone
    by_cases hr : Ready env o args
    · refine .inr ⟨f, f1, ?_⟩
      by_contra hno
      push Not at hno
      have hin : List.Forall₂ (FInRange ρ) f.params args := by
        rw [List.forall₂_iff_zip] at f3 ⊢
        exact ⟨f3.1, fun {a b} hab => ⟨f3.2 hab, fun h => Nat.le_of_not_lt (hno _ hab h)⟩⟩
      obtain ⟨s', hs'⟩ := (C66_progress env o f f1 hsp ρ args rest A hin).mpr hr
      rw [hnone] at hs'
      cases hs'
    · exact .inl hr
  · intro V' hV
    obtain ⟨outs', rfl, h2⟩ := C66_types_sound env o f f1 hsp ρ args rest A f3 V' hV
    refine ⟨i', e0, ?_, ?_⟩
    · rw [e3]
      exact List.rel_append (List.rel_reverse (f6 _ h2)) f5
    · rw [e4]; exact hta

theorem push_typed {env : Vm.Env} {Δ : String → Option FTy} {k? : Option Nat} {l : Leaf} {op : Op Bytes} {x : String} {t : FTy}
    {act : List Bool} {is : List Idents} {b : Bytes} (hl : ∀ ops V, Checked env l ops V)
    (hb : Vm.item op = some b) (hc : Consistent Δ (.bind x t)) (ht : Is t b) :
    LeafTyped env Δ k? l [op] act is (pushIdent x act is) := by
  obtain ⟨l1, l2⟩ := pushIdent_spec x act is
  refine ⟨l1, ?_⟩
  rintro j i V ha hi ⟨h1, h2⟩ _
  refine ⟨hl _ _, ?_⟩
  intro V' hV
  obtain ⟨i', e1, rfl⟩ := l2 j i ha hi
  rw [execOps_one] at hV
  have : V' = ⟨b :: V.stack, V.alt⟩ := by
    cases op <;> simp only [execOp, hb, Option.map_some, Option.some.injEq] at hV
    all_goals first
      | exact hV.symm
      | (simp [Vm.item] at hb)
  subst this
  exact ⟨_, e1, .cons ⟨t, hc, ht⟩ h1, h2⟩

theorem pushType_is {op : Op Bytes} {t : FTy} (h : pushType op = some t) :
    ∃ b, Vm.item op = some b ∧ Is t b := by
  cases op with
  | pushInteger i => cases h; exact ⟨_, rfl, i, rfl⟩
  | pushBoolean b => cases h; exact ⟨_, rfl, FuncProofs.bool_typed _ b⟩
  | pushByteArray d m => cases h; exact ⟨_, rfl, trivial⟩
  | _ => cases h

theorem popTop {Δ : String → Option FTy} {act : List Bool} {is is1 : List Idents} {xs : List String}
    (hp : popIdents act is = some (xs, is1)) {j : Nat} {i : Idents} (ha : act[j]? = some true)
    (hi : is[j]? = some i) {V : Vm.State} (ht : Typed Δ i V) :
    ∃ i1 x b st, is1[j]? = some i1 ∧ x ∈ xs ∧ V.stack = b :: st ∧ Ty Δ x b ∧ Typed Δ i1 ⟨st, V.alt⟩ := by
  obtain ⟨i1, e1, x, e2, e3, e4⟩ := (popIdents_spec hp).2 j i ha hi
  obtain ⟨h1, h2⟩ := ht
  rw [e3] at h1
  obtain ⟨S, A⟩ := V
  cases h1 with
  | cons a b => exact ⟨i1, x, _, _, e1, e2, rfl, a, b, by rw [e4]; exact h2⟩

theorem same_last {Δ : String → Option FTy} {xs : List String} (hs : Same Δ (.moved xs)) {x y : String} (hx : x ∈ xs)
    (hy : xs.getLast? = some y) {b : Bytes} (h : Ty Δ x b) : Ty Δ y b := by
  obtain ⟨t, h1, h2⟩ := h
  exact ⟨t, by rw [← hs xs (by simp [operandsOf]) x hx y (List.mem_of_getLast? hy)]; exact h1, h2⟩

theorem toalt_typed (env : Vm.Env) (Δ : String → Option FTy) (k? : Option Nat) (inp : Option (List OpcodeInput))
    (out : Option (List String)) {act : List Bool} {is is1 : List Idents} {xs : List String} {x : String}
    (hp : popIdents act is = some (xs, is1)) (hx : xs.getLast? = some x) (hs : Same Δ (.moved xs)) :
    LeafTyped env Δ k? (.opcode ⟨.op .OP_TOALTSTACK, inp, out⟩) [.code .OP_TOALTSTACK] act is
      (pushAltIdent x act is1) := by
  obtain ⟨l1, l2⟩ := pushAltIdent_spec x act is1
  refine ⟨l1.trans (popIdents_spec hp).1, ?_⟩
  intro j i V ha hi ht _
  obtain ⟨i1, y, b, st, e1, e2, e3, e4, e5⟩ := popTop hp ha hi ht
  obtain ⟨S, A⟩ := V
  dsimp only at e3
  subst e3
  have hstep : execOps env [.code .OP_TOALTSTACK] ⟨b :: st, A⟩ = some ⟨st, b :: A⟩ := rfl
  refine ⟨⟨[b], ⟨_, st, rfl, rfl, .cons trivial .nil⟩, fun h => ?_⟩, fun V' hV => ?_⟩
  · rw [hstep] at h; cases h
  · rw [hstep] at hV; cases hV
    obtain ⟨i', f1, rfl⟩ := l2 j i1 ha e1
    exact ⟨_, f1, e5.1, .cons (same_last hs e2 hx e4) e5.2⟩

theorem fromalt_typed (env : Vm.Env) (Δ : String → Option FTy) (k? : Option Nat) (inp : Option (List OpcodeInput))
    (out : Option (List String)) {act : List Bool} {is is1 : List Idents} {xs : List String} {x : String}
    (hp : popAltIdents act is = some (xs, is1)) (hx : xs.getLast? = some x) (hs : Same Δ (.moved xs)) :
    LeafTyped env Δ k? (.opcode ⟨.op .OP_FROMALTSTACK, inp, out⟩) [.code .OP_FROMALTSTACK] act is
      (pushIdent x act is1) := by
  obtain ⟨l1, l2⟩ := pushIdent_spec x act is1
  refine ⟨l1.trans (popAltIdents_spec hp).1, ?_⟩
  rintro j i ⟨S, A⟩ ha hi ⟨h1, h2⟩ _
  obtain ⟨i1, e1, y, e2, e3, e4⟩ := (popAltIdents_spec hp).2 j i ha hi
  dsimp only at h1 h2
  rw [e3] at h2
  cases h2 with
  | cons a b =>
    refine ⟨fun h => (nomatch h), fun V' hV => ?_⟩
    cases hV
    obtain ⟨i', f1, rfl⟩ := l2 j i1 ha e1
    exact ⟨_, f1, .cons (same_last hs e2 hx a) (by rw [e4]; exact h1), b⟩

theorem pickRoll_typed (env : Vm.Env) (Δ : String → Option FTy) (k : Nat) (hk : k < 2 ^ 31)
    (isRoll : Bool) (op : Opcode) (hop : op = if isRoll then .OP_ROLL else .OP_PICK)
    (inp : Option (List OpcodeInput))
    (out : Option (List String)) {act : List Bool} {is is1 is2 : List Idents} {ds xs : List String} {x : String}
    (hp : popIdents act is = some (ds, is1)) (hp2 : pickIdents isRoll k act is1 = some (xs, is2))
    (hx : xs.getLast? = some x)
    (hs : Same Δ (.moved xs)) :
    LeafTyped env Δ (some k) (.opcode ⟨.op op, inp, out⟩) [.code op] act is
      (pushIdent x act is2) := by
  obtain ⟨l1, l2⟩ := pushIdent_spec x act is2
  have q2 := pickIdents_spec hp2
  refine ⟨l1.trans (q2.1.trans (popIdents_spec hp).1), ?_⟩
  intro j i V ha hi ht hd
  obtain ⟨i1, y, b, st, e1, e2, e3, e4, e5⟩ := popTop hp ha hi ht
  obtain ⟨i2, f1, z, f2, f3, f4, f5⟩ := q2.2 j i1 ha e1
  obtain ⟨i3, g1, rfl⟩ := l2 j i2 ha f1
  obtain ⟨S, A⟩ := V
  dsimp only at e3
  subst e3
  obtain ⟨st', hst⟩ := hd k rfl
  simp only [List.cons.injEq] at hst
  obtain ⟨rfl, rfl⟩ := hst
  have hnum : Vm.num? 4 (Vm.numBytes k) = some (k : Int) := NumProofs.num?_small _ ⟨by omega, by omega⟩
  obtain ⟨c, hc, hcz⟩ : ∃ c, st[k]? = some c ∧ Ty Δ z c := by
    obtain ⟨hl, hget⟩ := List.forall₂_iff_get.mp e5.1
    dsimp only at hl hget
    obtain ⟨hk1, hk2⟩ := List.getElem?_eq_some_iff.mp f3
    refine ⟨st[k]'(by omega), List.getElem?_eq_getElem (by omega), ?_⟩
    have := hget k hk1 (by omega)
    simp only [List.get_eq_getElem, hk2] at this
    exact this
  have hstep : execOps env [.code op] ⟨Vm.numBytes k :: st, A⟩ =
      some ⟨c :: (if isRoll then st.eraseIdx k else st), A⟩ := by
    rw [execOps_one, execOp_main env op (by cases isRoll <;> subst hop <;> simp)
        (by cases isRoll <;> subst hop <;> simp)]
    cases isRoll <;> subst hop
    · have : Vm.main env Opcode.OP_PICK.toByte (Vm.numBytes k :: st) =
          (Vm.num? 4 (Vm.numBytes k)).bind fun n => if 0 ≤ n then
            (st[n.toNat]?).map fun x => x :: st else none := rfl
      simp only [Bool.false_eq_true, if_false]
      rw [this, hnum, Option.bind_some, if_pos (by omega), Int.toNat_natCast, hc]
      rfl
    · have : Vm.main env Opcode.OP_ROLL.toByte (Vm.numBytes k :: st) =
          (Vm.num? 4 (Vm.numBytes k)).bind fun n => if 0 ≤ n then
            (st[n.toNat]?).map fun x => x :: st.eraseIdx n.toNat else none := rfl
      simp only [if_true]
      rw [this, hnum, Option.bind_some, if_pos (by omega), Int.toNat_natCast, hc]
      rfl
  have hops : Operands op (Vm.numBytes k :: st) [Vm.numBytes k] := by
    refine ⟨⟨[.integer], []⟩, st, ?_, rfl, .cons ⟨_, rfl⟩ .nil⟩
    cases isRoll <;> subst hop <;> rfl
  refine ⟨?_, fun V' hV => ?_⟩
  · have : ∃ args, Operands op (Vm.numBytes k :: st) args ∧
        (execOps env [.code op] ⟨Vm.numBytes k :: st, A⟩ = none → ¬ Ready env op args ∨ Oversized op args) :=
      ⟨_, hops, fun h => by rw [hstep] at h; cases h⟩
    cases isRoll <;> subst hop <;> exact this
  · rw [hstep] at hV; cases hV
    refine ⟨_, g1, .cons (same_last hs f2 hx hcz) ?_, by rw [f5]; exact e5.2⟩
    rw [f4]
    cases isRoll with
    | false => exact e5.1
    | true =>
      have := e5.1
      dsimp only at this
      simp only [if_true, List.eraseIdx_eq_take_drop_succ]
      exact List.rel_append (List.forall₂_take k this) (List.forall₂_drop (k + 1) this)

theorem checked_of_ordinary {env : Vm.Env} {c : Opcode} {inp : Option (List OpcodeInput)}
    {out : Option (List String)} {V : Vm.State} (hc : c ≠ .OP_FROMALTSTACK)
    (h : ∃ args, Operands c V.stack args ∧
      (execOps env [.code c] V = none → ¬ Ready env c args ∨ Oversized c args)) :
    Checked env (.opcode ⟨.op c, inp, out⟩) [.code c] V := by
  cases c <;> first | exact absurd rfl hc | exact h

theorem opcode_types (env : Vm.Env) (Δ : String → Option FTy) (tyOf : String → Option FTy) (k? : Option Nat)
    (stmt : OpcodeStmt) (g g' : Gen) (e : List Emit) (is is' : List Idents) (code : List RustStmt)
    (hk : ∀ k, k? = some k → SDepth g k) (hok : stmtOk k?.isSome stmt = true)
    (h : runOpcode stmt g = .ok (e, g')) (hi : identsOpcode tyOf stmt g is = some (code, is'))
    (hc : ∀ s ∈ code, Consistent Δ s) (hs : ∀ s ∈ code, Same Δ s) :
    LeafTyped env Δ k? (.opcode stmt) (e.map Emit.op) g.active is is' := by
  obtain ⟨hd, inp, out⟩ := stmt
  have hdepth : ∀ x off, runDepthOf x off ⟨hd, inp, out⟩ g = .ok (e, g') →
      (∃ y, code = [.bind y .integer] ∧ is' = pushIdent y g.active is) →
      (∀ ops V, Checked env (.opcode ⟨hd, inp, out⟩) ops V) →
      LeafTyped env Δ k? (.opcode ⟨hd, inp, out⟩) (e.map Emit.op) g.active is is' := by
    rintro x off hr ⟨y, rfl, rfl⟩ hch
    obtain ⟨depth, fresh, _, _, _, _, hops, _⟩ := runDepthOf_ok hr
    rw [hops]
    exact push_typed (t := .integer) hch rfl (hc _ List.mem_cons_self) ⟨_, rfl⟩
  cases hd with
  | depthOf =>
    simp only [identsOpcode, Option.some.injEq, Prod.mk.injEq] at hi
    simp only [runOpcode] at h
    split at h
    · exact hdepth _ _ h ⟨_, hi.1.symm, hi.2.symm⟩ (fun _ _ => trivial)
    · cases h
  | depthOfOffset =>
    simp only [identsOpcode, Option.some.injEq, Prod.mk.injEq] at hi
    simp only [runOpcode] at h
    split at h
    · exact hdepth _ _ h ⟨_, hi.1.symm, hi.2.symm⟩ (fun _ _ => trivial)
    · cases h
  | transmute =>
    have he : e = [] := by
      simp only [runOpcode] at h
      unfold runTransmute at h
      split at h
      · replace h := of_ite_err h
        obtain ⟨_, _, h⟩ := Res.bind_eq_ok.mp h
        cases h; rfl
      · cases h
    have his : is' = is := by
      simp only [identsOpcode] at hi
      split at hi
      · split at hi
        · obtain ⟨_, _, hi⟩ := Option.bind_eq_some_iff.mp hi
          obtain ⟨_, _, hi⟩ := Option.bind_eq_some_iff.mp hi
          obtain ⟨_, _, hi⟩ := Option.map_eq_some_iff.mp hi
          cases hi; rfl
        · cases hi
      · cases hi
    subst he his
    refine ⟨rfl, fun j i V _ hj ht _ => ⟨trivial, fun V' hV => ?_⟩⟩
    cases hV
    exact ⟨i, hj, ht⟩
  | unknown => cases h
  | op c =>
    have hpr : ∀ (isRoll : Bool), c = (if isRoll then .OP_ROLL else .OP_PICK) →
        identsOpcode.pickRoll g is c isRoll = some (code, is') →
        runPickRoll c isRoll ⟨.op c, inp, out⟩ g = .ok (e, g') → k?.isSome = true →
        LeafTyped env Δ k? (.opcode ⟨.op c, inp, out⟩) (e.map Emit.op) g.active is is' := by
      intro isRoll hop hid hrun hsome
      obtain ⟨k, rfl⟩ := Option.isSome_iff_exists.mp hsome
      obtain ⟨hk31, x, hsd⟩ := hk k rfl
      unfold identsOpcode.pickRoll at hid
      split at hid
      · next top g1 hpop =>
        obtain ⟨s1, n1, v0, s0, rest0, m1, m2, m3⟩ := pop_spec g g1 top hpop
        obtain ⟨i0, r0, j0, z1, z2, z3, z4⟩ := hsd v0 s0 m1 m2
        rw [m3] at z1
        simp only [List.cons.injEq] at z1
        rw [← z1.1] at z2
        rw [z2] at hid
        obtain ⟨⟨ds, is1⟩, p1, hid⟩ := Option.bind_eq_some_iff.mp hid
        obtain ⟨⟨xs, is2⟩, p2, hid⟩ := Option.bind_eq_some_iff.mp hid
        obtain ⟨y, p3, hid⟩ := Option.map_eq_some_iff.mp hid
        simp only [Prod.mk.injEq] at hid
        obtain ⟨rfl, rfl⟩ := hid
        rw [runPickRoll_emit hrun]
        exact pickRoll_typed env Δ k hk31 isRoll c hop inp out p1 (by simpa using p2) p3 (hs _ (by simp))
      · cases hid
    by_cases c1 : c = .OP_TOALTSTACK
    · subst c1
      simp only [identsOpcode] at hi
      obtain ⟨⟨xs, is1⟩, p1, hi⟩ := Option.bind_eq_some_iff.mp hi
      obtain ⟨x, p2, hi⟩ := Option.map_eq_some_iff.mp hi
      simp only [Prod.mk.injEq] at hi
      obtain ⟨rfl, rfl⟩ := hi
      have he : e.map Emit.op = [.code .OP_TOALTSTACK] := by
        simp only [runOpcode] at h
        obtain ⟨_, _, h⟩ := Res.bind_eq_ok.mp h
        obtain ⟨_, _, h⟩ := Res.bind_eq_ok.mp h
        obtain ⟨_, _, h⟩ := Res.bind_eq_ok.mp h
        cases h; rfl
      rw [he]
      exact toalt_typed env Δ k? inp out p1 p2 (hs _ (by simp))
    by_cases c2 : c = .OP_FROMALTSTACK
    · subst c2
      simp only [identsOpcode] at hi
      obtain ⟨⟨xs, is1⟩, p1, hi⟩ := Option.bind_eq_some_iff.mp hi
      obtain ⟨x, p2, hi⟩ := Option.map_eq_some_iff.mp hi
      simp only [Prod.mk.injEq] at hi
      obtain ⟨rfl, rfl⟩ := hi
      have he : e.map Emit.op = [.code .OP_FROMALTSTACK] := by
        simp only [runOpcode] at h
        obtain ⟨_, _, h⟩ := Res.bind_eq_ok.mp h
        obtain ⟨_, _, h⟩ := Res.bind_eq_ok.mp h
        obtain ⟨_, _, h⟩ := Res.bind_eq_ok.mp h
        cases h; rfl
      rw [he]
      exact fromalt_typed env Δ k? inp out p1 p2 (hs _ (by simp))
    by_cases c3 : c = .OP_PICK
    · subst c3
      simp only [stmtOk, Bool.and_eq_true] at hok
      exact hpr false rfl hi h hok.2
    by_cases c4 : c = .OP_ROLL
    · subst c4
      simp only [stmtOk, Bool.and_eq_true] at hok
      exact hpr true rfl hi h hok.2
    have h' : (if inNameMap c then runOther c ⟨.op c, inp, out⟩ g else .err "Unknown opcode/function") =
        .ok (e, g') := by
      rw [← h]
      unfold runOpcode
      dsimp only
      split <;> simp_all
    have hi' : ((c.behavior).bind fun b => (popNIdents g.active b.inputTypes.length is).map fun (xss, is) =>
        let outs := (List.range (outputCount b out)).map fun i => freshName (g.nIdent + i)
        ([RustStmt.call outs c xss], outs.foldl (fun is x => pushIdent x g.active is) is)) =
        some (code, is') := by
      rw [← hi]
      unfold identsOpcode
      dsimp only
      split <;> simp_all
    split at h'
    · obtain ⟨b, _, hi'⟩ := Option.bind_eq_some_iff.mp hi'
      obtain ⟨⟨xss, is1⟩, p1, hi'⟩ := Option.map_eq_some_iff.mp hi'
      simp only [Prod.mk.injEq] at hi'
      obtain ⟨rfl, rfl⟩ := hi'
      obtain ⟨r1, r2⟩ := ordinary_typed env (o := c) (by
          rintro (rfl | rfl | rfl | rfl)
          · exact c3 rfl
          · exact c4 rfl
          · exact c1 rfl
          · exact c2 rfl) p1 (hc _ List.mem_cons_self) (hs _ List.mem_cons_self)
      rw [runOther_emit h']
      refine ⟨r1, fun j i V ha hj ht _ => ?_⟩
      obtain ⟨q1, q2⟩ := r2 j i V ha hj ht
      refine ⟨checked_of_ordinary c2 ?_, ?_⟩
      · obtain ⟨args, q3, q4⟩ := q1
        exact ⟨args, q3, fun hn => q4 (by rw [execOps_one] at hn; exact hn)⟩
      · intro V' hV
        rw [execOps_one] at hV
        exact q2 V' hV
    · cases h'

theorem leaf_types (env : Vm.Env) (Δ : String → Option FTy) (tyOf : String → Option FTy) (k? : Option Nat)
    (l : Leaf) (g g' : Gen) (e : List Emit) (is is' : List Idents) (code : List RustStmt)
    (hk : ∀ k, k? = some k → SDepth g k) (hok : leafOk k?.isSome l = true)
    (h : runLeaf l g = .ok (e, g')) (hi : identsLeaf tyOf l g is = some (code, is'))
    (hc : ∀ s ∈ code, Consistent Δ s) (hs : ∀ s ∈ code, Same Δ s) :
    LeafTyped env Δ k? l (e.map Emit.op) g.active is is' := by
  cases l with
  | push op name =>
    simp only [identsLeaf, Option.map_eq_some_iff, Prod.mk.injEq] at hi
    obtain ⟨t, h1, rfl, rfl⟩ := hi
    simp only [runLeaf, Res.ok.injEq] at h
    unfold runPush at h
    cases h
    obtain ⟨b, b1, b2⟩ := pushType_is h1
    exact push_typed (fun _ _ => trivial) b1 (hc _ List.mem_cons_self) b2
  | opcode stmt => exact opcode_types env Δ tyOf k? stmt g g' e is is' code hk hok h hi hc hs
  | forLoop => cases h
  | rustIf => cases h

/-! ## Whole scripts -/

theorem identsOther {tyOf : String → Option FTy} {stmt : OpcodeStmt} {c : Opcode} (hh : stmt.head = .op c)
    (hc : c = .OP_IF ∨ c = .OP_ELSE ∨ c = .OP_ENDIF) {g : Gen} {is is' : List Idents} {code : List RustStmt}
    (h : identsOpcode tyOf stmt g is = some (code, is')) :
    ∃ b outs xss is1, c.behavior = some b ∧ popNIdents g.active b.inputTypes.length is = some (xss, is1) ∧
      code = [.call outs c xss] ∧ is' = outs.foldl (fun is x => pushIdent x g.active is) is1 := by
  unfold identsOpcode at h
  rw [hh] at h
  rcases hc with rfl | rfl | rfl
  all_goals
    dsimp only at h
    obtain ⟨b, hb, h⟩ := Option.bind_eq_some_iff.mp h
    obtain ⟨⟨xss, is1⟩, p1, h⟩ := Option.map_eq_some_iff.mp h
    simp only [Prod.mk.injEq] at h
    obtain ⟨rfl, rfl⟩ := h
    exact ⟨b, _, xss, is1, hb, p1, rfl, rfl⟩

theorem outs_nil {Δ : String → Option FTy} {outs : List String} {c : Opcode} {xss : List (List String)}
    (hc : c = .OP_IF ∨ c = .OP_ELSE ∨ c = .OP_ENDIF) (h : Consistent Δ (.call outs c xss)) : outs = [] := by
  obtain ⟨f, ts, σ, rs, h1, _, _, h4, h5⟩ := h
  have : f.results = [] := by rcases hc with rfl | rfl | rfl <;> cases h1 <;> rfl
  rw [this] at h4
  cases h4
  cases h5
  rfl

theorem if_types {tyOf : String → Option FTy} {Δ : String → Option FTy} {stmt : OpcodeStmt}
    (hh : stmt.head = .op .OP_IF) {g : Gen} {is is' : List Idents} {code : List RustStmt}
    (h : identsOpcode tyOf stmt g is = some (code, is')) (hc : ∀ s ∈ code, Consistent Δ s) :
    is'.length = is.length ∧ ∀ (j : Nat) i V, g.active[j]? = some true → is[j]? = some i → Typed Δ i V →
      ∃ b st i1, V.stack = b :: st ∧ is'[j]? = some i1 ∧ Typed Δ i1 ⟨st, V.alt⟩ := by
  obtain ⟨b, outs, xss, is1, hb, hp, rfl, rfl⟩ := identsOther hh (.inl rfl) h
  have := outs_nil (.inl rfl) (hc _ List.mem_cons_self)
  subst this
  cases hb
  simp only [List.foldl_nil]
  obtain ⟨l1, l2⟩ := popNIdents_spec hp
  refine ⟨l1, ?_⟩
  rintro j i ⟨S, A⟩ ha hi ⟨h1, h2⟩
  obtain ⟨i1, e1, as, e2, e3, e4⟩ := l2 j i ha hi
  simp only [popNIdents, Option.bind_eq_some_iff, Option.map_eq_some_iff, List.length_cons, List.length_nil] at hp
  obtain ⟨⟨xs, is2⟩, _, ⟨_, _⟩, hp2, hp3⟩ := hp
  cases hp2
  cases hp3
  cases e2 with
  | cons a b =>
    cases b
    dsimp only at h1 h2 ⊢
    rw [e3] at h1
    simp only [List.reverse_cons, List.reverse_nil, List.nil_append, List.singleton_append] at h1
    cases h1 with
    | cons c d => exact ⟨_, _, i1, rfl, e1, d, by rw [e4]; exact h2⟩

theorem close_types {tyOf : String → Option FTy} {Δ : String → Option FTy} {stmt : OpcodeStmt} {c : Opcode}
    (hcc : c = .OP_ELSE ∨ c = .OP_ENDIF)
    (hh : stmt.head = .op c) {g : Gen} {is is' : List Idents} {code : List RustStmt}
    (h : identsOpcode tyOf stmt g is = some (code, is')) (hc : ∀ s ∈ code, Consistent Δ s) : is' = is := by
  obtain ⟨b, outs, xss, is1, hb, hp, rfl, rfl⟩ := identsOther hh (.inr hcc) h
  have := outs_nil (.inr hcc) (hc _ List.mem_cons_self)
  subst this
  have : b.inputTypes = [] := by rcases hcc with rfl | rfl <;> cases hb <;> rfl
  rw [this] at hp
  cases hp
  rfl

theorem mergeIdents_length (bs : List Bool) (ts es : List Idents) : (mergeIdents bs ts es).length = es.length := by
  induction bs generalizing ts es with
  | nil => rfl
  | cons b bs ih =>
    cases ts with
    | nil => rfl
    | cons t ts =>
      cases es with
      | nil => rfl
      | cons e es => simp [mergeIdents, ih]

theorem mergeIdents_get (bs : List Bool) (ts es : List Idents) (j : Nat) (b : Bool) (t e : Idents)
    (h1 : bs[j]? = some b) (h2 : ts[j]? = some t) (h3 : es[j]? = some e) :
    (mergeIdents bs ts es)[j]? = some (if b then t else e) := by
  induction bs generalizing ts es j with
  | nil => simp at h1
  | cons b' bs ih =>
    cases ts with
    | nil => simp at h2
    | cons t' ts =>
      cases es with
      | nil => simp at h3
      | cons e' es =>
        cases j with
        | zero =>
          simp only [List.getElem?_cons_zero, Option.some.injEq] at h1 h2 h3
          subst h1 h2 h3
          rfl
        | succ j =>
          simp only [List.getElem?_cons_succ] at h1 h2 h3
          simpa [mergeIdents] using ih ts es j h1 h2 h3

/-- The variables of a variant have the types of the items. -/
def TracksI (Δ : String → Option FTy) (v : String) (cond : Predicate) (g : Gen) (is : List Idents) (L : LState) :
    Prop :=
  ∃ (j : Nat) (i : Idents), (signature g)[j]? = some (v, cond) ∧ is[j]? = some i ∧ Typed Δ i L.erase

theorem active_of {g : Gen} {j : Nat} {v : String} {cond : Predicate} (h : (signature g)[j]? = some (v, cond))
    (hh : cond.holds g.atoms = true) : g.active[j]? = some true := by
  unfold Gen.active
  unfold signature at h
  rw [List.getElem?_map] at h ⊢
  obtain ⟨p, h1, h2⟩ := Option.map_eq_some_iff.mp h
  rw [h1]
  cases h2
  simp [hh]

theorem sig_index {g : Gen} {v : String} {cond cond' : Predicate} {j k : Nat}
    (hk : (g.states.map Prod.fst).Nodup) (h1 : (signature g)[j]? = some (v, cond))
    (h2 : (signature g)[k]? = some (v, cond')) : j = k := by
  have e : (signature g).map Prod.fst = g.states.map Prod.fst := by simp [signature]
  have a1 : ((signature g).map Prod.fst)[j]? = some v := by rw [List.getElem?_map, h1]; rfl
  have a2 : ((signature g).map Prod.fst)[k]? = some v := by rw [List.getElem?_map, h2]; rfl
  rw [e] at a1 a2
  obtain ⟨b1, b2⟩ := List.getElem?_eq_some_iff.mp a1
  obtain ⟨b3, b4⟩ := List.getElem?_eq_some_iff.mp a2
  exact (List.Nodup.getElem_inj_iff hk).mp (b2.trans b4.symm)

theorem depthOf_ne_fail (x : String) (off : Int) (stmt : OpcodeStmt) (L : LState) :
    Named.depthOf x off stmt L ≠ .fail := by
  unfold Named.depthOf
  split
  · intro h; cases h
  · split <;> (intro h; cases h)

theorem leafTyped_of {env : Vm.Env} {l : Leaf} {ops : List (Op Bytes)} {L : LState}
    (h : Checked env l ops L.erase) (hf : Named.leaf env l L = .fail → execOps env ops L.erase = none) :
    leafTyped env l L := by
  unfold leafTyped
  unfold Checked at h
  split
  · dsimp only at h
    intro hn
    apply h
    simp [LState.erase, hn]
  · next o i n hne =>
    split at h
    · next heq => cases heq; exact (hne rfl).elim
    · next heq =>
      cases heq
      obtain ⟨args, h1, h2⟩ := h
      exact ⟨args, h1, fun q => h2 (hf q)⟩
    · next hn => exact absurd rfl (hn _ _ _)
  · next hn1 hn2 =>
    intro q
    cases l with
    | push op name =>
      simp only [Named.leaf] at q
      split at q <;> cases q
    | forLoop => cases q
    | rustIf => cases q
    | opcode stmt =>
      obtain ⟨hd, i, o⟩ := stmt
      cases hd with
      | op c => exact hn2 _ _ _ rfl
      | unknown => cases q
      | depthOf =>
        simp only [Named.leaf] at q
        split at q
        all_goals first
          | exact absurd q (depthOf_ne_fail _ _ _ _)
          | (cases q)
          | (rename_i hq; cases hq)
      | depthOfOffset =>
        simp only [Named.leaf] at q
        split at q
        all_goals first
          | exact absurd q (depthOf_ne_fail _ _ _ _)
          | (cases q)
          | (rename_i hq; cases hq)
      | transmute =>
        simp only [Named.leaf] at q
        split at q
        all_goals first
          | (split at q <;> cases q)
          | (cases q)
          | (rename_i hq; cases hq)

theorem erase_stack {L : LState} {top : LItem} {st : List LItem} (h : L.stack = top :: st) :
    L.erase = ⟨top.value :: st.map LItem.value, L.alt.map LItem.value⟩ := by
  simp [LState.erase, h]

theorem ok?_some {ε α : Type} {r : Res ε α} {a : α} (h : ok? r = some a) : r = .ok a := by
  cases r <;> cases h
  rfl

theorem typed_run (env : Vm.Env) (cond : Predicate) (p : Prog) (known : List Atom) (s : LState)
    (h : Named.runTyped env cond p known s ≠ .undecided) :
    Named.run env cond p known s = Named.runTyped env cond p known s := by
  induction p generalizing known s with
  | nil => rfl
  | leaf l rest ih =>
    simp only [Named.run, Named.runTyped] at h ⊢
    cases hl : Named.leaf env l s with
    | ok s' => rw [hl] at h; exact ih known s' h
    | _ => rfl
  | scriptIf i t e el en rest iht ihe ihr =>
    simp only [Named.run, Named.runTyped] at h ⊢
    split at h
    · next x top st hi hs =>
      rw [hi, hs]
      dsimp only
      split at h
      · next ha => rw [if_pos ha, if_pos ha]
      · next ha =>
        rw [if_neg ha, if_neg ha]
        split at h
        · exact absurd rfl h
        · next hc =>
          rw [if_neg hc, if_neg hc]
          split at h
          · next ht =>
            rw [if_pos ht, if_pos ht]
            cases hr : Named.runTyped env cond t (known ++ [Atom.mk x true]) ⟨st, s.alt⟩ with
            | ok s' =>
              rw [hr] at h
              simp only [Outcome.andThen] at h
              split at h
              · exact absurd rfl h
              · next hc2 =>
                rw [iht (known ++ [Atom.mk x true]) ⟨st, s.alt⟩ (by rw [hr]; simp), hr]
                simp only [Outcome.andThen]
                rw [if_neg hc2, if_neg (by simp [hc2])]
                exact ihr known s' h
            | undecided => rw [hr] at h; exact absurd rfl h
            | fail => rw [iht (known ++ [Atom.mk x true]) ⟨st, s.alt⟩ (by rw [hr]; simp), hr]; rfl
            | mismatch => rw [iht (known ++ [Atom.mk x true]) ⟨st, s.alt⟩ (by rw [hr]; simp), hr]; rfl
          · next ht =>
            rw [if_neg ht, if_neg ht]
            cases hr : Named.runTyped env cond el (known ++ [Atom.mk x false]) ⟨st, s.alt⟩ with
            | ok s' =>
              rw [hr] at h
              rw [ihe (known ++ [Atom.mk x false]) ⟨st, s.alt⟩ (by rw [hr]; simp), hr]
              exact ihr known s' h
            | undecided => rw [hr] at h; exact absurd rfl h
            | fail => rw [ihe (known ++ [Atom.mk x false]) ⟨st, s.alt⟩ (by rw [hr]; simp), hr]; rfl
            | mismatch => rw [ihe (known ++ [Atom.mk x false]) ⟨st, s.alt⟩ (by rw [hr]; simp), hr]; rfl
    all_goals split <;> simp_all

theorem typed_exec (env : Vm.Env) (cond : Predicate) (p : Prog) (known : List Atom) (s : LState)
    (h : Named.runTyped env cond p known s ≠ .undecided) :
    Named.runTyped env cond p known s = exec env p s := by
  have := typed_run env cond p known s h
  rw [← this]
  exact run_exec env cond p known s (by rw [this]; exact h)

theorem prog_types (env : Vm.Env) (Δ : String → Option FTy) (tyOf : String → Option FTy) (p : Prog)
    (k? : Option Nat) (g g' : Gen) (e : List Emit) (is is' : List Idents) (code : List RustStmt)
    (hwn : WellNested p) (hok : progOk k?.isSome p = true) (hg : GoodGen g)
    (hkeys : (g.states.map Prod.fst).Nodup)
    (hk : ∀ k, k? = some k → SDepth g k) (h : runProg p g = .ok (e, g'))
    (hi : identsProg tyOf p g is = some (code, is'))
    (hc : ∀ s ∈ code, Consistent Δ s) (hs : ∀ s ∈ code, Same Δ s) :
    is'.length = is.length ∧
    ∀ v cond L, Tracks v cond g L → TracksI Δ v cond g is L → cond.holds g.atoms = true →
      (∀ k, k? = some k → DDepth L k) → Named.runTyped env cond p g.atoms L ≠ .undecided →
      TypesOk env p L ∧ ∀ L', exec env p L = .ok L' → TracksI Δ v cond g' is' L' := by
  induction p generalizing k? g g' e is is' code with
  | nil =>
    cases h
    cases hi
    refine ⟨rfl, fun v cond L _ ht _ _ _ => ⟨trivial, fun L' hL => ?_⟩⟩
    cases hL
    exact ht
  | leaf l rest ih =>
    obtain ⟨w1, w2, w3, w4⟩ := hwn
    simp only [progOk, Bool.and_eq_true] at hok
    simp only [runProg] at h
    obtain ⟨⟨e1, g1⟩, h1, h⟩ := Res.bind_eq_ok.mp h
    obtain ⟨⟨e2, g2⟩, h2, h⟩ := Res.bind_eq_ok.mp h
    cases h
    simp only [identsProg, h1, ok?, Option.bind_some, Option.bind_eq_some_iff, Option.map_eq_some_iff] at hi
    obtain ⟨⟨c1, is1⟩, hi1, ⟨c2, is2⟩, hi2, hi⟩ := hi
    cases hi
    dsimp only at h2 hi2 hc hs ⊢
    obtain ⟨k'?, a1, a2, a3, a4, a5, a6, a7⟩ := leaf_sim env k? l g g1 e1 hg hk w1 w2 w3 hok.1 h1
    obtain ⟨z1, z2⟩ := leaf_types env Δ tyOf k? l g g1 e1 is is1 c1 hk hok.1 h1 hi1
      (fun s h => hc s (List.mem_append_left _ h)) (fun s h => hs s (List.mem_append_left _ h))
    obtain ⟨k2?, hk2, hk2'⟩ : ∃ k2? : Option Nat, k2?.isSome = isDepthOf l ∧
        (∀ k, k2? = some k → k'? = some k) := by
      cases hd : isDepthOf l with
      | true => exact ⟨k'?, a6 hd, fun k h => h⟩
      | false => exact ⟨none, rfl, by simp⟩
    obtain ⟨b1, b2⟩ := ih k2? g1 g2 e2 is1 is2 c2 w4 (by rw [hk2]; exact hok.2) a3
      (by rw [keys_of_signature a1]; exact hkeys) (fun k hk => a5 k (hk2' k hk)) h2 hi2
      (fun s h => hc s (List.mem_append_right _ h)) (fun s h => hs s (List.mem_append_right _ h))
    refine ⟨b1.trans z1, ?_⟩
    rintro v cond L ht ⟨j, i, t1, t2, t3⟩ hh hdd hun
    have hl := a7 v cond L ht hh hdd
    obtain ⟨q1, q2⟩ := z2 j i L.erase (active_of t1 hh) t2 t3 (by
      intro k hk
      obtain ⟨top, st, d1, d2⟩ := hdd k hk
      exact ⟨_, by rw [erase_stack d1, d2]⟩)
    have hlt : leafTyped env l L := leafTyped_of q1 (by
      intro hf; rw [hf] at hl; exact hl)
    simp only [Named.runTyped] at hun
    simp only [TypesOk, exec]
    cases hr : Named.leaf env l L with
    | ok L1 =>
      rw [hr] at hl hun
      obtain ⟨r1, r2, r3⟩ := hl
      obtain ⟨i1, f1, f2⟩ := q2 _ r2
      obtain ⟨y1, y2⟩ := b2 v cond L1 r1 ⟨j, i1, by rw [a1]; exact t1, f1, f2⟩ (by rw [a2]; exact hh)
        (fun k hk => r3 k (hk2' k hk)) (by rw [a2]; exact hun)
      exact ⟨⟨hlt, fun s' hs' => by cases hs'; exact y1⟩, fun L' hL => y2 L' hL⟩
    | _ => exact ⟨⟨hlt, fun s' hs' => nomatch hs'⟩, fun L' hL => nomatch hL⟩
  | scriptIf ifOp thenStmts elseOp elseStmts endifOp rest iht ihe ihr =>
    obtain ⟨w1, w2, w3, w4, w5, w6, w7⟩ := hwn
    simp only [progOk, Bool.and_eq_true] at hok
    obtain ⟨⟨⟨ok1, ok2⟩, ok3⟩, ok4⟩ := hok
    simp only [runProg] at h
    obtain ⟨⟨e1, g1⟩, h1, h⟩ := Res.bind_eq_ok.mp h
    obtain ⟨x, hx, h⟩ := Res.bind_eq_ok.mp h
    obtain ⟨⟨e2, gt⟩, h2, h⟩ := Res.bind_eq_ok.mp h
    obtain ⟨⟨e3, gt'⟩, h3, h⟩ := Res.bind_eq_ok.mp h
    obtain ⟨⟨e4, ge⟩, h4, h⟩ := Res.bind_eq_ok.mp h
    obtain ⟨⟨e5, ge'⟩, h5, h⟩ := Res.bind_eq_ok.mp h
    obtain ⟨states, h6, h⟩ := Res.bind_eq_ok.mp h
    obtain ⟨⟨e6, g6⟩, h7, h⟩ := Res.bind_eq_ok.mp h
    cases h
    dsimp only at h2 h3 h4 h5 h6 h7
    -- the variables
    simp only [identsProg, h1, hx, h2, h3, h4, h5, h6, ok?, Option.bind_some, Option.bind_eq_some_iff,
      Option.map_eq_some_iff] at hi
    obtain ⟨⟨c1, is1⟩, hi1, ⟨c2, is2⟩, hi2, ⟨c3, is3⟩, hi3, ⟨c4, is4⟩, hi4, ⟨c5, is5⟩, hi5, ⟨c6, is6⟩, hi6, hi⟩ := hi
    cases hi
    dsimp only at hi1 hi2 hi3 hi4 hi5 hi6 hc hs ⊢
    have hmem : ∀ s, (s ∈ c1 ∨ s ∈ c2 ∨ s ∈ c3 ∨ s ∈ c4 ∨ s ∈ c5 ∨ s ∈ c6) → Consistent Δ s ∧ Same Δ s := by
      intro s h
      have : s ∈ c1 ++ c2 ++ c3 ++ c4 ++ c5 ++ c6 := by
        simp only [List.mem_append]
        tauto
      exact ⟨hc s this, hs s this⟩
    obtain ⟨i1, i2, i3, item, i4, i5⟩ := if_spec ifOp w1 g g1 e1 x hg h1 hx
    have k1 : (g1.states.map Prod.fst).Nodup := by rw [keys_of_signature i5.signature]; exact hkeys
    obtain ⟨t1, t2, t3, tst, ct, simt⟩ := prog_sim env thenStmts none
      { g1 with atoms := g1.atoms ++ [⟨x, true⟩] } gt e2 w5 ok2 i3 k1 (by simp) h2
    obtain ⟨lt, rt⟩ := iht none { g1 with atoms := g1.atoms ++ [⟨x, true⟩] } gt e2 is1 is2 c2 w5 ok2
      i3 k1 (by simp) h2 hi2 (fun s h => (hmem s (by tauto)).1) (fun s h => (hmem s (by tauto)).2)
    obtain ⟨l1, l2, l3⟩ := else_code elseOp gt gt' e3 w2 h3
    obtain ⟨u1, u2, u3, tse, ce, sime⟩ := prog_sim env elseStmts none
      { g1 with atoms := g1.atoms ++ [⟨x, false⟩], nIdent := gt'.nIdent } ge e4 w6 ok3 i3 k1 (by simp) h4
    obtain ⟨le, re⟩ := ihe none { g1 with atoms := g1.atoms ++ [⟨x, false⟩], nIdent := gt'.nIdent }
      ge e4 is1 is4 c4 w6 ok3 i3 k1 (by simp) h4 hi4 (fun s h => (hmem s (by tauto)).1)
      (fun s h => (hmem s (by tauto)).2)
    have hen : endifOp.head = .op .OP_ENDIF := by
      unfold closes at w4
      split at w4
      · next q => cases q; rfl
      · cases w4
    obtain ⟨n1, n2, n3⟩ := bracket_spec .OP_ENDIF (.inr rfl) endifOp hen ge ge' e5 h5
    have hsig : signature gt' = signature ge' := by
      have p1 : signature gt' = signature gt := by simp only [signature, l1]
      have p2 : signature ge' = signature ge := by simp only [signature, n2]
      rw [p1, p2, t1, u1]
      rfl
    have hsige : signature ge' = signature g1 := by
      have p2 : signature ge' = signature ge := by simp only [signature, n2]
      rw [p2, u1]
      rfl
    have ke : (ge'.states.map Prod.fst).Nodup := by rw [keys_of_signature hsige]; exact k1
    obtain ⟨m1, m2, m3, m4⟩ := merge_spec gt' ge' _ _ states hsig ke h6
    have gm : GoodGen { ge' with states := states, atoms := g1.atoms } := by
      intro p hp
      rcases m2 p hp with hp | hp
      · rw [l1] at hp; exact t3 p hp
      · rw [n2] at hp; exact u3 p hp
    have sigm : signature { ge' with states := states, atoms := g1.atoms } = signature g := by
      rw [← i5.signature, ← hsige]
      exact m1
    obtain ⟨lr, rr⟩ := ihr none { ge' with states := states, atoms := g1.atoms } g6 e6 _ is6 c6 w7 ok4 gm
      (by rw [keys_of_signature sigm]; exact hkeys) (by simp) h7 hi6 (fun s h => (hmem s (by tauto)).1)
      (fun s h => (hmem s (by tauto)).2)
    -- the brackets
    have hif : ifOp.head = .op .OP_IF := by
      unfold opens at w1
      split at w1
      · next q => cases q; rfl
      · next q =>
        cases q
        exfalso
        have : e1.map Emit.op = [.code .OP_NOTIF] := by
          simp only [runOpcode] at h1
          exact runOther_emit (h1 : runOther .OP_NOTIF _ g = .ok (e1, g1))
        rw [this] at i1
        cases i1
      · cases w1
    obtain ⟨f1, f2⟩ := if_types hif hi1 (fun s h => (hmem s (by tauto)).1)
    have f3 : is3 = is2 := by
      cases elseOp with
      | none => cases hi3; rfl
      | some o =>
        have hh : o.head = .op .OP_ELSE := by
          have := w2 o rfl
          unfold isElse at this
          split at this
          · next q => cases q; rfl
          · cases this
        exact close_types (.inl rfl) hh hi3 (fun s h => (hmem s (by tauto)).1)
    have f5 : is5 = is4 := close_types (.inr rfl) hen hi5 (fun s h => (hmem s (by tauto)).1)
    subst f3 f5
    refine ⟨by rw [lr, mergeIdents_length, le, f1], ?_⟩
    rintro v cond L ht ⟨j, i, j1, j2, j3⟩ hh _ hun
    obtain ⟨b, stv, ii, y1, y2, y3⟩ := f2 j i L.erase (active_of j1 hh) j2 j3
    simp only [TypesOk]
    obtain ⟨s, hm, hcd, hst, ha⟩ := ht
    obtain ⟨s1, hm1, hc1, hP, _⟩ := i5.mem hm
    obtain ⟨it, z1, z2, z3⟩ := hP (by rw [hcd]; exact hh)
    rw [z1] at hst
    simp only [Named.runTyped, i2] at hun
    simp only [exec, i2]
    cases hL : L.stack with
    | nil => rw [hL] at hst; simp at hst
    | cons top st =>
      rw [hL] at hst hun
      simp only [List.map_cons, List.cons.injEq] at hst
      dsimp only at hun ⊢
      rw [← hst.1, z3, i4] at hun ⊢
      simp only [Bool.not_true, Bool.false_eq_true, if_false] at hun ⊢
      have hT : Tracks v cond g1 ⟨st, L.alt⟩ := ⟨s1, hm1, hc1.trans hcd, hst.2, by rw [z2]; exact ha⟩
      have hat : g1.atoms = g.atoms := i5.1
      have hjs : (signature g1)[j]? = some (v, cond) := by rw [i5.signature]; exact j1
      have hI : ∀ a n, TracksI Δ v cond { g1 with atoms := a, nIdent := n } is1 ⟨st, L.alt⟩ := by
        intro a n
        refine ⟨j, ii, hjs, y2, ?_⟩
        rw [erase_stack hL] at y1 y3
        simp only [List.cons.injEq] at y1
        rw [← y1.2] at y3
        exact y3
      -- the variables after the conditional
      have hlen2 : ∀ L1 gx, TracksI Δ v cond gx is3 L1 → signature gx = signature g1 →
          cond.holds (g.atoms ++ [⟨x, true⟩]) = true → cond.holds (g.atoms ++ [⟨x, false⟩]) = false →
          TracksI Δ v cond { ge' with states := states, atoms := g1.atoms }
            (mergeIdents (thenOnly (g1.atoms ++ [⟨x, true⟩]) (g1.atoms ++ [⟨x, false⟩]) ge'.states) is3 is5) L1 := by
        rintro L1 gx ⟨j', i', v1, v2, v3⟩ hsx hc1 hc2
        rw [hsx] at v1
        have := sig_index k1 hjs v1
        subst this
        obtain ⟨ie, hie⟩ : ∃ ie, is5[j]? = some ie := by
          obtain ⟨q, _⟩ := List.getElem?_eq_some_iff.mp y2
          exact ⟨_, List.getElem?_eq_getElem (by rw [le]; exact q)⟩
        refine ⟨j, i', by rw [sigm]; exact j1, ?_, v3⟩
        rw [mergeIdents_get _ _ _ j true i' ie ?_ v2 hie, if_pos rfl]
        unfold thenOnly
        have hq : (signature ge')[j]? = some (v, cond) := by rw [hsige]; exact hjs
        unfold signature at hq
        rw [List.getElem?_map] at hq ⊢
        obtain ⟨pp, hp1, hp2⟩ := Option.map_eq_some_iff.mp hq
        rw [hp1]
        cases hp2
        rw [hat, Option.map_some, hc1, hc2]
        rfl
      have hlen3 : ∀ L1 gx, TracksI Δ v cond gx is5 L1 → signature gx = signature g1 →
          cond.holds (g.atoms ++ [⟨x, false⟩]) = true →
          TracksI Δ v cond { ge' with states := states, atoms := g1.atoms }
            (mergeIdents (thenOnly (g1.atoms ++ [⟨x, true⟩]) (g1.atoms ++ [⟨x, false⟩]) ge'.states) is3 is5) L1 := by
        rintro L1 gx ⟨j', i', v1, v2, v3⟩ hsx hc2
        rw [hsx] at v1
        have := sig_index k1 hjs v1
        subst this
        obtain ⟨ie, hie⟩ : ∃ ie, is3[j]? = some ie := by
          obtain ⟨q, _⟩ := List.getElem?_eq_some_iff.mp y2
          exact ⟨_, List.getElem?_eq_getElem (by rw [lt]; exact q)⟩
        refine ⟨j, i', by rw [sigm]; exact j1, ?_, v3⟩
        rw [mergeIdents_get _ _ _ j false ie i' ?_ hie v2, if_neg (by simp)]
        unfold thenOnly
        have hq : (signature ge')[j]? = some (v, cond) := by rw [hsige]; exact hjs
        unfold signature at hq
        rw [List.getElem?_map] at hq ⊢
        obtain ⟨pp, hp1, hp2⟩ := Option.map_eq_some_iff.mp hq
        rw [hp1]
        cases hp2
        rw [hat, Option.map_some, hc2]
        simp
      cases hb : Vm.truthy top.value with
      | true =>
        rw [hb] at hun
        simp only [if_true] at hun ⊢
        cases hc1 : cond.holds (g.atoms ++ [⟨x, true⟩]) with
        | false => rw [hc1] at hun; exact absurd rfl hun
        | true =>
          rw [hc1] at hun
          simp only [Bool.not_true, Bool.false_eq_true, if_false] at hun
          have sm := simt v cond ⟨st, L.alt⟩ [] [] hT (by rw [hat]; exact hc1) (by simp) rfl
          dsimp only at sm
          rw [hat] at sm
          have hun2 : Named.runTyped env cond thenStmts (g.atoms ++ [⟨x, true⟩]) ⟨st, L.alt⟩ ≠ .undecided := by
            intro hu; rw [hu] at hun; exact hun rfl
          obtain ⟨o1, o2⟩ := rt v cond ⟨st, L.alt⟩ hT (hI _ _) (by rw [hat]; exact hc1) (by simp) (by
            dsimp only; rw [hat]; exact hun2)
          have hrest : ∀ L1, exec env thenStmts ⟨st, L.alt⟩ = .ok L1 →
              TypesOk env rest L1 ∧ ∀ L', exec env rest L1 = .ok L' → TracksI Δ v cond g6 is6 L' := by
            intro L1 hex
            have o3 := o2 L1 hex
            rw [typed_run env cond _ _ _ hun2, typed_exec env cond _ _ _ hun2, hex] at sm
            rw [typed_exec env cond _ _ _ hun2, hex] at hun
            obtain ⟨⟨s2, hm2, hc2, hs2, ha2⟩, _⟩ := sm
            simp only [Outcome.andThen] at hun
            cases hc3 : cond.holds (g.atoms ++ [⟨x, false⟩]) with
            | true => rw [hc3] at hun; exact absurd rfl hun
            | false =>
              rw [hc3] at hun
              simp only [Bool.false_eq_true, if_false] at hun
              exact rr v cond L1 ⟨s2, m3 v s2 (by rw [l1]; exact hm2) (by rw [hc2, hat]; exact hc1)
                (by rw [hc2, hat]; exact hc3), hc2, hs2, ha2⟩ (hlen2 L1 gt o3 t1 hc1 hc3)
                (by dsimp only; rw [hat]; exact hh) (by simp) (by dsimp only; rw [hat]; exact hun)
          refine ⟨⟨o1, fun L1 hex => (hrest L1 hex).1⟩, ?_⟩
          intro L' hL'
          cases hex : exec env thenStmts ⟨st, L.alt⟩ with
          | ok L1 => rw [hex] at hL'; exact (hrest L1 hex).2 L' hL'
          | _ => rw [hex] at hL'; cases hL'
      | false =>
        rw [hb] at hun
        simp only [Bool.false_eq_true, if_false] at hun ⊢
        cases hc1 : cond.holds (g.atoms ++ [⟨x, false⟩]) with
        | false => rw [hc1] at hun; exact absurd rfl hun
        | true =>
          rw [hc1] at hun
          simp only [Bool.not_true, Bool.false_eq_true, if_false] at hun
          have sm := sime v cond ⟨st, L.alt⟩ [] [] hT (by dsimp only; rw [hat]; exact hc1) (by simp) rfl
          dsimp only at sm
          rw [hat] at sm
          have hun2 : Named.runTyped env cond elseStmts (g.atoms ++ [⟨x, false⟩]) ⟨st, L.alt⟩ ≠ .undecided := by
            intro hu; rw [hu] at hun; exact hun rfl
          obtain ⟨o1, o2⟩ := re v cond ⟨st, L.alt⟩ hT (hI _ _) (by dsimp only; rw [hat]; exact hc1) (by simp) (by
            dsimp only; rw [hat]; exact hun2)
          have hrest : ∀ L1, exec env elseStmts ⟨st, L.alt⟩ = .ok L1 →
              TypesOk env rest L1 ∧ ∀ L', exec env rest L1 = .ok L' → TracksI Δ v cond g6 is6 L' := by
            intro L1 hex
            have o3 := o2 L1 hex
            rw [typed_run env cond _ _ _ hun2, typed_exec env cond _ _ _ hun2, hex] at sm
            rw [typed_exec env cond _ _ _ hun2, hex] at hun
            obtain ⟨⟨s2, hm2, hc2, hs2, ha2⟩, _⟩ := sm
            simp only [Outcome.andThen] at hun
            exact rr v cond L1 ⟨s2, m4 v s2 (by rw [n2]; exact hm2) (by rw [hc2, hat]; exact hc1),
              hc2, hs2, ha2⟩ (hlen3 L1 ge o3 u1 hc1) (by dsimp only; rw [hat]; exact hh) (by simp)
              (by dsimp only; rw [hat]; exact hun)
          refine ⟨⟨o1, fun L1 hex => (hrest L1 hex).1⟩, ?_⟩
          intro L' hL'
          cases hex : exec env elseStmts ⟨st, L.alt⟩ with
          | ok L1 => rw [hex] at hL'; exact (hrest L1 hex).2 L' hL'
          | _ => rw [hex] at hL'; cases hL'

end TypeProofs
end BCash
