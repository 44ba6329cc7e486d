import Verif.Props.Items
import Verif.Props.Typed

/-! # C96: well-typed inputs make a well-typed execution -/

namespace BCash
open Spec Spec.Macro Spec.Named Spec.Source Spec.Items Macro ItemsProofs

namespace ItemsProofs

theorem wellTyped_inhabits {tyOf : String → Option FTy} {it : InputsItem} {v : InputsValue}
    (h : WellTyped tyOf it v) : Inhabits it v := by
  have key : ∀ {fs : List FieldItem} {vs : List (String × PushValue)}, List.Forall₂ (OfField tyOf) fs vs →
      vs.map Prod.fst = fs.map FieldItem.name := by
    intro fs vs h
    induction h with
    | nil => rfl
    | cons h1 _ ih => simp [h1.1, ih]
  cases h with
  | struct _ _ _ _ h => exact .struct _ _ _ _ (key h)
  | enum _ _ _ c _ hc h => exact .enum _ _ _ c _ hc (key h)

theorem itemOf_is {v : PushValue} {x : Bytes} (h : ItemOf v x) : Is v.fType x := by
  have hn : ∀ i y, scriptNum y = i → IsMinimalNum y → Is .integer y := fun i y h1 h2 =>
    ⟨i, minimal_unique _ _ h2 (NumProofs.numBytes_spec i).2 (h1.trans (NumProofs.numBytes_spec i).1.symm)⟩
  cases h with
  | integer _ _ h1 h2 => exact hn _ _ h1 h2
  | integerResult _ _ h1 h2 => exact hn _ _ h1 h2
  | inner _ _ h1 h2 => exact hn _ _ h1 h2
  | true => exact .inr rfl
  | false => exact .inl rfl
  | bytes _ => trivial
  | byteArray _ => trivial

theorem applies_eq (c : String) (i : ScriptInput) : applies c i = (i.variants.all fun vs => vs.contains c) := by
  unfold applies
  cases i.variants <;> rfl

theorem types_filter (tyOf : String → Option FTy) (c : String) (isPub : Bool) (is : List ScriptInput)
    (types : List FTy) (ht : is.map (fun i => tyOf i.ty) = types.map some) (vals : List (String × PushValue))
    (h : List.Forall₂ (OfField tyOf) ((is.filter (applies c)).map (asField isPub)) vals) :
    (((is.map fun i : ScriptInput => (⟨i.name, i.variants⟩ : Input)).zip types).filter
      fun i => i.1.variants.all fun vs => vs.contains c).map Prod.snd = vals.map fun x => x.2.fType := by
  induction is generalizing types vals with
  | nil => cases h; rfl
  | cons i is ih =>
    cases types with
    | nil => cases ht
    | cons t ts =>
      simp only [List.map_cons, List.cons.injEq] at ht
      obtain ⟨h1, h2⟩ := ht
      rw [List.filter_cons, applies_eq] at h
      simp only [List.map_cons, List.zip_cons_cons, List.filter_cons]
      split at h
      · rename_i ha
        rw [if_pos ha]
        cases h with
        | cons hh hrest =>
          have := hh.2
          rw [show (asField isPub i).ty = i.ty from rfl, h1] at this
          simp only [Option.some.injEq] at this
          rw [List.map_cons, List.map_cons, ih ts h2 _ hrest, this]
      · rename_i ha
        rw [if_neg ha]
        exact ih ts h2 _ h

theorem inputTypes_eq (tyOf : String → Option FTy) (s : Macro.Script) (hd : declOk s.decl)
    (hvalid : Valid s.inputsItem) (v : InputsValue) (hv : WellTyped tyOf s.inputsItem v) (types : List FTy)
    (ht : s.inputs.map (fun i => tyOf i.ty) = types.map some) :
    inputTypesOf s.decl types v.case = v.fields.map fun x => x.2.fType := by
  rw [item_eq s hvalid] at hv
  unfold expected at hv
  obtain ⟨case, values⟩ := v
  unfold inputTypesOf
  split at hv
  · rename_i hnil
    cases hv with
    | struct _ _ _ _ hn =>
      have hall : s.inputs.filter (applies s.inputStruct) = s.inputs := by
        apply List.filter_eq_self.mpr
        intro i him
        unfold applies
        cases hvs : i.variants with
        | none => rfl
        | some vs =>
          have := (hd.2.2 ⟨i.name, i.variants⟩ (List.mem_map.mpr ⟨i, him, rfl⟩) vs hvs).2
          exact (this (by simpa [Script.decl] using hnil)).elim
      rw [← hall] at hn
      exact types_filter tyOf s.inputStruct true s.inputs types ht values hn
  · cases hv with
    | enum _ _ _ c _ hc hn =>
      obtain ⟨w, hw, rfl⟩ := List.mem_map.mp hc
      exact types_filter tyOf w false s.inputs types ht values hn

end ItemsProofs

/-- **C96** (types, partial: under the restrictions of `C60_names_partial` and `C69_typed_partial`): from the source of
a contract. If `rustc` accepts the code generated for a function the macro accepts, where the inputs have the types
written for the parameters, then for every value of the generated type, as `rustc` checks it, every opcode executed
finds operands of the types its function demands. -/
theorem C96_typed_partial (env : Vm.Env) (lx : Lex) (hl : LexOk lx)
    (order : List (String × VState) → List (String × VState)) (horder : ∀ l, (order l).Perm l)
    (args : List NestedMeta) (f : ItemFn) (d : Decl) (t : Prog)
    (hdecl : Declares lx args f d) (hsays : Says f.body (blocks t)) (hw : WellNested t)
    (hd : declOk d) (hok : progOk false t = true)
    (sc : Macro.Script) (e : List Emit) (g : Gen) (hacc : scriptMacro lx order args f = .ok (sc, e, g))
    -- the types as written, and the generated code
    (tyOf : String → Option FTy) (types : List FTy)
    (hty : sc.inputs.map (fun i => tyOf i.ty) = types.map some)
    (code : List RustStmt) (hcode : generateRust tyOf order d types t = some code)
    (Γ : Scope) (hcheck : checkRust [] code = some Γ) (hone : OneType Γ) (hsame : SameInVariants Γ code)
    -- a value of the generated type
    (hvalid : Valid sc.inputsItem) (v : InputsValue) (hv : WellTyped tyOf sc.inputsItem v)
    (items : List Bytes) (hitems : List.Forall₂ (fun x item => ItemOf x.2 item) v.fields items)
    (cond : Predicate) (hcond : (v.case, cond) ∈ variantsOf d)
    (hdec : Named.runTyped env cond t [] (start (v.fields.map Prod.fst) items) ≠ .undecided) :
    TypesOk env t (start (v.fields.map Prod.fst) items) := by
  obtain ⟨hgen, -⟩ := (C88_generates lx hl order args f d t hdecl hsays hw e g).mp ⟨sc, hacc⟩
  have hde := decl_eq lx hl order args f d hdecl sc e g hacc
  subst hde
  have hnames := names_of_item sc hd hvalid v (wellTyped_inhabits hv)
  have htypes := inputTypes_eq tyOf sc hd hvalid v hv types hty
  rw [hnames] at hdec ⊢
  refine C69_typed_partial env order horder sc.decl t e g hgen hd hw hok tyOf types ?_ code hcode Γ hcheck hone hsame
    v.case cond hcond items ?_ hdec
  · have := congrArg List.length hty
    simpa [Script.decl] using this.symm
  · rw [htypes]
    have key : ∀ (fs : List (String × PushValue)) xs, List.Forall₂ (fun x item => ItemOf x.2 item) fs xs →
        List.Forall₂ Is (fs.map fun x => x.2.fType) xs := by
      intro fs xs h
      induction h with
      | nil => exact .nil
      | cons h1 _ ih => exact .cons (itemOf_is h1) ih
    exact key _ _ hitems

/-- **C96** (types, partial: under the restrictions of `C69_balanced_partial`): the same through conditionals both of
whose branches are possible and leave items of the same names and types. If `rustc` accepts the code generated for a function the macro accepts, where the inputs have the types
written for the parameters, then for every value of the generated type, as `rustc` checks it, every opcode executed
finds operands of the types its function demands. -/
theorem C96_typed_balanced_partial (env : Vm.Env) (lx : Lex) (hl : LexOk lx)
    (order : List (String × VState) → List (String × VState)) (horder : ∀ l, (order l).Perm l)
    (args : List NestedMeta) (f : ItemFn) (d : Decl) (t : Prog)
    (hdecl : Declares lx args f d) (hsays : Says f.body (blocks t)) (hw : WellNested t)
    (hd : declOk d) (hok : progOk false t = true)
    (sc : Macro.Script) (e : List Emit) (g : Gen) (hacc : scriptMacro lx order args f = .ok (sc, e, g))
    -- the types as written, and the generated code
    (tyOf : String → Option FTy) (types : List FTy)
    (hty : sc.inputs.map (fun i => tyOf i.ty) = types.map some)
    (code : List RustStmt) (hcode : generateRust tyOf order d types t = some code)
    (Γ : Scope) (hcheck : checkRust [] code = some Γ) (hone : OneType Γ) (hsame : SameInVariants Γ code)
    -- a value of the generated type
    (hvalid : Valid sc.inputsItem) (v : InputsValue) (hv : WellTyped tyOf sc.inputsItem v)
    (items : List Bytes) (hitems : List.Forall₂ (fun x item => ItemOf x.2 item) v.fields items)
    (cond : Predicate) (hcond : (v.case, cond) ∈ variantsOf d)
    (hbal : BalancedTypes d types v.case cond t) (hob : Obeys env cond t [] (start (v.fields.map Prod.fst) items)) :
    TypesOk env t (start (v.fields.map Prod.fst) items) := by
  obtain ⟨hgen, -⟩ := (C88_generates lx hl order args f d t hdecl hsays hw e g).mp ⟨sc, hacc⟩
  have hde := decl_eq lx hl order args f d hdecl sc e g hacc
  subst hde
  have hnames := names_of_item sc hd hvalid v (wellTyped_inhabits hv)
  have htypes := inputTypes_eq tyOf sc hd hvalid v hv types hty
  rw [hnames] at hob ⊢
  refine C69_balanced_partial env order horder sc.decl t e g hgen hd hw hok tyOf types ?_ code hcode Γ hcheck hone hsame
    v.case cond hcond hbal items ?_ hob
  · have := congrArg List.length hty
    simpa [Script.decl] using this.symm
  · rw [htypes]
    have key : ∀ (fs : List (String × PushValue)) xs, List.Forall₂ (fun x item => ItemOf x.2 item) fs xs →
        List.Forall₂ Is (fs.map fun x => x.2.fType) xs := by
      intro fs xs h
      induction h with
      | nil => exact .nil
      | cons h1 _ ih => exact .cons (itemOf_is h1) ih
    exact key _ _ hitems

/-- What `rustc` makes of the types written in the example. -/
def exampleTypes (ty : String) : Option FTy :=
  if ty = "ByteArray" then some .byteArray else if ty = "bool" then some .boolean else none

/-- The value that claims the contract (`Props/Items.lean`) is well-typed, the code generated for the contract is
accepted, and so the execution is. -/
example : TypesOk (exampleSpendEnv none) contractProg (start ["sig", "secret", "claim"] [[1, 2, 0x41], [5, 6], [1]]) := by
  obtain ⟨e, g, hacc, -⟩ := contract_accepted
  obtain ⟨code, Γ, h1, h2, h3, h4⟩ : ∃ code Γ,
      generateRust exampleTypes id exampleDecl [.byteArray, .byteArray, .boolean] contractProg = some code ∧
      checkRust [] code = some Γ ∧ OneType Γ ∧ SameInVariants Γ code :=
    ⟨_, _, rfl, rfl, TypeProofs.oneType_of_nodup (by decide +kernel), by unfold SameInVariants; decide +kernel⟩
  exact C96_typed_partial (exampleSpendEnv none) exampleLex exampleLex_ok id (fun _ => List.Perm.refl _) htlcArgs contractFn exampleDecl
    contractProg contract_declares contract_says (by simp [contractProg, WellNested, opens, isElse, closes])
    ⟨by decide, by
      intro i hi
      simp only [exampleDecl, List.mem_cons, List.not_mem_nil, or_false] at hi
      rcases hi with rfl | rfl | rfl <;> decide +kernel, by
      intro i hi vs hvs
      simp only [exampleDecl, List.mem_cons, List.not_mem_nil, or_false] at hi
      rcases hi with rfl | rfl | rfl <;> cases hvs <;> simp [exampleDecl]⟩
    (by decide +kernel) contractSource e g hacc exampleTypes [.byteArray, .byteArray, .boolean] (by decide +kernel)
    code h1 Γ h2 h3 h4 contract_valid claimValue
    (.enum _ _ _ ⟨[" with the secret", " ## x"], "Claim",
      [⟨[], false, "sig", "ByteArray"⟩, ⟨[], false, "secret", "ByteArray"⟩, ⟨[], false, "claim", "bool"⟩]⟩ _
      (List.mem_cons_self ..)
      (.cons ⟨rfl, by decide +kernel⟩ (.cons ⟨rfl, by decide +kernel⟩ (.cons ⟨rfl, by decide +kernel⟩ .nil))))
    _ (.cons (.bytes _) (.cons (.bytes _) (.cons .true .nil)))
    [[⟨"claim", true⟩]] (by decide) (by decide +kernel)

theorem claim_obeys : Obeys (exampleSpendEnv none) [[⟨"claim", true⟩]] contractProg []
    (start ["sig", "secret", "claim"] [[1, 2, 0x41], [5, 6], [1]]) := by
  unfold contractProg
  intro x top st hx hs _
  cases hx
  cases hs
  refine ⟨rfl, ?_⟩
  exact ⟨fun _ _ => fun _ _ => fun _ _ => trivial, fun _ _ => fun _ _ => fun _ _ => fun _ _ => trivial⟩

/-- The same by `C96_typed_balanced_partial`: the contract is balanced for the claim, and the run obeys its condition. -/
example : TypesOk (exampleSpendEnv none) contractProg (start ["sig", "secret", "claim"] [[1, 2, 0x41], [5, 6], [1]]) := by
  obtain ⟨e, g, hacc, -⟩ := contract_accepted
  obtain ⟨code, Γ, h1, h2, h3, h4⟩ : ∃ code Γ,
      generateRust exampleTypes id exampleDecl [.byteArray, .byteArray, .boolean] contractProg = some code ∧
      checkRust [] code = some Γ ∧ OneType Γ ∧ SameInVariants Γ code :=
    ⟨_, _, rfl, rfl, TypeProofs.oneType_of_nodup (by decide +kernel), by unfold SameInVariants; decide +kernel⟩
  exact C96_typed_balanced_partial (exampleSpendEnv none) exampleLex exampleLex_ok id (fun _ => List.Perm.refl _) htlcArgs contractFn exampleDecl
    contractProg contract_declares contract_says (by simp [contractProg, WellNested, opens, isElse, closes])
    ⟨by decide, by
      intro i hi
      simp only [exampleDecl, List.mem_cons, List.not_mem_nil, or_false] at hi
      rcases hi with rfl | rfl | rfl <;> decide +kernel, by
      intro i hi vs hvs
      simp only [exampleDecl, List.mem_cons, List.not_mem_nil, or_false] at hi
      rcases hi with rfl | rfl | rfl <;> cases hvs <;> simp [exampleDecl]⟩
    (by decide +kernel) contractSource e g hacc exampleTypes [.byteArray, .byteArray, .boolean] (by decide +kernel)
    code h1 Γ h2 h3 h4 contract_valid claimValue
    (.enum _ _ _ ⟨[" with the secret", " ## x"], "Claim",
      [⟨[], false, "sig", "ByteArray"⟩, ⟨[], false, "secret", "ByteArray"⟩, ⟨[], false, "claim", "bool"⟩]⟩ _
      (List.mem_cons_self ..)
      (.cons ⟨rfl, by decide +kernel⟩ (.cons ⟨rfl, by decide +kernel⟩ (.cons ⟨rfl, by decide +kernel⟩ .nil))))
    _ (.cons (.bytes _) (.cons (.bytes _) (.cons .true .nil)))
    [[⟨"claim", true⟩]] (by decide) (by decide +kernel) claim_obeys

/-- A string is no value for a truth value. -/
example : ¬ WellTyped exampleTypes contractSource.inputsItem
    ⟨"Refund", [("sig", .bytes [1]), ("claim", .bytes [1])]⟩ := by
  intro h
  have key : ∀ it v, WellTyped exampleTypes it v → it = contractSource.inputsItem →
      v = ⟨"Refund", [("sig", .bytes [1]), ("claim", .bytes [1])]⟩ → False := by
    intro it v h hit hv
    cases h with
    | struct _ _ _ _ _ => cases hit
    | enum _ _ cs c vs hc h =>
      obtain ⟨rfl, rfl, rfl⟩ := InputsItem.enum.inj hit
      obtain ⟨h1, rfl⟩ := InputsValue.mk.inj hv
      have hc : c ∈ [_, _] := hc
      simp only [List.mem_cons, List.not_mem_nil, or_false] at hc
      rcases hc with rfl | rfl
      · exact absurd h1 (by decide)
      · cases h with
        | cons _ h => cases h with
          | cons h2 _ => exact absurd h2.2 (by decide +kernel)
  exact key _ _ h rfl rfl

end BCash
