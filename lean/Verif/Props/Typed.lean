import Verif.Props.Recorded
import Verif.Proofs.MacroFresh
import Verif.Proofs.MacroCalls
import Verif.Proofs.MacroTypedBalanced

/-! # The types checked in a generated script -/

namespace BCash
open Spec Spec.Macro Spec.Named Macro GenProofs

namespace TypeProofs

theorem zip_filter_names (l : List Input) (types : List FTy) (h : types.length = l.length) (f : Input → Bool) :
    ((l.zip types).filter fun i => f i.1).map (fun i => i.1.name) = (l.filter f).map Input.name := by
  induction l generalizing types with
  | nil => rfl
  | cons i l ih =>
    cases types with
    | nil => simp at h
    | cons t ts =>
      simp only [List.zip_cons_cons, List.filter_cons]
      have := ih ts (by simpa using h)
      cases f i <;> simp [this]

/-- The variables of the inputs have the declared types. -/
theorem start_typed (Δ : String → Option FTy) (d : Decl) (types : List FTy) (hty : types.length = d.inputs.length)
    (hc : ∀ s ∈ List.zipWith (fun (i : Input) t => RustStmt.bind i.name t) d.inputs types, Consistent Δ s)
    (v : String) (values : List Bytes) (hvals : List.Forall₂ Is (inputTypesOf d types v) values) :
    Typed Δ ⟨(inputsOf d v).reverse, []⟩ (start (inputsOf d v) values).erase := by
  have hnames : (inputsOf d v) = (((d.inputs.zip types).filter fun i => i.1.variants.all fun vs => vs.contains v).map
      fun i => i.1.name) := by
    rw [zip_filter_names d.inputs types hty (fun i => i.variants.all fun vs => vs.contains v)]
    rfl
  have hlen : values.length = (inputsOf d v).length := by
    rw [← hvals.length_eq, hnames]; simp [inputTypesOf]
  rw [start_erase _ _ hlen]
  refine ⟨?_, List.Forall₂.nil⟩
  refine List.rel_reverse ?_
  rw [hnames]
  have hall : ∀ q ∈ (d.inputs.zip types).filter fun i => i.1.variants.all fun vs => vs.contains v,
      Δ q.1.name = some q.2 := by
    intro q hq
    have hq := (List.mem_filter.mp hq).1
    have hm : RustStmt.bind q.1.name q.2 ∈ List.zipWith (fun (i : Input) t => RustStmt.bind i.name t) d.inputs types := by
      have : List.zipWith (fun (i : Input) t => RustStmt.bind i.name t) d.inputs types =
          (d.inputs.zip types).map fun q => RustStmt.bind q.1.name q.2 := by
        simp [List.zip, List.map_zipWith]
      rw [this]
      exact List.mem_map.mpr ⟨q, hq, rfl⟩
    exact hc _ hm
  unfold inputTypesOf at hvals
  clear hlen hnames
  revert hall hvals
  generalize (d.inputs.zip types).filter (fun i => i.1.variants.all fun vs => vs.contains v) = l
  intro hvals hall
  induction l generalizing values with
  | nil => cases hvals; exact List.Forall₂.nil
  | cons q l ih =>
    cases hvals with
    | cons h1 h2 =>
      exact List.Forall₂.cons ⟨_, hall q List.mem_cons_self, h1⟩
        (ih _ h2 fun r hr => hall r (List.mem_cons_of_mem _ hr))

/-- The names at the start. -/
theorem start_names (ns : List String) (values : List Bytes) (hlen : values.length = ns.length) :
    (start ns values).names = ⟨(ns.map some).reverse, []⟩ := by
  simp only [start, LState.names, List.map_reverse, List.map_nil, Names.mk.injEq, and_true, List.reverse_inj]
  induction ns generalizing values with
  | nil => cases values <;> simp at hlen ⊢
  | cons n ns ih =>
    cases values with
    | nil => simp at hlen
    | cons x xs => simp [ih xs (by simpa using hlen)]

/-- The types of the variables at the start. -/
theorem start_types (Δ : String → Option FTy) (d : Decl) (types : List FTy) (hty : types.length = d.inputs.length)
    (hc : ∀ s ∈ List.zipWith (fun (i : Input) t => RustStmt.bind i.name t) d.inputs types, Consistent Δ s)
    (v : String) : HasTypes Δ ⟨(inputsOf d v).reverse, []⟩ ⟨(inputTypesOf d types v).reverse, []⟩ := by
  have hnames : (inputsOf d v) = (((d.inputs.zip types).filter fun i => i.1.variants.all fun vs => vs.contains v).map
      fun i => i.1.name) := by
    rw [zip_filter_names d.inputs types hty (fun i => i.variants.all fun vs => vs.contains v)]
    rfl
  refine ⟨List.rel_reverse ?_, List.Forall₂.nil⟩
  rw [hnames, inputTypesOf, List.forall₂_map_left_iff, List.forall₂_map_right_iff, List.forall₂_same]
  intro q hq
  have hq := (List.mem_filter.mp hq).1
  have hm : RustStmt.bind q.1.name q.2 ∈ List.zipWith (fun (i : Input) t => RustStmt.bind i.name t) d.inputs types := by
    have : List.zipWith (fun (i : Input) t => RustStmt.bind i.name t) d.inputs types =
        (d.inputs.zip types).map fun q => RustStmt.bind q.1.name q.2 := by
      simp [List.zip, List.map_zipWith]
    rw [this]
    exact List.mem_map.mpr ⟨q, hq, rfl⟩
  exact hc _ hm

end TypeProofs
open TypeProofs

/-! ## C69: types -/

/-- **C69** (partial): if `rustc` accepts the variables and the calls of typed functions the macro
generates for a script, then on inputs of the declared types every executed opcode finds operands of the
types its function demands.

Missing: the restrictions of C60; no two variables of one name may differ in type, an operand must
have one type in all variants (`C69_shadow_fails`, `C69_variants_fails`), and a first branch must not be taken where
the condition also allows the second (`runTyped`; but see `C69_balanced_partial`). -/
theorem C69_typed_partial (env : Vm.Env) (order : List (String × VState) → List (String × VState))
    (horder : ∀ l, (order l).Perm l) (d : Decl) (p : Prog) (e : List Emit) (g : Gen)
    (hgen : generate order d p = .ok (e, g))
    (hd : declOk d) (hp : WellNested p) (hok : progOk false p = true)
    (tyOf : String → Option FTy) (types : List FTy) (hty : types.length = d.inputs.length)
    (code : List RustStmt) (hcode : generateRust tyOf order d types p = some code)
    (Γ : Scope) (hcheck : checkRust [] code = some Γ) (hone : OneType Γ) (hsame : SameInVariants Γ code)
    (v : String) (cond : Predicate) (hv : (v, cond) ∈ variantsOf d)
    (values : List Bytes) (hvals : List.Forall₂ Is (inputTypesOf d types v) values)
    (hdec : Named.runTyped env cond p [] (start (inputsOf d v) values) ≠ .undecided) :
    TypesOk env p (start (inputsOf d v) values) := by
  have hnames : (inputsOf d v) = (((d.inputs.zip types).filter fun i => i.1.variants.all fun vs => vs.contains v).map
      fun i => i.1.name) := by
    rw [zip_filter_names d.inputs types hty (fun i => i.variants.all fun vs => vs.contains v)]
    rfl
  have hlen : values.length = (inputsOf d v).length := by
    rw [← hvals.length_eq, hnames]; simp [inputTypesOf]
  unfold generate at hgen
  obtain ⟨states, hinit, hrun⟩ := Res.bind_eq_ok.mp hgen
  unfold generateRust at hcode
  rw [hinit] at hcode
  simp only [ok?, Option.bind_some, Option.map_eq_some_iff, Prod.exists] at hcode
  obtain ⟨c, is', hid, rfl⟩ := hcode
  have hstates := initial_spec d hd states hinit
  subst hstates
  have hperm := horder (canon (variantsOf d) (inputsOf d))
  have hcons := checkRust_consistent hcheck hone
  obtain ⟨_, hrec⟩ := prog_types env Γ.type tyOf p none _ g e _ is' c hp hok
    (canon_good d hd _ (fun q hq => hperm.mem_iff.mp hq))
    ((hperm.map Prod.fst).nodup_iff.mpr (canon_keys d hd)) (by simp) hrun hid
    (fun s hs => hcons s (List.mem_append_right _ hs))
    (fun s hs => hsame s (List.mem_append_right _ hs))
  have hcond : cond.holds [] = true := by
    cases cond with
    | nil => rfl
    | cons c cs => simp [Predicate.holds]
  refine (hrec v cond (start (inputsOf d v) values)
    (canon_tracks d v cond hv values hlen _ (fun q hq => hperm.mem_iff.mpr hq)) ?_ hcond (by simp) hdec).1
  have hmem : (v, (⟨cond, ((inputsOf d v).map fun n => ⟨n, false, none⟩).reverse, []⟩ : VState)) ∈
      order (canon (variantsOf d) (inputsOf d)) := hperm.mem_iff.mpr (List.mem_map_of_mem hv)
  obtain ⟨j, hj⟩ := List.getElem?_of_mem hmem
  refine ⟨j, ⟨(inputsOf d v).reverse, []⟩, ?_, ?_, ?_⟩
  · simp [signature, hj]
  · simp [hj, Function.comp_def]
  · exact start_typed Γ.type d types hty (fun s hs => hcons s (List.mem_append_left _ hs)) v values hvals

/-- **C69** (partial): the same through conditionals both of whose branches are possible, if they leave items of the
same names and types.

Missing: the restrictions of C60; no two variables of one name may differ in type, and an operand must
have one type in all variants (`C69_shadow_fails`, `C69_variants_fails`); branches that leave different types
(`C69_branches_fails`). -/
theorem C69_balanced_partial (env : Vm.Env) (order : List (String × VState) → List (String × VState))
    (horder : ∀ l, (order l).Perm l) (d : Decl) (p : Prog) (e : List Emit) (g : Gen)
    (hgen : generate order d p = .ok (e, g))
    (hd : declOk d) (hp : WellNested p) (hok : progOk false p = true)
    (tyOf : String → Option FTy) (types : List FTy) (hty : types.length = d.inputs.length)
    (code : List RustStmt) (hcode : generateRust tyOf order d types p = some code)
    (Γ : Scope) (hcheck : checkRust [] code = some Γ) (hone : OneType Γ) (hsame : SameInVariants Γ code)
    (v : String) (cond : Predicate) (hv : (v, cond) ∈ variantsOf d) (hbal : BalancedTypes d types v cond p)
    (values : List Bytes) (hvals : List.Forall₂ Is (inputTypesOf d types v) values)
    (hob : Obeys env cond p [] (start (inputsOf d v) values)) :
    TypesOk env p (start (inputsOf d v) values) := by
  have hnames : (inputsOf d v) = (((d.inputs.zip types).filter fun i => i.1.variants.all fun vs => vs.contains v).map
      fun i => i.1.name) := by
    rw [zip_filter_names d.inputs types hty (fun i => i.variants.all fun vs => vs.contains v)]
    rfl
  have hlen : values.length = (inputsOf d v).length := by
    rw [← hvals.length_eq, hnames]; simp [inputTypesOf]
  unfold generate at hgen
  obtain ⟨states, hinit, hrun⟩ := Res.bind_eq_ok.mp hgen
  unfold generateRust at hcode
  rw [hinit] at hcode
  simp only [ok?, Option.bind_some, Option.map_eq_some_iff, Prod.exists] at hcode
  obtain ⟨c, is', hid, rfl⟩ := hcode
  have hstates := initial_spec d hd states hinit
  subst hstates
  have hperm := horder (canon (variantsOf d) (inputsOf d))
  have hcons := checkRust_consistent hcheck hone
  have hcond : cond.holds [] = true := by
    cases cond with
    | nil => rfl
    | cons c cs => simp [Predicate.holds]
  obtain ⟨r, hr⟩ := Option.isSome_iff_exists.mp hbal
  refine (prog_typed_balanced env Γ.type tyOf p none _ g e _ is' c hp hok
    (canon_good d hd _ (fun q hq => hperm.mem_iff.mp hq))
    ((hperm.map Prod.fst).nodup_iff.mpr (canon_keys d hd)) (by simp) hrun hid
    (fun s hs => hcons s (List.mem_append_right _ hs))
    (fun s hs => hsame s (List.mem_append_right _ hs))
    v cond (start (inputsOf d v) values) ⟨(inputTypesOf d types v).reverse, []⟩ r
    (canon_tracks d v cond hv values hlen _ (fun q hq => hperm.mem_iff.mpr hq)) ?_ hcond (by simp)
    (by rw [start_names _ _ hlen]; exact hr) hob).1
  have hmem : (v, (⟨cond, ((inputsOf d v).map fun n => ⟨n, false, none⟩).reverse, []⟩ : VState)) ∈
      order (canon (variantsOf d) (inputsOf d)) := hperm.mem_iff.mpr (List.mem_map_of_mem hv)
  obtain ⟨j, hj⟩ := List.getElem?_of_mem hmem
  refine ⟨j, ⟨(inputsOf d v).reverse, []⟩, ?_, ?_, ?_, ?_⟩
  · simp [signature, hj]
  · simp [hj, Function.comp_def]
  · exact start_typed Γ.type d types hty (fun s hs => hcons s (List.mem_append_left _ hs)) v values hvals
  · exact start_types Γ.type d types hty (fun s hs => hcons s (List.mem_append_left _ hs)) v

namespace TypeProofs

theorem check_keys {Γ Γ' : Scope} {s : RustStmt} (h : s.check Γ = some Γ') :
    (Γ'.map Prod.fst).Perm (boundOf s ++ Γ.map Prod.fst) := by
  cases s with
  | bind x t => cases h; exact List.Perm.refl _
  | moved xs => cases h; exact List.Perm.refl _
  | call outs o xss =>
    simp only [RustStmt.check, Option.bind_eq_some_iff] at h
    obtain ⟨f, _, ts, _, σ, _, rs, _, h⟩ := h
    split at h
    · next hl =>
      cases h
      rw [List.map_append, List.map_reverse, List.map_fst_zip (by omega)]
      exact List.Perm.append_right _ (List.reverse_perm _)
    · cases h

theorem checkRust_keys {Γ Γ' : Scope} {code : List RustStmt} (h : checkRust Γ code = some Γ') :
    (Γ'.map Prod.fst).Perm (code.flatMap boundOf ++ Γ.map Prod.fst) := by
  induction code generalizing Γ with
  | nil => cases h; exact List.Perm.refl _
  | cons s code ih =>
    simp only [checkRust, Option.bind_eq_some_iff] at h
    obtain ⟨Γ1, h1, h2⟩ := h
    refine (ih h2).trans ((List.Perm.append_left _ (check_keys h1)).trans ?_)
    rw [List.flatMap_cons, ← List.append_assoc]
    exact List.Perm.append_right _ List.perm_append_comm

theorem oneType_of_nodup {Γ : Scope} (h : (Γ.map Prod.fst).Nodup) : OneType Γ := by
  intro x t t' h1 h2
  have := List.inj_on_of_nodup_map h h1 h2 rfl
  simpa using this

theorem freshName_reserved (n : Nat) : reserved (freshName n) = true := by
  unfold reserved freshName
  rw [List.isPrefixOf_iff_prefix]
  simp [String.toList_append]

theorem stmt_unreserved {b : Bool} {stmt : OpcodeStmt} (h : stmtOk b stmt = true) :
    ∀ x ∈ letNames.leafLets (.opcode stmt), reserved x = false := by
  intro x hx
  unfold stmtOk at h
  simp only [Bool.and_eq_true, List.all_eq_true] at h
  have hx' : x ∈ writtenNames stmt := by
    unfold letNames.leafLets at hx
    split at hx
    · next q => cases q
    · next q => cases q; simp [writtenNames, List.mem_singleton.mp hx]
    · next q => cases q; simp [writtenNames, List.mem_singleton.mp hx]
    · cases hx
  simpa using h.1 x hx'

theorem lets_unreserved {b : Bool} {p : Prog} (h : progOk b p = true) : ∀ x ∈ letNames p, reserved x = false := by
  induction p generalizing b with
  | nil => simp [letNames]
  | leaf l rest ih =>
    simp only [progOk, Bool.and_eq_true] at h
    intro x hx
    rcases List.mem_append.mp hx with hx | hx
    · cases l with
      | push op name =>
        simp only [leafOk, Bool.and_eq_true] at h
        simp only [letNames.leafLets, Option.mem_toList] at hx
        have := h.1.2
        rw [hx] at this
        simpa using this
      | opcode stmt => exact stmt_unreserved h.1 x hx
      | forLoop => cases hx
      | rustIf => cases hx
    · exact ih h.2 x hx
  | scriptIf i t el els en rest iht ihe ihr =>
    simp only [progOk, Bool.and_eq_true] at h
    intro x hx
    simp only [letNames, List.mem_append] at hx
    rcases hx with (hx | hx) | hx
    · exact iht h.1.1.2 x hx
    · exact ihe h.1.2 x hx
    · exact ihr h.2 x hx

theorem binds_zipWith (l : List Input) (types : List FTy) (h : types.length = l.length) :
    (List.zipWith (fun (i : Input) t => RustStmt.bind i.name t) l types).flatMap boundOf = l.map Input.name := by
  induction l generalizing types with
  | nil => rfl
  | cons i l ih =>
    cases types with
    | nil => simp at h
    | cons t ts =>
      simp only [List.zipWith_cons_cons, List.flatMap_cons, List.map_cons, ih ts (by simpa using h), boundOf]
      rfl

theorem binds_operands (l : List Input) (types : List FTy) :
    ∀ s ∈ List.zipWith (fun (i : Input) t => RustStmt.bind i.name t) l types, operandsOf s = [] := by
  induction l generalizing types with
  | nil => simp
  | cons i l ih =>
    cases types with
    | nil => simp
    | cons t ts =>
      intro s hs
      simp only [List.zipWith_cons_cons, List.mem_cons] at hs
      rcases hs with rfl | hs
      · rfl
      · exact ih ts s hs

/-- In a script without variants and `transmute` whose variables have different names, no name has two types. -/
theorem plain_scope (order : List (String × VState) → List (String × VState))
    (horder : ∀ l, (order l).Perm l) (d : Decl) (p : Prog) (e : List Emit) (g : Gen)
    (hgen : generate order d p = .ok (e, g))
    (hd : declOk d) (hp : WellNested p) (hok : progOk false p = true)
    (tyOf : String → Option FTy) (types : List FTy) (hty : types.length = d.inputs.length)
    (code : List RustStmt) (hcode : generateRust tyOf order d types p = some code)
    (Γ : Scope) (hcheck : checkRust [] code = some Γ)
    (hvar : d.variants = []) (hnt : noTransmute p = true) (hdist : (d.inputs.map Input.name ++ letNames p).Nodup) :
    OneType Γ ∧ SameInVariants Γ code := by
  have hvs : variantsOf d = [(d.inputStruct, [])] := by simp [variantsOf, hvar]
  unfold generate at hgen
  obtain ⟨states, hinit, hrun⟩ := Res.bind_eq_ok.mp hgen
  unfold generateRust at hcode
  rw [hinit] at hcode
  simp only [ok?, Option.bind_some, Option.map_eq_some_iff, Prod.exists] at hcode
  obtain ⟨c, is', hid, rfl⟩ := hcode
  have hstates := initial_spec d hd states hinit
  have hb := prog_binds hp hnt hrun hid
  have hf := prog_few hid
  refine ⟨?_, ?_⟩
  · apply oneType_of_nodup
    have hk := checkRust_keys hcheck
    rw [List.map_nil, List.append_nil, List.flatMap_append, binds_zipWith _ _ hty] at hk
    obtain ⟨_, ns, hperm, hns, _⟩ := hb
    refine (hk.trans (List.Perm.append_left _ hperm)).nodup_iff.mpr ?_
    rw [← List.append_assoc, List.nodup_append]
    refine ⟨hdist, hns.map fun a b h => freshName_inj h, ?_⟩
    rintro x hx y hy rfl
    obtain ⟨n, _, rfl⟩ := List.mem_map.mp hy
    have hr := freshName_reserved n
    rcases List.mem_append.mp hx with hx | hx
    · obtain ⟨i, hi, hn⟩ := List.mem_map.mp hx
      have := hd.2.1 i hi
      rw [hn, hr] at this
      cases this
    · have := lets_unreserved hok _ hx
      rw [hr] at this
      cases this
  · intro s hs xs hxs x hx y hy
    rcases List.mem_append.mp hs with hs | hs
    · rw [binds_operands _ _ s hs] at hxs
      cases hxs
    · have hl := hf.2 s hs xs hxs
      have h1 : (order states).length = 1 := by
        rw [(horder states).length_eq, hstates, hvs]; rfl
      rw [List.length_map, h1] at hl
      match xs, hx, hy, hl with
      | [z], hx, hy, _ => rw [List.mem_singleton.mp hx, List.mem_singleton.mp hy]
      | [], hx, _, _ => cases hx
      | _ :: _ :: _, _, _, hl => simp at hl

/-- Without variants every input is an input of the one case. -/
theorem plain_inputs (d : Decl) (hd : declOk d) (hvar : d.variants = []) (types : List FTy)
    (hty : types.length = d.inputs.length) :
    inputsOf d d.inputStruct = d.inputs.map Input.name ∧ inputTypesOf d types d.inputStruct = types := by
  have hall : ∀ i ∈ d.inputs, i.variants = none := by
    intro i hi
    cases h : i.variants with
    | none => rfl
    | some vs => exact absurd hvar fun hv => (hd.2.2 i hi vs h).2 hv
  refine ⟨?_, ?_⟩
  · unfold inputsOf
    rw [List.filter_eq_self.mpr]
    intro i hi
    rw [hall i hi]; rfl
  · unfold inputTypesOf
    rw [List.filter_eq_self.mpr]
    · rw [List.map_snd_zip (by omega)]
    · intro i hi
      rw [hall i.1 (List.of_mem_zip hi).1]; rfl

end TypeProofs

/-- **C69** (partial): for scripts without variants and `transmute`, it is enough that all inputs, named
pushes and named depths have different names.

Missing: the restrictions of C60. -/
theorem C69_plain_partial (env : Vm.Env) (order : List (String × VState) → List (String × VState))
    (horder : ∀ l, (order l).Perm l) (d : Decl) (p : Prog) (e : List Emit) (g : Gen)
    (hgen : generate order d p = .ok (e, g))
    (hd : declOk d) (hp : WellNested p) (hok : progOk false p = true)
    (tyOf : String → Option FTy) (types : List FTy) (hty : types.length = d.inputs.length)
    (code : List RustStmt) (hcode : generateRust tyOf order d types p = some code)
    (Γ : Scope) (hcheck : checkRust [] code = some Γ)
    (hvar : d.variants = []) (hnt : noTransmute p = true) (hdist : (d.inputs.map Input.name ++ letNames p).Nodup)
    (values : List Bytes) (hvals : List.Forall₂ Is types values)
    (hdec : Named.runTyped env [] p [] (start (d.inputs.map Input.name) values) ≠ .undecided) :
    TypesOk env p (start (d.inputs.map Input.name) values) := by
  obtain ⟨hin, hit⟩ := plain_inputs d hd hvar types hty
  obtain ⟨h1, h2⟩ := plain_scope order horder d p e g hgen hd hp hok tyOf types hty code hcode Γ hcheck hvar hnt hdist
  rw [← hin] at hdec ⊢
  exact C69_typed_partial env order horder d p e g hgen hd hp hok tyOf types hty _ hcode Γ hcheck h1 h2
    d.inputStruct [] (by simp [variantsOf, hvar]) values (by rw [hit]; exact hvals) hdec

/-- **C69** (partial): for scripts without variants and `transmute`, it is enough that all inputs, named
pushes and named depths have different names, and that the branches of each conditional leave items of the same
names and types: then every execution on inputs of the declared types is well typed.

Missing: the restrictions of C60 (`declOk`, `progOk`); `C69_shadow_fails`, `C69_branches_fails`. -/
theorem C69_without_variants_partial (env : Vm.Env) (order : List (String × VState) → List (String × VState))
    (horder : ∀ l, (order l).Perm l) (d : Decl) (p : Prog) (e : List Emit) (g : Gen)
    (hgen : generate order d p = .ok (e, g))
    (hd : declOk d) (hp : WellNested p) (hok : progOk false p = true)
    (tyOf : String → Option FTy) (types : List FTy) (hty : types.length = d.inputs.length)
    (code : List RustStmt) (hcode : generateRust tyOf order d types p = some code)
    (Γ : Scope) (hcheck : checkRust [] code = some Γ)
    (hvar : d.variants = []) (hnt : noTransmute p = true) (hdist : (d.inputs.map Input.name ++ letNames p).Nodup)
    (hbal : BalancedTypes d types d.inputStruct [] p)
    (values : List Bytes) (hvals : List.Forall₂ Is types values) :
    TypesOk env p (start (d.inputs.map Input.name) values) := by
  obtain ⟨hin, hit⟩ := plain_inputs d hd hvar types hty
  obtain ⟨h1, h2⟩ := plain_scope order horder d p e g hgen hd hp hok tyOf types hty code hcode Γ hcheck hvar hnt hdist
  rw [← hin]
  exact C69_balanced_partial env order horder d p e g hgen hd hp hok tyOf types hty _ hcode Γ hcheck h1 h2
    d.inputStruct [] (by simp [variantsOf, hvar]) hbal values (by rw [hit]; exact hvals) (obeys_nil env p [] _)

set_option maxRecDepth 100000 in
/-- Non-vacuity: the balanced script of C60 (whose other hypotheses are shown to hold there). -/
example : ∃ code Γ,
    generateRust (fun _ => none) id balancedDecl [.byteArray, .boolean] balancedProg = some code ∧
    checkRust [] code = some Γ ∧ noTransmute balancedProg = true ∧
    (balancedDecl.inputs.map Input.name ++ letNames balancedProg).Nodup ∧
    BalancedTypes balancedDecl [.byteArray, .boolean] balancedDecl.inputStruct [] balancedProg ∧
    OneType Γ ∧ SameInVariants Γ code ∧
    List.Forall₂ Is [FTy.byteArray, .boolean] [[7, 7], [1]] ∧ List.Forall₂ Is [FTy.byteArray, .boolean] [[7, 7], []] := by
  refine ⟨_, _, rfl, rfl, by decide +kernel, by decide +kernel, by decide +kernel,
    oneType_of_nodup (by decide +kernel), by unfold SameInVariants; decide +kernel, ?_, ?_⟩
  · exact .cons trivial (.cons (.inr rfl) .nil)
  · exact .cons trivial (.cons (.inl rfl) .nil)

/-- The script of `C69_branches_fails` is not balanced in its types, and the examples with variants of C60 are. -/
example : ¬ BalancedTypes ⟨"Inputs", [], [⟨"c", none⟩]⟩ [.boolean] "Inputs" []
      (.scriptIf ⟨.op .OP_IF, some [.ident "c"], none⟩ (.leaf (.push (.pushInteger 5) none) .nil)
        (some ⟨.op .OP_ELSE, none, none⟩) (.leaf (.push (.pushBoolean true) none) .nil) ⟨.op .OP_ENDIF, none, none⟩ .nil) ∧
    BalancedTypes exampleDecl [.byteArray, .byteArray, .boolean] "Claim" [[⟨"claim", true⟩]] exampleProg ∧
    BalancedTypes exampleDecl [.byteArray, .byteArray, .boolean] "Refund" [[⟨"claim", false⟩]] exampleProg := by
  decide +kernel

/-- Non-vacuity: the example of C60 (whose other hypotheses are shown to hold there) passes the type check,
in both orders of the variants; its restrictions hold, and the inputs used there have the types. -/
example : ∀ order ∈ [id, List.reverse], ∃ code Γ,
    generateRust (fun _ => none) order exampleDecl [.byteArray, .byteArray, .boolean] exampleProg = some code ∧
    checkRust [] code = some Γ ∧ OneType Γ ∧ SameInVariants Γ code ∧ code.length = 18 ∧
    List.Forall₂ Is (inputTypesOf exampleDecl [.byteArray, .byteArray, .boolean] "Claim") [[1], [7, 6], [1]] ∧
    List.Forall₂ Is (inputTypesOf exampleDecl [.byteArray, .byteArray, .boolean] "Refund") [[1], []] := by
  intro order ho
  simp only [List.mem_cons, List.not_mem_nil, or_false] at ho
  rcases ho with rfl | rfl
  · refine ⟨_, _, rfl, rfl, oneType_of_nodup (by decide +kernel), by unfold SameInVariants; decide +kernel, by decide +kernel, ?_, ?_⟩
    · exact .cons trivial (.cons trivial (.cons (.inr rfl) .nil))
    · exact .cons trivial (.cons (.inl rfl) .nil)
  · refine ⟨_, _, rfl, rfl, oneType_of_nodup (by decide +kernel), by unfold SameInVariants; decide +kernel, by decide +kernel, ?_, ?_⟩
    · exact .cons trivial (.cons trivial (.cons (.inr rfl) .nil))
    · exact .cons trivial (.cons (.inl rfl) .nil)

/-- `a b: let sum = a + b; OP_WITHIN(sum, 0, 10)`, with a named depth. -/
def typedProg : Prog :=
  plain [opStmt .OP_ADD (some ["a", "b"]) (some ["sum"]), .push (.pushInteger 0) (some "low"),
    .push (.pushInteger 10) none, opStmt .OP_WITHIN none (some ["ok"]),
    .opcode ⟨.depthOf, some [.ident "s"], some ["depth"]⟩, opStmt .OP_PICK none none,
    opStmt .OP_SHA256 none none, opStmt .OP_2DROP none none]

/-- Non-vacuity: a script without variants that meets the hypotheses. -/
example : ∃ e g code Γ,
    generate id (plainDecl ["s", "a", "b"]) typedProg = .ok (e, g) ∧ declOk (plainDecl ["s", "a", "b"]) ∧
    WellNested typedProg ∧ progOk false typedProg = true ∧
    generateRust (fun _ => none) id (plainDecl ["s", "a", "b"]) [.byteArray, .integer, .integer] typedProg = some code ∧
    checkRust [] code = some Γ ∧ noTransmute typedProg = true ∧
    ((plainDecl ["s", "a", "b"]).inputs.map Input.name ++ letNames typedProg).Nodup ∧
    Named.runTyped (exampleSpendEnv none) [] typedProg [] (start ["s", "a", "b"] [[1, 2], [3], [4]]) =
      .ok ⟨[⟨[1, 2], some "s"⟩], []⟩ ∧
    List.Forall₂ Is [.byteArray, .integer, .integer] [[1, 2], [3], [4]] := by
  refine ⟨_, _, _, _, rfl, ⟨by decide, ?_, ?_⟩, ?_, by decide +kernel, rfl, rfl, by decide +kernel,
    by decide +kernel, by decide +kernel, ?_⟩
  · intro i hi
    simp only [plainDecl, List.map_cons, List.map_nil, List.mem_cons, List.not_mem_nil, or_false] at hi
    rcases hi with rfl | rfl | rfl <;> decide +kernel
  · intro i hi vs hvs
    simp only [plainDecl, List.map_cons, List.map_nil, List.mem_cons, List.not_mem_nil, or_false] at hi
    rcases hi with rfl | rfl | rfl <;> cases hvs
  · simp [typedProg, plain, WellNested, opens, isElse, closes, opStmt]
  · exact .cons trivial (.cons ⟨3, by decide +kernel⟩ (.cons ⟨4, by decide +kernel⟩ .nil))

/-- The check rejects a string used as a number, ... -/
example : ((generateRust (fun _ => none) id (plainDecl ["s", "n"]) [.byteArray, .integer]
    (plain [opStmt .OP_ADD none none])).bind (checkRust [])) = none := by
  decide +kernel

/-- ... and a comparison of items of different types. -/
example : ((generateRust (fun _ => none) id (plainDecl ["s", "n"]) [.byteArray, .integer]
    (plain [opStmt .OP_EQUAL none none])).bind (checkRust [])) = none := by
  decide +kernel

/-! ### The restrictions are needed -/

/-- `let x = 5; let x = true; OP_DROP; OP_NOT` -/
def shadowProg : Prog :=
  plain [.push (.pushInteger 5) (some "x"), .push (.pushBoolean true) (some "x"), opStmt .OP_DROP none none,
    opStmt .OP_NOT none none]

/-- **C69** fails if two pushes have one name: `OP_NOT` is checked on the variable of the second push, which
has been dropped, and executed on the integer of the first. -/
theorem C69_shadow_fails : ∃ e g code Γ,
    generate id (plainDecl []) shadowProg = .ok (e, g) ∧ WellNested shadowProg ∧ progOk false shadowProg = true ∧
    generateRust (fun _ => none) id (plainDecl []) [] shadowProg = some code ∧ checkRust [] code = some Γ ∧
    SameInVariants Γ code ∧
    ∀ env, Named.runTyped env [] shadowProg [] (start [] []) ≠ .undecided ∧ ¬ TypesOk env shadowProg (start [] []) := by
  refine ⟨_, _, _, _, rfl, ?_, by decide +kernel, rfl, rfl, by unfold SameInVariants; decide +kernel, ?_⟩
  · simp [shadowProg, plain, WellNested, opens, isElse, closes, opStmt]
  · intro env
    refine ⟨?_, ?_⟩
    · have : Named.runTyped env [] shadowProg [] (start [] []) = .ok ⟨[⟨[], none⟩], []⟩ := rfl
      rw [this]; simp
    · rintro ⟨_, h⟩
      have h := h ⟨[⟨[5], some "x"⟩], []⟩ rfl
      obtain ⟨_, h⟩ := h
      have h := h ⟨[⟨[1], some "x"⟩, ⟨[5], some "x"⟩], []⟩ rfl
      obtain ⟨_, h⟩ := h
      have h := h ⟨[⟨[5], some "x"⟩], []⟩ rfl
      obtain ⟨⟨args, ⟨f, rest, hf, hst, ht⟩, _⟩, _⟩ := h
      cases hf
      cases ht with
      | cons h1 h2 =>
        cases h2
        simp only [LState.erase, List.map_cons, List.map_nil, List.reverse_cons, List.reverse_nil, List.nil_append,
          List.cons_append, List.cons.injEq] at hst
        rw [← hst.1] at h1
        rcases h1 with h1 | h1 <;> simp at h1

/-- `OP_IF(c); 5; OP_ELSE; true; OP_ENDIF; OP_NOT` with a variant for each branch. -/
def twoDecl : Decl where
  inputStruct := "Inputs"
  variants := [("A", [[⟨"c", true⟩]]), ("B", [[⟨"c", false⟩]])]
  inputs := [⟨"c", none⟩]

@[inherit_doc twoDecl]
def twoProg : Prog :=
  .scriptIf ⟨.op .OP_IF, some [.ident "c"], none⟩ (plain [.push (.pushInteger 5) none])
    (some ⟨.op .OP_ELSE, none, none⟩) (plain [.push (.pushBoolean true) none]) ⟨.op .OP_ENDIF, none, none⟩
    (plain [opStmt .OP_NOT none none])

/-- **C69** fails if an operand has different types in different variants: only the variable of the variant
that is last in the iteration order is checked. In one order the script is accepted, though one variant
applies `OP_NOT` to an integer; in the other order it is rejected. -/
theorem C69_variants_fails : (∃ e g code Γ,
    generate id twoDecl twoProg = .ok (e, g) ∧ WellNested twoProg ∧ progOk false twoProg = true ∧
    generateRust (fun _ => none) id twoDecl [.boolean] twoProg = some code ∧ checkRust [] code = some Γ ∧
    OneType Γ ∧
    ∀ env, Named.runTyped env [[⟨"c", true⟩]] twoProg [] (start ["c"] [[1]]) ≠ .undecided ∧
      ¬ TypesOk env twoProg (start ["c"] [[1]])) ∧
    (generateRust (fun _ => none) List.reverse twoDecl [.boolean] twoProg).bind (checkRust []) = none := by
  refine ⟨⟨_, _, _, _, rfl, ?_, by decide +kernel, rfl, rfl, oneType_of_nodup (by decide +kernel), ?_⟩, by decide +kernel⟩
  · simp [twoProg, plain, WellNested, opens, isElse, closes, opStmt]
  · intro env
    refine ⟨?_, ?_⟩
    · have : Named.runTyped env [[⟨"c", true⟩]] twoProg [] (start ["c"] [[1]]) = .ok ⟨[⟨[], none⟩], []⟩ := rfl
      rw [this]; simp
    · intro h
      have h := (show TypesOk env (plain [.push (.pushInteger 5) none]) ⟨[], []⟩ ∧
        ∀ s', exec env (plain [.push (.pushInteger 5) none]) ⟨[], []⟩ = .ok s' →
          TypesOk env (plain [opStmt .OP_NOT none none]) s' from h).2 ⟨[⟨[5], none⟩], []⟩ rfl
      obtain ⟨⟨args, ⟨f, rest, hf, hst, ht⟩, _⟩, _⟩ := h
      cases hf
      cases ht with
      | cons h1 h2 =>
        cases h2
        simp only [LState.erase, List.map_cons, List.map_nil, List.reverse_cons, List.reverse_nil, List.nil_append,
          List.cons_append, List.cons.injEq] at hst
        rw [← hst.1] at h1
        rcases h1 with h1 | h1 <;> simp at h1

/-- **C69** fails for a conditional in a script without variants whose branches leave items of different types, even if
they have the same names: only the variable of the second branch is checked. -/
theorem C69_branches_fails : ∃ e g code Γ,
    generate id (plainDecl ["c"]) twoProg = .ok (e, g) ∧ WellNested twoProg ∧ progOk false twoProg = true ∧
    generateRust (fun _ => none) id (plainDecl ["c"]) [.boolean] twoProg = some code ∧ checkRust [] code = some Γ ∧
    OneType Γ ∧ SameInVariants Γ code ∧ Balanced (plainDecl ["c"]) "Inputs" [] twoProg ∧
    ∀ env, ¬ TypesOk env twoProg (start ["c"] [[1]]) := by
  refine ⟨_, _, _, _, rfl, ?_, by decide +kernel, rfl, rfl, oneType_of_nodup (by decide +kernel),
    by unfold SameInVariants; decide +kernel, by decide +kernel, ?_⟩
  · simp [twoProg, plain, WellNested, opens, isElse, closes, opStmt]
  · intro env h
    have h := (show TypesOk env (plain [.push (.pushInteger 5) none]) ⟨[], []⟩ ∧
      ∀ s', exec env (plain [.push (.pushInteger 5) none]) ⟨[], []⟩ = .ok s' →
        TypesOk env (plain [opStmt .OP_NOT none none]) s' from h).2 ⟨[⟨[5], none⟩], []⟩ rfl
    obtain ⟨⟨args, ⟨f, rest, hf, hst, ht⟩, _⟩, _⟩ := h
    cases hf
    cases ht with
    | cons h1 h2 =>
      cases h2
      simp only [LState.erase, List.map_cons, List.map_nil, List.reverse_cons, List.reverse_nil, List.nil_append,
        List.cons_append, List.cons.injEq] at hst
      rw [← hst.1] at h1
      rcases h1 with h1 | h1 <;> simp at h1

/-- **C69** (nothing is left unchecked): whenever the macro generates a script, it generates the code that
checks it: a variable of its declared type for every input, then, statement by statement in the written
order, the code that statement stands for. In particular every written opcode (other than those of the alt
stack) is a call of its typed function on as many operands as it takes. -/
theorem C69_calls (order : List (String × VState) → List (String × VState)) (horder : ∀ l, (order l).Perm l)
    (d : Decl) (hd : declOk d) (p : Prog) (e : List Emit) (g : Gen) (hgen : generate order d p = .ok (e, g))
    (tyOf : String → Option FTy) (types : List FTy)
    (hres : ∀ l ∈ written p, Resolves tyOf l) :
    ∃ segs, generateRust tyOf order d types p =
        some ((d.inputs.zip types).map (fun it => .bind it.1.name it.2) ++ segs.flatten) ∧
      List.Forall₂ (Checks tyOf) (written p) segs := by
  unfold generate at hgen
  obtain ⟨states, hinit, hrun⟩ := Res.bind_eq_ok.mp hgen
  have hperm := horder states
  have hn : ((order states).map Prod.fst).Nodup := by
    refine ((hperm.map Prod.fst).nodup_iff).mpr ?_
    rw [initial_spec d hd states hinit]
    exact canon_keys d hd
  have halt : ∀ q ∈ order states, q.2.alt = [] := by
    intro q hq
    have := hperm.mem_iff.mp hq
    rw [initial_spec d hd states hinit] at this
    unfold canon at this
    obtain ⟨r, _, rfl⟩ := List.mem_map.mp this
    rfl
  have hpar : TypeProofs.Par (order states) ((order states).map fun q => ⟨q.2.stack.map Item.name, []⟩) := by
    clear hn hrun hperm
    generalize order states = l at halt
    induction l with
    | nil => exact .nil
    | cons q l ih =>
      refine .cons ⟨by simp, ?_⟩ (ih fun q hq => halt q (List.mem_cons_of_mem _ hq))
      rw [halt q List.mem_cons_self]; rfl
  obtain ⟨segs, is', h1, h2, _⟩ := TypeProofs.prog_calls tyOf p _ _ _ _ hrun hpar hn hres
  refine ⟨segs, ?_, h2⟩
  simp only [generateRust, hinit, ok?, Option.bind_some, h1, Option.map_some, Option.some.injEq,
    List.append_cancel_right_eq]
  simp [List.zip, List.map_zipWith]

/-- The hypotheses are met by the script of C60 (two variants, conditionals). -/
example : ∃ e g, generate id exampleDecl exampleProg = .ok (e, g) ∧
    ∀ l ∈ written exampleProg, Resolves (fun _ => none) l := by
  refine ⟨_, _, rfl, ?_⟩
  simp only [exampleProg, written, List.mem_cons, Option.toList, List.map_cons, List.map_nil,
    List.not_mem_nil, or_false, List.cons_append, List.nil_append]
  rintro l h
  rcases h with rfl | rfl | rfl | rfl | rfl | rfl | rfl | rfl | rfl | rfl | rfl | rfl | rfl | rfl <;>
    first | exact ⟨_, rfl⟩ | (intro _ _ _ h; cases h)

end BCash
