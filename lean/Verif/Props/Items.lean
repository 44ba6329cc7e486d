import Verif.Spec.Items
import Verif.Props.Source
import Verif.Props.Contract
import Verif.Props.Signed
import Verif.Props.Func

/-! # C96: the type of the inputs, and its values -/

namespace BCash
open TxBuilder Spec Spec.Macro Spec.Named Spec.Source Spec.Items Macro
variable {Dyn : Type}

/-! ## Proofs -/

namespace ItemsProofs

theorem addField_fold (i : ScriptInput) (vs : List String) (m : String → List ScriptInput) (w : String) :
    (vs.foldl (fun m v => addField m i v) m) w = m w ++ List.replicate (vs.count w) i := by
  induction vs generalizing m with
  | nil => simp
  | cons v vs ih =>
    rw [List.foldl_cons, ih, List.count_cons]
    unfold addField
    by_cases hw : w = v
    · subst hw
      simp only [if_true, beq_self_eq_true, List.append_assoc]
      rw [Nat.add_comm, List.replicate_add]
      rfl
    · have : (v == w) = false := by simpa using fun h => hw h.symm
      simp [hw, this]

/-- How often a field is recorded. -/
def times (variants : List String) (v : String) (i : ScriptInput) : Nat :=
  match i.variants with
  | none => variants.count v
  | some vs => vs.count v

theorem fields_flat (variants : List (String × Predicate)) (is : List ScriptInput) (m : String → List ScriptInput)
    (v : String) : enumVariantFields variants is m v =
      m v ++ is.flatMap fun i => List.replicate (times (variants.map Prod.fst) v i) i := by
  induction is generalizing m with
  | nil => simp [enumVariantFields]
  | cons i is ih =>
    rw [enumVariantFields, ih, List.flatMap_cons, ← List.append_assoc]
    congr 1
    unfold times
    cases i.variants with
    | none => exact addField_fold _ _ _ _
    | some vs => exact addField_fold _ _ _ _

theorem nodup_le_one {α : Type} {n : Nat} {a : α} (h : (List.replicate n a).Nodup) : n ≤ 1 := by
  simpa using List.nodup_replicate.mp h

theorem flat_filter (variants : List String) (v : String) (hv : v ∈ variants) (hvn : variants.Nodup)
    (is : List ScriptInput)
    (h : ((is.flatMap fun i => List.replicate (times variants v i) i).map ScriptInput.name).Nodup) :
    (is.flatMap fun i => List.replicate (times variants v i) i) = is.filter (applies v) := by
  induction is with
  | nil => rfl
  | cons i is ih =>
    rw [List.flatMap_cons, List.map_append, List.nodup_append] at h
    obtain ⟨h1, h2, _⟩ := h
    rw [List.flatMap_cons, ih h2, List.filter_cons]
    rw [List.map_replicate] at h1
    have h1 := nodup_le_one h1
    have : times variants v i = if applies v i then 1 else 0 := by
      unfold times applies at *
      cases hi : i.variants with
      | none => simpa using List.count_eq_one_of_mem hvn hv
      | some vs =>
        simp only [hi] at h1 ⊢
        by_cases hm : v ∈ vs
        · have := List.count_pos_iff.mpr hm
          simp only [List.contains_iff_mem, hm, if_true]
          omega
        · simp [hm, List.count_eq_zero.mpr hm]
    rw [this]
    split <;> simp

/-- The type of a script. -/
theorem item_eq (s : Macro.Script) (h : Valid s.inputsItem) :
    s.inputsItem = expected s.docs.inputStruct (fun v => s.docs.variants.lookup v) s.inputStruct
      (s.scriptVariants.map Prod.fst) s.inputs := by
  unfold Script.inputsItem expected at *
  cases hs : s.scriptVariants with
  | nil => rfl
  | cons a as =>
    rw [hs] at h
    simp only [List.isEmpty_cons, Bool.false_eq_true, if_false] at h ⊢
    rw [if_neg (by simp)]
    rw [← hs] at h ⊢
    obtain ⟨h1, h2⟩ := h
    simp only [List.map_map] at h1 h2 ⊢
    congr 1
    have hn : (s.scriptVariants.map Prod.fst).Nodup := h1
    refine List.map_congr_left fun vc hvc => ?_
    have h2 := h2 _ (List.mem_map.mpr ⟨vc, hvc, rfl⟩)
    simp only [List.map_map] at h2
    have hm : vc.1 ∈ s.scriptVariants.map Prod.fst := List.mem_map.mpr ⟨vc, hvc, rfl⟩
    have h3 : ((s.fieldsOf vc.1).map ScriptInput.name).Nodup := h2
    unfold Script.fieldsOf at h3 ⊢
    rw [fields_flat, List.nil_append] at h3
    simp only [fields_flat, List.nil_append, Function.comp]
    rw [flat_filter _ _ hm hn _ h3]
    rfl

/-- What the parser made of an accepted function. -/
theorem script_parts (lx : Lex) (order : List (String × VState) → List (String × VState)) (args : List NestedMeta)
    (f : ItemFn) (s : Macro.Script) (e : List Emit) (g : Gen) (h : scriptMacro lx order args f = .ok (s, e, g)) :
    ∃ st ty, parseAttrs lx args = .ok (s.inputStruct, st) ∧ s.scriptVariants = st.variants ∧
      s.enableDebug = st.debug.getD true ∧
      parseDocs lx f.attrs s.inputStruct (st.variants.map Prod.fst) = .ok s.docs ∧
      parseScriptInputs f.inputs = .ok (s.inputs, ty) ∧ parseBody f.body = .ok s.stmts ∧
      generate order s.decl s.stmts = .ok (e, g) := by
  simp only [scriptMacro, parseScript, Res.bind_eq_ok] at h
  obtain ⟨s', ⟨⟨structName, st⟩, hargs, h1⟩, ⟨e', g'⟩, hgen, h2⟩ := h
  split at h2
  · cases h2
  simp only [Res.ok.injEq, Prod.mk.injEq] at h2
  obtain ⟨rfl, rfl, rfl⟩ := h2
  dsimp only at h1
  split at h1
  · cases h1
  simp only [Res.bind_eq_ok] at h1
  obtain ⟨docs, hdocs, ⟨inputs, ty⟩, hin, p, hb, h1⟩ := h1
  simp only [Res.ok.injEq] at h1
  subst h1
  have hb' : parseBody f.body = .ok p := by
    cases hq : parseBody f.body with
    | error m => rw [hq] at hb; cases hb
    | ok q => rw [hq] at hb; cases hb; rfl
  exact ⟨st, ty, hargs, rfl, rfl, hdocs, hin, hb', hgen⟩

theorem toPushop_cases (v : PushValue) (hv : Exists v) :
    (v.toPushop = .panic ∧ Unpushable v) ∨
    ∃ op x, v.toPushop = .ok op ∧ ¬ Unpushable v ∧ op.WellFormed ∧ (∀ d, op ≠ .pushByteArray d false) ∧
      Vm.item op = some x ∧ ItemOf v x := by
  have hn := fun i => NumProofs.numBytes_spec i
  obtain ⟨hp, -⟩ := C66_push GenProofs.emptyEnv (fun _ _ => True) v hv ⟨[], []⟩
  cases hq : v.toPushop with
  | panic => exact .inl ⟨rfl, hp.mp hq⟩
  | err e => exact e.elim
  | ok op =>
    have hnu : ¬ Unpushable v := fun h => by have := hp.mpr h; rw [hq] at this; cases this
    refine .inr ⟨op, ?_⟩
    cases v with
    | integer i =>
      cases hq
      exact ⟨_, rfl, hnu, hv, by simp, rfl, .integer _ _ (hn i).1 (hn i).2⟩
    | integerResult r =>
      cases r with
      | error e => cases hq
      | ok i =>
        cases hq
        exact ⟨_, rfl, hnu, hv, by simp, rfl, .integerResult _ _ (hn i).1 (hn i).2⟩
    | inner i =>
      cases hi : Integer.new i with
      | error e => simp [PushValue.toPushop, hi] at hq
      | ok j =>
        obtain ⟨rfl, hr⟩ := ((C09_new_iff i j).1).mp hi
        simp only [PushValue.toPushop, hi] at hq
        cases hq
        exact ⟨_, rfl, hnu, hr, by simp, rfl, .inner _ _ (hn j).1 (hn j).2⟩
    | boolean b =>
      cases hq
      cases b
      · exact ⟨_, rfl, hnu, trivial, by simp, rfl, .false⟩
      · exact ⟨_, rfl, hnu, trivial, by simp, rfl, .true⟩
    | bytes d =>
      cases hq
      exact ⟨_, rfl, hnu, hv, by simp [Op.fromArray], rfl, .bytes d⟩
    | byteArray d =>
      cases hq
      exact ⟨_, rfl, hnu, hv, by simp [Op.fromArray], rfl, .byteArray d⟩

theorem itemOf_unique {v : PushValue} {x y : Bytes} (hx : ItemOf v x) (hy : ItemOf v y) : x = y := by
  cases hx <;> cases hy <;> first | rfl | skip
  all_goals
    rename_i h1 h2 h3 h4
    exact minimal_unique _ _ h2 h3 (h1.trans h4.symm)

/-- The record of a pushed field. -/
def Recorded (s : Macro.Script) (text : ScriptInput → String) (name : String) (op : Tagged) : Prop :=
  (s.enableDebug = true → op.pushed = some [some name] ∧ op.altPushed = some [] ∧
    ∃ i ∈ s.inputs, i.name = name ∧ op.srcCode = [(30, text i), (40, text i), (60, text i), (80, text i)]) ∧
  (s.enableDebug = false → op.srcCode = [] ∧ op.pushed = none ∧ op.altPushed = none)

structure Pushed (s : Macro.Script) (text : ScriptInput → String) (f : String × PushValue) (op : Tagged) : Prop where
  push : f.2.toPushop = .ok op.op
  wf : op.op.WellFormed
  noFalse : ∀ d, op.op ≠ .pushByteArray d false
  item : ∃ x, Vm.item op.op = some x ∧ ItemOf f.2 x
  record : Recorded s text f.1 op

theorem pushFields_spec (s : Macro.Script) (text : ScriptInput → String) (vals : List (String × PushValue))
    (is : List ScriptInput) (his : ∀ i ∈ is, i ∈ s.inputs) (vs : List (String × PushValue))
    (hn : vs.map Prod.fst = is.map ScriptInput.name) (hl : ∀ p ∈ vs, vals.lookup p.1 = some p.2)
    (he : ∀ p ∈ vs, Exists p.2) :
    (pushFields s.enableDebug text vals is = .panic ∧ ∃ p ∈ vs, Unpushable p.2) ∨
    ∃ ops, pushFields s.enableDebug text vals is = .ok ops ∧ (∀ p ∈ vs, ¬ Unpushable p.2) ∧
      List.Forall₂ (Pushed s text) vs ops := by
  induction is generalizing vs with
  | nil =>
    cases vs with
    | nil => exact .inr ⟨[], rfl, by simp, .nil⟩
    | cons v vs => simp at hn
  | cons i is ih =>
    cases vs with
    | nil => simp at hn
    | cons p vs =>
      simp only [List.map_cons, List.cons.injEq] at hn
      obtain ⟨hni, hn⟩ := hn
      have ih := ih (fun j hj => his j (by simp [hj])) vs hn (fun q hq => hl q (by simp [hq]))
        (fun q hq => he q (by simp [hq]))
      have hp := hl p (by simp)
      rw [hni] at hp
      rw [pushFields, hp]
      dsimp only
      rcases toPushop_cases p.2 (he p (by simp)) with ⟨h1, h2⟩ | ⟨op, x, h1, h2, h3, h4, h5, h6⟩
      · left
        rw [h1]
        exact ⟨rfl, p, by simp, h2⟩
      · rw [h1]
        rcases ih with ⟨h7, q, hq, h8⟩ | ⟨ops, h7, h8, h9⟩
        · left
          rw [h7]
          exact ⟨rfl, q, by simp [hq], h8⟩
        · right
          rw [h7]
          refine ⟨_, rfl, ?_, .cons ?_ h9⟩
          · intro q hq
            rcases List.mem_cons.mp hq with rfl | hq
            · exact h2
            · exact h8 q hq
          · have hop : (makeTaggedOp s.enableDebug ⟨op, [some i.name], []⟩
                (maxLineWidths.map fun w => (w, text i))).op = op := by
              unfold makeTaggedOp
              split <;> rfl
            refine ⟨by rw [hop]; exact h1, by rw [hop]; exact h3, by rw [hop]; exact h4,
              ⟨x, by rw [hop]; exact h5, h6⟩, ?_, ?_⟩
            · intro hd
              rw [hd, makeTaggedOp, if_pos rfl]
              exact ⟨by rw [hni], rfl, i, his i (by simp), hni.symm, rfl⟩
            · intro hd
              rw [hd, makeTaggedOp]
              exact ⟨rfl, rfl, rfl⟩

theorem lookup_of_nodup {β : Type} (l : List (String × β)) (hn : (l.map Prod.fst).Nodup) :
    ∀ p ∈ l, l.lookup p.1 = some p.2 := by
  induction l with
  | nil => simp
  | cons a l ih =>
    rw [List.map_cons, List.nodup_cons] at hn
    intro p hp
    obtain ⟨ak, av⟩ := a
    rw [List.lookup_cons]
    rcases List.mem_cons.mp hp with rfl | hp'
    · simp
    · have : p.1 ≠ ak := by
        intro hak
        exact hn.1 (List.mem_map.mpr ⟨p, hp', hak⟩)
      have hb : (p.1 == ak) = false := by simpa using this
      rw [hb]
      exact ih hn.2 p hp'

theorem fieldsOf_mem (s : Macro.Script) (v : String) : ∀ i ∈ s.fieldsOf v, i ∈ s.inputs := by
  intro i hi
  unfold Script.fieldsOf at hi
  rw [fields_flat, List.nil_append, List.mem_flatMap] at hi
  obtain ⟨j, hj, hi⟩ := hi
  rw [List.eq_of_mem_replicate hi]
  exact hj

theorem inputOps_spec (s : Macro.Script) (hvalid : Valid s.inputsItem) (text : ScriptInput → String)
    (v : InputsValue) (hv : Inhabits s.inputsItem v) (he : ∀ f ∈ v.fields, Exists f.2) :
    (s.inputOps text v = .panic ∧ ∃ p ∈ v.fields, Unpushable p.2) ∨
    ∃ ops, s.inputOps text v = .ok ops ∧ (∀ p ∈ v.fields, ¬ Unpushable p.2) ∧
      List.Forall₂ (Pushed s text) v.fields ops := by
  unfold Script.inputOps
  unfold Script.inputsItem at hvalid hv
  cases hs : s.scriptVariants.isEmpty with
  | true =>
    rw [hs, if_pos rfl] at hvalid hv
    rw [if_pos rfl]
    obtain ⟨case, values⟩ := v
    cases hv with
    | struct _ _ _ _ hn =>
      rw [List.map_map] at hn
      have hvalid : (s.inputs.map ScriptInput.name).Nodup := by
        simpa only [Valid, List.map_map, Function.comp_def] using hvalid
      exact pushFields_spec s text values s.inputs (fun _ h => h) values hn
        (lookup_of_nodup values (by rw [hn]; exact hvalid)) he
  | false =>
    simp only [hs, Bool.false_eq_true, if_false] at hvalid hv ⊢
    obtain ⟨case, values⟩ := v
    cases hv with
    | enum _ _ _ c _ hc hn =>
      obtain ⟨vc, hvc, rfl⟩ := List.mem_map.mp hc
      have hnd := hvalid.2 _ hc
      rw [← hn] at hnd
      simp only [List.map_map] at hn
      exact pushFields_spec s text values (s.fieldsOf vc.1) (fieldsOf_mem s vc.1) values hn
        (lookup_of_nodup values hnd) he

/-- The pushed items. -/
theorem pushed_items (s : Macro.Script) (text : ScriptInput → String) {fs : List (String × PushValue)}
    {ops : List Tagged} (h : List.Forall₂ (Pushed s text) fs ops) :
    ∃ items, List.Forall₂ (fun f x => ItemOf f.2 x) fs items ∧
      (ops.map Tagged.op).map Vm.item = items.map some := by
  induction h with
  | nil => exact ⟨[], .nil, rfl⟩
  | cons h _ ih =>
    obtain ⟨items, h1, h2⟩ := ih
    obtain ⟨x, hx, hi⟩ := h.item
    exact ⟨x :: items, .cons hi h1, by simp only [List.map_cons, hx, h2]⟩

theorem pushed_wf (s : Macro.Script) (text : ScriptInput → String) {fs : List (String × PushValue)}
    {ops : List Tagged} (h : List.Forall₂ (Pushed s text) fs ops) :
    ∀ op ∈ ops.map Tagged.op, op.WellFormed ∧ ∀ d, op ≠ .pushByteArray d false := by
  induction h with
  | nil => simp
  | cons h _ ih =>
    intro op hop
    rcases List.mem_cons.mp hop with rfl | hop
    · exact ⟨h.wf, h.noFalse⟩
    · exact ih op hop

theorem items_unique {fs : List (String × PushValue)} {xs ys : List Bytes}
    (hx : List.Forall₂ (fun f x => ItemOf f.2 x) fs xs) (hy : List.Forall₂ (fun f x => ItemOf f.2 x) fs ys) :
    xs = ys := by
  induction hx generalizing ys with
  | nil => cases hy; rfl
  | cons h _ ih =>
    cases hy with
    | cons h' hy => rw [itemOf_unique h h', ih hy]

end ItemsProofs
open ItemsProofs

/-! ## C96 -/

/-- **C96** (the type): the type generated for the inputs of a function, if `rustc` accepts it, is a struct with
exactly the declared inputs as public fields, in order, with their types and attributes, if no variants are
declared, and else an enum with exactly the declared variants as cases, in order, each with exactly the inputs that
exist in it. It is documented as written. -/
theorem C96_type (lx : Lex) (hl : LexOk lx) (order : List (String × VState) → List (String × VState))
    (structName : String) (l : List Setting) (hlok : ∀ st ∈ l, st.Ok lx) (f : ItemFn)
    (attrs : List Attribute) (pat : Pat) (ty : String) (params : List FnArg) (inputs : List ScriptInput)
    (hf : f.inputs = .typed attrs pat ty :: params) (hin : List.Forall₂ IsInput params inputs)
    (hs : Word lx structName) (hw : ∀ v ∈ (variantSettings l).map Prod.fst, Word lx v) (t : DocText)
    (ht : t.Ok lx structName ((variantSettings l).map Prod.fst)) (hdoc : docLines f.attrs = t.lines)
    (s : Macro.Script) (e : List Emit) (g : Gen)
    (h : scriptMacro lx order (writtenArgs structName l) f = .ok (s, e, g)) (hvalid : Valid s.inputsItem) :
    s.inputsItem = expected t.intro t.about structName ((variantSettings l).map Prod.fst) inputs := by
  obtain ⟨st, ty', h1, h2, -, h3, h4, -⟩ := script_parts lx order _ f s e g h
  have h1' := (C86_arguments lx hl (writtenArgs structName l) structName _).mpr ⟨l, rfl, hlok, rfl⟩
  rw [h1'] at h1
  simp only [Res.ok.injEq, Prod.mk.injEq] at h1
  obtain ⟨hsn, hst⟩ := h1
  have h4' := (C86_inputs f.inputs inputs ty).mpr ⟨attrs, pat, params, hf, hin⟩
  rw [h4'] at h4
  simp only [Res.ok.injEq, Prod.mk.injEq] at h4
  obtain ⟨docs, hd1, hd2, hd3⟩ := C86_docs lx hl structName _ hs hw f.attrs t ht hdoc
  rw [← hst, ← hsn, hd1] at h3
  simp only [Res.ok.injEq] at h3
  rw [item_eq s hvalid, h2, ← hst, ← hsn, ← h4.1, ← h3, hd2]
  congr 1
  funext v
  exact hd3 v

/-- **C96** (the type), without documentation of the type. -/
theorem C96_type_undocumented (lx : Lex) (hl : LexOk lx)
    (order : List (String × VState) → List (String × VState))
    (structName : String) (l : List Setting) (hlok : ∀ st ∈ l, st.Ok lx) (f : ItemFn)
    (attrs : List Attribute) (pat : Pat) (ty : String) (params : List FnArg) (inputs : List ScriptInput)
    (hf : f.inputs = .typed attrs pat ty :: params) (hin : List.Forall₂ IsInput params inputs)
    (hs : Word lx structName) (hw : ∀ v ∈ (variantSettings l).map Prod.fst, Word lx v)
    (hdoc : ∀ l ∈ docLines f.attrs, ¬ Heading lx "# " structName l)
    (s : Macro.Script) (e : List Emit) (g : Gen)
    (h : scriptMacro lx order (writtenArgs structName l) f = .ok (s, e, g)) (hvalid : Valid s.inputsItem) :
    s.inputsItem = expected [] (fun _ => none) structName ((variantSettings l).map Prod.fst) inputs := by
  obtain ⟨st, ty', h1, h2, -, h3, h4, -⟩ := script_parts lx order _ f s e g h
  have h1' := (C86_arguments lx hl (writtenArgs structName l) structName _).mpr ⟨l, rfl, hlok, rfl⟩
  rw [h1'] at h1
  simp only [Res.ok.injEq, Prod.mk.injEq] at h1
  obtain ⟨hsn, hst⟩ := h1
  have h4' := (C86_inputs f.inputs inputs ty).mpr ⟨attrs, pat, params, hf, hin⟩
  rw [h4'] at h4
  simp only [Res.ok.injEq, Prod.mk.injEq] at h4
  have hd1 := C86_docs_none lx hl structName _ hs hw f.attrs hdoc
  rw [← hst, ← hsn, hd1] at h3
  simp only [Res.ok.injEq] at h3
  rw [item_eq s hvalid, h2, ← hst, ← hsn, ← h4.1, ← h3]
  rfl

/-- **C96** (values): a value of the type is pushed field by field, in the order of the declaration: executing its
operations puts exactly the items of the field values on the stack, the last field on top. Each operation is
recorded with the name of its field and the text of its parameter in debug mode, and with nothing otherwise.
It panics exactly if a value is an errored integer result or the `i32` which is no script integer. -/
theorem C96_values (env : Vm.Env) (s : Macro.Script) (hvalid : Valid s.inputsItem) (text : ScriptInput → String)
    (v : InputsValue) (hv : Inhabits s.inputsItem v) (he : ∀ f ∈ v.fields, Exists f.2) (st : Vm.State) :
    (s.inputOps text v = .panic ↔ ∃ f ∈ v.fields, Unpushable f.2) ∧
    ∀ ops, s.inputOps text v = .ok ops → ∃ items script,
      List.Forall₂ (fun f x => ItemOf f.2 x) v.fields items ∧
      serializeOps (ops.map Tagged.op) = .ok script ∧
      Vm.Runs env script st (some ⟨items.reverse ++ st.stack, st.alt⟩) ∧
      List.Forall₂ (fun f op =>
        (s.enableDebug = true → op.pushed = some [some f.1] ∧ op.altPushed = some [] ∧
          ∃ i ∈ s.inputs, i.name = f.1 ∧
            op.srcCode = [(30, text i), (40, text i), (60, text i), (80, text i)]) ∧
        (s.enableDebug = false → op.srcCode = [] ∧ op.pushed = none ∧ op.altPushed = none)) v.fields ops := by
  rcases inputOps_spec s hvalid text v hv he with ⟨h1, h2⟩ | ⟨ops, h1, h2, h3⟩
  · exact ⟨⟨fun _ => h2, fun _ => h1⟩, fun ops h => by rw [h1] at h; cases h⟩
  · refine ⟨⟨fun h => by (rw [h1] at h; cases h), fun ⟨f, hf, hu⟩ => absurd hu (h2 f hf)⟩, fun ops' h => ?_⟩
    rw [h1] at h
    cases h
    obtain ⟨items, h4, h5⟩ := pushed_items s text h3
    obtain ⟨script, h6, h7⟩ := C58_pushes env _ items (fun op hop => (pushed_wf s text h3 op hop).1) h5 st
    exact ⟨items, script, h4, h6, h7, h3.imp fun _ _ hp => hp.record⟩

/-- The inputs of a variant by name. -/
theorem ItemsProofs.names_of_item (s : Macro.Script) (hd : declOk s.decl) (hvalid : Valid s.inputsItem)
    (v : InputsValue) (hv : Inhabits s.inputsItem v) : v.fields.map Prod.fst = inputsOf s.decl v.case := by
  have hi : ∀ c is, ((is : List ScriptInput).filter (applies c)).map ScriptInput.name =
      ((is.map fun i : ScriptInput => (⟨i.name, i.variants⟩ : Input)).filter
        fun i => i.variants.all fun vs => vs.contains c).map Input.name := by
    intro c is
    induction is with
    | nil => rfl
    | cons i is ih =>
      rw [List.map_cons, List.filter_cons, List.filter_cons]
      have : applies c i = (i.variants.all fun vs => vs.contains c) := by
        unfold applies
        cases i.variants <;> rfl
      rw [this]
      dsimp only
      split
      · rw [List.map_cons, List.map_cons, ih]
      · exact ih
  rw [item_eq s hvalid] at hv
  unfold expected at hv
  obtain ⟨case, values⟩ := v
  unfold inputsOf
  split at hv
  · rename_i hnil
    cases hv with
    | struct _ _ _ _ hn =>
      rw [hn, List.map_map]
      have hall : s.inputs.filter (applies s.inputStruct) = s.inputs := by
        apply List.filter_eq_self.mpr
        intro i him
        unfold applies
        cases hvs : i.variants with
        | none => rfl
        | some vs =>
          have := (hd.2.2 ⟨i.name, i.variants⟩ (List.mem_map.mpr ⟨i, him, rfl⟩) vs hvs).2
          exact (this (by simpa [Script.decl] using hnil)).elim
      have := hi s.inputStruct s.inputs
      rw [hall] at this
      exact this
  · cases hv with
    | enum _ _ _ c _ hc hn =>
      obtain ⟨w, hw, rfl⟩ := List.mem_map.mp hc
      rw [hn, List.map_map]
      exact hi w s.inputs

theorem ItemsProofs.names_nodup (it : InputsItem) (hvalid : Valid it) (v : InputsValue) (hv : Inhabits it v) :
    (v.fields.map Prod.fst).Nodup := by
  cases hv with
  | struct _ _ _ _ hn => rw [hn]; exact hvalid
  | enum _ _ _ c _ hc hn => rw [hn]; exact hvalid.2 c hc

/-- What is declared is what is parsed. -/
theorem ItemsProofs.decl_eq (lx : Lex) (hl : LexOk lx) (order : List (String × VState) → List (String × VState))
    (args : List NestedMeta) (f : ItemFn) (d : Decl) (hdecl : Declares lx args f d)
    (s : Macro.Script) (e : List Emit) (g : Gen) (h : scriptMacro lx order args f = .ok (s, e, g)) : s.decl = d := by
  obtain ⟨st, ty', h1, h2, -, -, h4, -⟩ := script_parts lx order _ f s e g h
  obtain ⟨⟨l, hargs, hok, hvar⟩, -, attrs, pat, ty, params, inputs, hfi, hall, hin⟩ := hdecl
  have h1' := (C86_arguments lx hl args d.inputStruct _).mpr ⟨l, hargs, hok, rfl⟩
  rw [h1'] at h1
  simp only [Res.ok.injEq, Prod.mk.injEq] at h1
  have h4' := (C86_inputs f.inputs inputs ty).mpr ⟨attrs, pat, params, hfi, hall⟩
  rw [h4'] at h4
  simp only [Res.ok.injEq, Prod.mk.injEq] at h4
  unfold Script.decl
  rw [h2, ← h1.2, ← h1.1, ← h4.1, ← hin, ← hvar]

/-- The push of a field by name. -/
def ItemsProofs.fieldOp (fs : List (String × PushValue)) (x : String) : Op Bytes :=
  match fs.lookup x with
  | some v => match v.toPushop with
    | .ok op => op
    | _ => .code .OP_0
  | none => .code .OP_0

theorem ItemsProofs.fieldOp_eq (fs : List (String × PushValue)) (p : String × PushValue)
    (hp : fs.lookup p.1 = some p.2) (op : Op Bytes) (h : p.2.toPushop = .ok op) : fieldOp fs p.1 = op := by
  unfold fieldOp
  rw [hp]
  dsimp only
  rw [h]

theorem ItemsProofs.map_fieldOp (s : Macro.Script) (text : ScriptInput → String) (fs : List (String × PushValue))
    {vs : List (String × PushValue)} {ops : List Tagged} (h : List.Forall₂ (Pushed s text) vs ops)
    (hl : ∀ p ∈ vs, fs.lookup p.1 = some p.2) :
    (vs.map Prod.fst).map (fieldOp fs) = ops.map Tagged.op ∧
    ∀ x ∈ vs.map Prod.fst, (fieldOp fs x).WellFormed ∧ (∀ d, fieldOp fs x ≠ .pushByteArray d false) ∧
      Vm.item (fieldOp fs x) = some ((Vm.item (fieldOp fs x)).getD []) := by
  induction h with
  | nil => simp
  | @cons p op vs ops h _ ih =>
    obtain ⟨ih1, ih2⟩ := ih fun q hq => hl q (by simp [hq])
    have he := fieldOp_eq fs p (hl p (by simp)) op.op h.push
    obtain ⟨x, hx, -⟩ := h.item
    refine ⟨by simp only [List.map_cons, he, ih1], fun y hy => ?_⟩
    rcases List.mem_cons.mp hy with rfl | hy
    · rw [he]
      exact ⟨h.wf, h.noFalse, by rw [hx]; rfl⟩
    · exact ih2 y hy

/-- **C96** (the contract, partial: under the restrictions of `C60_names_partial`): from the source of a contract to
its spending. Take a function the macro accepts, which declares `d` and says the statements `t`, and the script-hash
address of the generated script. An input that spends an output locked to that address, added with the generated
script and a P2SH signatory which unlocks it with a value of the generated type, satisfies the output in the completed
transaction exactly if the statements as written, executed on the field values under the names of the fields, run
to the end and leave exactly one true item. -/
theorem C96_contract_partial (c : Crypto) (sz : Layout) (H : Bytes → Hash256)
    (h160 : Bytes → Hash160) (h160c : ∀ x, (h160 x).1 = c.hash160 x)
    -- the source
    (lx : Lex) (hl : LexOk lx)
    (order : List (String × VState) → List (String × VState)) (horder : ∀ l, (order l).Perm l)
    (args : List NestedMeta) (f : ItemFn) (d : Decl) (t : Prog)
    (hdecl : Declares lx args f d) (hsays : Says f.body (blocks t)) (hw : WellNested t)
    (hd : declOk d) (hok : progOk false t = true)
    (sc : Macro.Script) (e : List Emit) (g : Gen) (hacc : scriptMacro lx order args f = .ok (sc, e, g))
    -- the address
    (rbytes : Bytes) (hr : Script.serOps (e.map Emit.op) = some rbytes) (hrl : rbytes.length < 2 ^ 32)
    (pre : Bytes) (a : Address) (ha : Address.fromRedeemScript h160 pre rbytes = some a)
    -- a value of the generated type
    (hvalid : Valid sc.inputsItem) (v : InputsValue) (hv : Inhabits sc.inputsItem v)
    (he : ∀ x ∈ v.fields, Exists x.2) (items : List Bytes)
    (hitems : List.Forall₂ (fun x item => ItemOf x.2 item) v.fields items)
    (cond : Predicate) (hcond : (v.case, cond) ∈ variantsOf d)
    (text : ScriptInput → String) (ops : List Tagged) (hops : sc.inputOps text v = .ok ops)
    -- the transaction
    (b : TxBuilder Dyn) (u : UnsignedTx Dyn) (cs : List (SignCall Dyn)) (tx : UnhashedTx)
    (h : Completed sz H b u cs tx) (idx : Nat) (input : UnsignedTxInput)
    (s : Signatory Dyn) (hs : s.isP2sh = true) (hadd : InputAdded b idx input (e.map Emit.op) s) (sigs : s.Sigs)
    (hcs : ∀ call ∈ cs, call.idx = idx → call = .signatory idx s sigs ∨
      ∃ d, call = .dyn idx d ∧ s.downcast d = some sigs)
    (ps : List TxPreimage) (hps : u.txPreimages[idx]? = some ps)
    (hunlock : signatoryOps s ps u.estimatedSize sigs (e.map Emit.op) u.outputs = some (ops.map Tagged.op))
    (hdec : ∀ i, tx.wire.inputs[idx]? = some i →
      runScript (txEnv c tx.wire idx i input.value.toNat) cond t (e.map Emit.op) scriptBytes
        (start (v.fields.map Prod.fst) items) ≠ .undecided) :
    ∃ i, tx.wire.inputs[idx]? = some i ∧
      execScript (txEnv c tx.wire idx i input.value.toNat) t (e.map Emit.op) scriptBytes
        (start (v.fields.map Prod.fst) items) ≠ .mismatch ∧
      (SpendOk c tx.wire idx input.value.toNat (scriptBytes a.toScript) ↔
        ∃ top alt, execScript (txEnv c tx.wire idx i input.value.toNat) t (e.map Emit.op) scriptBytes
            (start (v.fields.map Prod.fst) items) = .ok ⟨[top], alt⟩ ∧
          Vm.truthy top.value = true) := by
  obtain ⟨hgen, -⟩ := (C88_generates lx hl order args f d t hdecl hsays hw e g).mp ⟨sc, hacc⟩
  have hde := decl_eq lx hl order args f d hdecl sc e g hacc
  have hnames := names_of_item sc (by rw [hde]; exact hd) hvalid v hv
  rw [hde] at hnames
  have hnd := names_nodup _ hvalid v hv
  rcases inputOps_spec sc hvalid text v hv he with ⟨h1, -⟩ | ⟨ops', h1, -, hpushed⟩
  · rw [h1] at hops; cases hops
  rw [h1] at hops
  cases hops
  obtain ⟨hm1, hm2⟩ := map_fieldOp sc text v.fields hpushed (lookup_of_nodup _ hnd)
  obtain ⟨items', hi1, hi2⟩ := pushed_items sc text hpushed
  cases items_unique hitems hi1
  have hvals : (inputsOf d v.case).map (fun x => (Vm.item (fieldOp v.fields x)).getD []) = items := by
    rw [← hnames]
    have : ((v.fields.map Prod.fst).map (fieldOp v.fields)).map Vm.item = items.map some := by rw [hm1, hi2]
    have h2 := congrArg (List.map fun o : Option Bytes => o.getD []) this
    simpa [List.map_map, Function.comp_def] using h2
  have key := C71_contract_partial c sz H h160 h160c order horder d t e g hgen hd hw hok rbytes hr hrl pre a ha
    v.case cond hcond (fieldOp v.fields) (fun x => (Vm.item (fieldOp v.fields x)).getD []) (by
      rw [← hnames]; exact hm2) b u cs tx h idx input s hs hadd sigs hcs ps hps (by
      rw [inputNames_eq d hd, ← hnames, hm1]; exact hunlock) (by
      intro i hi
      rw [hvals, ← hnames]
      exact hdec i hi)
  rw [hvals, ← hnames] at key
  exact key

/-- **C96** without variants (partial: under the restrictions of `C60_without_variants_partial`): the same for a
function with one way of writing its inputs, whose branches leave the same names; every value of the generated struct
is covered, whichever branches it takes. -/
theorem C96_without_variants_partial (c : Crypto) (sz : Layout) (H : Bytes → Hash256)
    (h160 : Bytes → Hash160) (h160c : ∀ x, (h160 x).1 = c.hash160 x)
    -- the source
    (lx : Lex) (hl : LexOk lx)
    (order : List (String × VState) → List (String × VState)) (horder : ∀ l, (order l).Perm l)
    (args : List NestedMeta) (f : ItemFn) (d : Decl) (t : Prog)
    (hdecl : Declares lx args f d) (hsays : Says f.body (blocks t)) (hw : WellNested t)
    (hd : declOk d) (hok : progOk false t = true)
    (hnone : d.variants = []) (hbal : Balanced d d.inputStruct [] t)
    (sc : Macro.Script) (e : List Emit) (g : Gen) (hacc : scriptMacro lx order args f = .ok (sc, e, g))
    -- the address
    (rbytes : Bytes) (hr : Script.serOps (e.map Emit.op) = some rbytes) (hrl : rbytes.length < 2 ^ 32)
    (pre : Bytes) (a : Address) (ha : Address.fromRedeemScript h160 pre rbytes = some a)
    -- a value of the generated type
    (hvalid : Valid sc.inputsItem) (v : InputsValue) (hv : Inhabits sc.inputsItem v)
    (he : ∀ x ∈ v.fields, Exists x.2) (items : List Bytes)
    (hitems : List.Forall₂ (fun x item => ItemOf x.2 item) v.fields items)
    (text : ScriptInput → String) (ops : List Tagged) (hops : sc.inputOps text v = .ok ops)
    -- the transaction
    (b : TxBuilder Dyn) (u : UnsignedTx Dyn) (cs : List (SignCall Dyn)) (tx : UnhashedTx)
    (h : Completed sz H b u cs tx) (idx : Nat) (input : UnsignedTxInput)
    (s : Signatory Dyn) (hs : s.isP2sh = true) (hadd : InputAdded b idx input (e.map Emit.op) s) (sigs : s.Sigs)
    (hcs : ∀ call ∈ cs, call.idx = idx → call = .signatory idx s sigs ∨
      ∃ d, call = .dyn idx d ∧ s.downcast d = some sigs)
    (ps : List TxPreimage) (hps : u.txPreimages[idx]? = some ps)
    (hunlock : signatoryOps s ps u.estimatedSize sigs (e.map Emit.op) u.outputs = some (ops.map Tagged.op)) :
    ∃ i, tx.wire.inputs[idx]? = some i ∧
      execScript (txEnv c tx.wire idx i input.value.toNat) t (e.map Emit.op) scriptBytes
        (start (v.fields.map Prod.fst) items) ≠ .mismatch ∧
      (SpendOk c tx.wire idx input.value.toNat (scriptBytes a.toScript) ↔
        ∃ top alt, execScript (txEnv c tx.wire idx i input.value.toNat) t (e.map Emit.op) scriptBytes
            (start (v.fields.map Prod.fst) items) = .ok ⟨[top], alt⟩ ∧
          Vm.truthy top.value = true) := by
  have hde := decl_eq lx hl order args f d hdecl sc e g hacc
  have hnames := names_of_item sc (by rw [hde]; exact hd) hvalid v hv
  rw [hde] at hnames
  have hcase : v.case = d.inputStruct := by
    have h1 : sc.inputStruct = d.inputStruct := congrArg Decl.inputStruct hde
    have h2 : sc.scriptVariants = [] := (congrArg Decl.variants hde).trans hnone
    rw [← h1]
    unfold Script.inputsItem at hv
    rw [h2] at hv
    cases hv
    rfl
  have hlen : items.length = (inputsOf d d.inputStruct).length := by
    rw [← hcase, ← hnames, List.length_map]
    exact hitems.length_eq.symm
  refine C96_contract_partial c sz H h160 h160c lx hl order horder args f d t hdecl hsays hw hd hok sc e g hacc rbytes
    hr hrl pre a ha hvalid v hv he items hitems [] (by simp [variantsOf, hnone, hcase]) text ops hops b u cs tx h idx
    input s hs hadd sigs hcs ps hps hunlock (fun i _ => ?_)
  rw [hnames, hcase]
  exact C71_decided _ d t d.inputStruct hbal items hlen _ _

/-- **C96** (signatures, partial: under the restrictions of `C60_names_partial`): the same with what is signed. The
preimage handed to the signatory has the code after the first separator of the generated script (the whole script
if it has none); with the code after any other separator put in, it is what signatures are checked against from that
separator on, and with the whole script before any separator. -/
theorem C96_signed_partial (c : Crypto) (sz : Layout) (H : Bytes → Hash256)
    (hH : ∀ x, (H x).1 = c.hash256 x)
    (h160 : Bytes → Hash160) (h160c : ∀ x, (h160 x).1 = c.hash160 x)
    -- the source
    (lx : Lex) (hl : LexOk lx)
    (order : List (String × VState) → List (String × VState)) (horder : ∀ l, (order l).Perm l)
    (args : List NestedMeta) (f : ItemFn) (d : Decl) (t : Prog)
    (hdecl : Declares lx args f d) (hsays : Says f.body (blocks t)) (hw : WellNested t)
    (hd : declOk d) (hok : progOk false t = true)
    (sc : Macro.Script) (e : List Emit) (g : Gen) (hacc : scriptMacro lx order args f = .ok (sc, e, g))
    -- the address
    (rbytes : Bytes) (hr : Script.serOps (e.map Emit.op) = some rbytes) (hrl : rbytes.length < 2 ^ 32)
    (pre : Bytes) (a : Address) (ha : Address.fromRedeemScript h160 pre rbytes = some a)
    -- a value of the generated type
    (hvalid : Valid sc.inputsItem) (v : InputsValue) (hv : Inhabits sc.inputsItem v)
    (he : ∀ x ∈ v.fields, Exists x.2) (items : List Bytes)
    (hitems : List.Forall₂ (fun x item => ItemOf x.2 item) v.fields items)
    (cond : Predicate) (hcond : (v.case, cond) ∈ variantsOf d)
    (text : ScriptInput → String) (ops : List Tagged) (hops : sc.inputOps text v = .ok ops)
    -- the transaction
    (b : TxBuilder Dyn) (u : UnsignedTx Dyn) (cs : List (SignCall Dyn)) (tx : UnhashedTx)
    (h : Completed sz H b u cs tx) (idx : Nat) (input : UnsignedTxInput)
    (s : Signatory Dyn) (hs : s.isP2sh = true) (hadd : InputAdded b idx input (e.map Emit.op) s) (sigs : s.Sigs)
    (hcs : ∀ call ∈ cs, call.idx = idx → call = .signatory idx s sigs ∨
      ∃ d, call = .dyn idx d ∧ s.downcast d = some sigs)
    (ps : List TxPreimage) (hps : u.txPreimages[idx]? = some ps)
    (hunlock : signatoryOps s ps u.estimatedSize sigs (e.map Emit.op) u.outputs = some (ops.map Tagged.op))
    (hdec : ∀ i, tx.wire.inputs[idx]? = some i →
      runScript (txEnv c tx.wire idx i input.value.toNat) cond t (e.map Emit.op) scriptBytes
        (start (v.fields.map Prod.fst) items) ≠ .undecided)
    -- one of the flag sets of the signatory
    (k : Nat) (fl : SigHashFlags) (hk : s.sigHashFlagsVec[k]? = some fl) (hf8 : fl.toNat < 256) :
    ∃ i preimage, tx.wire.inputs[idx]? = some i ∧ ps[k]? = some preimage ∧
      preimage.scriptCode = (if separators t = 0 then e.map Emit.op else afterSeparator 0 (e.map Emit.op)) ∧
      (∀ code, code = e.map Emit.op ∨ (∃ n, code = afterSeparator n (e.map Emit.op)) →
        ∃ bytes, Codec.txPreimage.ser { preimage with scriptCode := code } = some bytes ∧
          ∀ sig pubkey,
            (txEnv c tx.wire idx i input.value.toNat (scriptBytes code)).checkSig (sig ++ [fl.toUInt8]) pubkey =
              some true ↔
            fl.toNat / 64 % 2 = 1 ∧ c.verify pubkey (c.hash256 bytes) sig = true) ∧
      (SpendOk c tx.wire idx input.value.toNat (scriptBytes a.toScript) ↔
        ∃ top alt, execScript (txEnv c tx.wire idx i input.value.toNat) t (e.map Emit.op) scriptBytes
            (start (v.fields.map Prod.fst) items) = .ok ⟨[top], alt⟩ ∧
          Vm.truthy top.value = true) := by
  obtain ⟨hgen, -⟩ := (C88_generates lx hl order args f d t hdecl hsays hw e g).mp ⟨sc, hacc⟩
  have hde := decl_eq lx hl order args f d hdecl sc e g hacc
  have hnames := names_of_item sc (by rw [hde]; exact hd) hvalid v hv
  rw [hde] at hnames
  have hnd := names_nodup _ hvalid v hv
  rcases inputOps_spec sc hvalid text v hv he with ⟨h1, -⟩ | ⟨ops', h1, -, hpushed⟩
  · rw [h1] at hops; cases hops
  rw [h1] at hops
  cases hops
  obtain ⟨hm1, hm2⟩ := map_fieldOp sc text v.fields hpushed (lookup_of_nodup _ hnd)
  obtain ⟨items', hi1, hi2⟩ := pushed_items sc text hpushed
  cases items_unique hitems hi1
  have hvals : (inputsOf d v.case).map (fun x => (Vm.item (fieldOp v.fields x)).getD []) = items := by
    rw [← hnames]
    have : ((v.fields.map Prod.fst).map (fieldOp v.fields)).map Vm.item = items.map some := by rw [hm1, hi2]
    have h2 := congrArg (List.map fun o : Option Bytes => o.getD []) this
    simpa [List.map_map, Function.comp_def] using h2
  have key := C85_every_check_partial c sz H hH h160 h160c order horder d t e g hgen hd hw hok rbytes hr hrl pre a ha
    v.case cond hcond (fieldOp v.fields) (fun x => (Vm.item (fieldOp v.fields x)).getD []) (by
      rw [← hnames]; exact hm2) b u cs tx h idx input s hs hadd sigs hcs ps hps (by
      rw [inputNames_eq d hd, ← hnames, hm1]; exact hunlock) (by
      intro i hi
      rw [hvals, ← hnames]
      exact hdec i hi) k fl hk hf8
  rw [hvals, ← hnames] at key
  exact key

/-! ## Examples -/

/-- The contract shown beside `C71_contract_partial` as a function, documented. -/
def contractFn : ItemFn where
  attrs := exampleDoc
  hasReturn := false
  constGeneric := false
  inputs := htlcFn.inputs
  body :=
    .expr (callOp "OP_IF" ["claim"]) <|
    .expr (.block ⟨"", .code .OP_0, 0⟩
      (.letInit (.ident "digest" true) (callOp "OP_SHA256" ["secret"]) <|
       .letInit (.ident "expected" true) (val "params.hash" (.pushByteArray (List.replicate 32 7) true)) <|
       .expr (callOp "OP_EQUALVERIFY" ["digest", "expected"]) .nil)) <|
    .expr (.path (name "OP_ELSE")) <|
    .expr (.block ⟨"", .code .OP_0, 0⟩
      (.expr (val "500" (.pushInteger 500)) <| .expr (.path (name "OP_CHECKLOCKTIMEVERIFY")) <|
       .expr (.path (name "OP_DROP")) .nil)) <|
    .expr (.path (name "OP_ENDIF")) <|
    .expr (.path (name "OP_CODESEPARATOR")) <|
    .letInit (.ident "pubkey" true) (val "params.pubkey" (.pushByteArray [9, 9] true)) <|
    .expr (callOp "OP_CHECKSIG" ["sig", "pubkey"]) .nil

theorem contract_declares : Declares exampleLex htlcArgs contractFn exampleDecl :=
  ⟨htlc_declares.settings, rfl, htlc_declares.inputs⟩

theorem contract_says : Says contractFn.body (blocks contractProg) := by
  refine .op (.call _ (.inl (.op .OP_IF (by decide))) (.cons (.ident _ _) .nil)) ?_
  refine .block _ (.letOp (.one _) (.call _ (.inl (.op .OP_SHA256 (by decide))) (.cons (.ident _ _) .nil))
    (.letPush (.one _) (.other _)
      (.op (.call _ (.inl (.op .OP_EQUALVERIFY (by decide))) (.cons (.ident _ _) (.cons (.ident _ _) .nil))) .nil))) ?_
  refine .op (.bare _ (.inl (.op .OP_ELSE (by decide)))) ?_
  refine .block _ (.push ⟨"500", .pushInteger 500, 0⟩
    (.op (.bare _ (.inl (.op .OP_CHECKLOCKTIMEVERIFY (by decide))))
    (.op (.bare _ (.inl (.op .OP_DROP (by decide)))) .nil))) ?_
  refine .op (.bare _ (.inl (.op .OP_ENDIF (by decide)))) ?_
  refine .op (.bare _ (.inl (.op .OP_CODESEPARATOR (by decide)))) ?_
  refine .letPush (.one _) (.other _) ?_
  exact .op (.call _ (.inl (.op .OP_CHECKSIG (by decide))) (.cons (.ident _ _) (.cons (.ident _ _) .nil))) .nil

/-- What the macro makes of it. -/
def contractSource : Macro.Script :=
  ⟨"Inputs", none, exampleDecl.variants, "Params",
    [⟨"sig", "ByteArray", none, []⟩, ⟨"secret", "ByteArray", some ["Claim"], []⟩, ⟨"claim", "bool", none, []⟩],
    contractProg, ⟨[" Inputs for it."], [("Claim", [" with the secret", " ## x"]), ("Refund", [" after a while"])]⟩,
    true⟩

theorem contract_accepted : ∃ e g, scriptMacro exampleLex id htlcArgs contractFn = .ok (contractSource, e, g) ∧
    e.map Emit.op = contractScript := by
  obtain ⟨e, g, hgen, he⟩ : ∃ e g, generate id exampleDecl contractProg = .ok (e, g) ∧
      e.map Emit.op = contractScript := ⟨_, _, rfl, rfl⟩
  have hw : WellNested contractProg := by simp [contractProg, WellNested, opens, isElse, closes]
  obtain ⟨l, hl, hlok, hv⟩ := contract_declares.settings
  have h1 : parseAttrs exampleLex htlcArgs = .ok ("Inputs", ⟨none, exampleDecl.variants, none⟩) :=
    (C86_arguments exampleLex exampleLex_ok htlcArgs "Inputs" _).mpr ⟨
      [.variant "Claim" [[⟨"claim", true⟩]], .variant "Refund" [[⟨"claim", false⟩]]], rfl, by
        have hg : ∀ b, GoodAtom exampleLex.alnum ⟨"claim", b⟩ :=
          fun b => ⟨⟨by show "claim".toList ≠ []; decide, by
            show ∀ c ∈ "claim".toList, exampleLex.alnum c = true ∨ c = '_'; decide +kernel⟩,
            fun _ => by show ("claim".toList.headD 'a').toNat < 128; decide⟩
        simp only [List.mem_cons, List.not_mem_nil, or_false]
        rintro s (rfl | rfl)
        · refine ⟨by decide, by decide, by simp, ?_⟩
          simp [hg]
        · refine ⟨by decide, by decide, by simp, ?_⟩
          simp [hg], rfl⟩
  have h2 : parseScriptInputs contractFn.inputs = .ok (contractSource.inputs, "Params") := rfl
  have h3 : parseDocs exampleLex contractFn.attrs "Inputs" ["Claim", "Refund"] = .ok contractSource.docs := by
    show parseDocs exampleLex exampleDoc "Inputs" ["Claim", "Refund"] = .ok contractSource.docs
    decide +kernel
  have h4 := C87_blocks contractFn.body contractProg contract_says hw
  have hp : parseScript exampleLex htlcArgs contractFn = .ok contractSource := by
    simp only [parseScript, h1, Res.bind]
    rw [if_neg (by decide)]
    have hvs : exampleDecl.variants.map Prod.fst = ["Claim", "Refund"] := rfl
    simp only [hvs, h3, h2, h4, lift]
    rfl
  have hdecl : contractSource.decl = exampleDecl := rfl
  refine ⟨e, g, ?_, he⟩
  have hst : contractSource.stmts = contractProg := rfl
  simp only [scriptMacro, hp, Res.bind, hdecl, hst, hgen]
  rfl

theorem contract_valid : Valid contractSource.inputsItem := by
  refine ⟨by decide, ?_⟩
  have : contractSource.inputsItem = .enum [" Inputs for it."] "Inputs" [
      ⟨[" with the secret", " ## x"], "Claim",
        [⟨[], false, "sig", "ByteArray"⟩, ⟨[], false, "secret", "ByteArray"⟩, ⟨[], false, "claim", "bool"⟩]⟩,
      ⟨[" after a while"], "Refund", [⟨[], false, "sig", "ByteArray"⟩, ⟨[], false, "claim", "bool"⟩]⟩] := rfl
  intro c hc
  have hc : c ∈ [_, _] := hc
  simp only [List.mem_cons, List.not_mem_nil, or_false] at hc
  rcases hc with rfl | rfl <;> decide

/-- The generated type of the contract (the hypotheses of `C96_type` are `contract_accepted`, `contract_valid`,
those of `C86_arguments` and `C86_docs`, and `contract_declares`). -/
example : contractSource.inputsItem = .enum [" Inputs for it."] "Inputs" [
      ⟨[" with the secret", " ## x"], "Claim",
        [⟨[], false, "sig", "ByteArray"⟩, ⟨[], false, "secret", "ByteArray"⟩, ⟨[], false, "claim", "bool"⟩]⟩,
      ⟨[" after a while"], "Refund", [⟨[], false, "sig", "ByteArray"⟩, ⟨[], false, "claim", "bool"⟩]⟩] := rfl

/-- A value of it. -/
def claimValue : InputsValue :=
  ⟨"Claim", [("sig", .bytes [1, 2, 0x41]), ("secret", .bytes [5, 6]), ("claim", .boolean true)]⟩

theorem claim_inhabits : Inhabits contractSource.inputsItem claimValue :=
  .enum _ _ _ ⟨[" with the secret", " ## x"], "Claim",
    [⟨[], false, "sig", "ByteArray"⟩, ⟨[], false, "secret", "ByteArray"⟩, ⟨[], false, "claim", "bool"⟩]⟩ _
    (List.mem_cons_self ..) rfl

theorem claim_exists : ∀ x ∈ claimValue.fields, Exists x.2 := by
  simp only [claimValue, List.mem_cons, List.not_mem_nil, or_false]
  rintro x (rfl | rfl | rfl)
  · exact (by decide : [1, 2, (0x41 : UInt8)].length < 2 ^ 32)
  · exact (by decide : [5, (6 : UInt8)].length < 2 ^ 32)
  · trivial

example : contractSource.inputOps ScriptInput.name claimValue = .ok [
    ⟨.pushByteArray [1, 2, 0x41] true, [(30, "sig"), (40, "sig"), (60, "sig"), (80, "sig")], some [some "sig"], some []⟩,
    ⟨.pushByteArray [5, 6] true, [(30, "secret"), (40, "secret"), (60, "secret"), (80, "secret")],
      some [some "secret"], some []⟩,
    ⟨.pushBoolean true, [(30, "claim"), (40, "claim"), (60, "claim"), (80, "claim")], some [some "claim"], some []⟩] :=
  rfl

/-- A value that panics. -/
example : contractSource.inputOps ScriptInput.name ⟨"Refund", [("sig", .inner (-2 ^ 31)), ("claim", .boolean false)]⟩ =
    .panic := by decide +kernel

set_option maxRecDepth 100000 in
/-- The contract, from its source, is spent by the value with the valid signature. -/
example (u : UnsignedTx Bytes) (tx : UnhashedTx) (h : contractRun [1, 2] = some (u, tx)) (a : Address)
    (ha : Address.fromRedeemScript (fun _ => ⟨List.replicate 20 7, rfl⟩) [] (scriptBytes contractScript) = some a) :
    SpendOk exampleCrypto tx.wire 0 10000 (scriptBytes a.toScript) := by
  have hc := contract_completed _ _ _ h
  obtain ⟨t, ps, _, hps, hus⟩ := SpendProofs.completed_script hc (idx := 0) (input := exampleSpendInput 0)
    (lock := contractScript) (s := contractSignatory) ⟨newSimple, rfl, ⟨[], rfl⟩⟩ (sigs := ([1, 2] : Bytes)) (by
      intro call hcall hidx
      simp only [List.mem_cons, List.not_mem_nil, or_false] at hcall
      subst hcall
      exact .inr ⟨_, rfl, rfl⟩)
  obtain ⟨e, g, hacc, hes⟩ := contract_accepted
  obtain ⟨i, hi, hm, hiff⟩ := C96_contract_partial exampleCrypto ⟨1, 1⟩ exampleHash
    (fun _ => ⟨List.replicate 20 7, rfl⟩) (fun _ => rfl) exampleLex exampleLex_ok
    id (fun _ => List.Perm.refl _) htlcArgs contractFn exampleDecl contractProg contract_declares contract_says
    (by simp [contractProg, WellNested, opens, isElse, closes])
    ⟨by decide, by
      intro i hi
      simp only [exampleDecl, List.mem_cons, List.not_mem_nil, or_false] at hi
      rcases hi with rfl | rfl | rfl <;> decide +kernel, by
      intro i hi vs hvs
      simp only [exampleDecl, List.mem_cons, List.not_mem_nil, or_false] at hi
      rcases hi with rfl | rfl | rfl <;> cases hvs <;> simp [exampleDecl]⟩
    (by decide +kernel) contractSource e g hacc
    (scriptBytes contractScript) (by rw [hes]; rfl) (by decide +kernel) [] a ha
    contract_valid claimValue claim_inhabits claim_exists [[1, 2, 0x41], [5, 6], [1]]
    (.cons (.bytes _) (.cons (.bytes _) (.cons .true .nil)))
    [[⟨"claim", true⟩]] (by decide) ScriptInput.name _ rfl
    contractBuilder u _ tx hc 0 (exampleSpendInput 0) contractSignatory rfl
    (by rw [hes]; exact ⟨newSimple, rfl, ⟨[], rfl⟩⟩) ([1, 2] : Bytes) (by
      intro call hcall hidx
      simp only [List.mem_cons, List.not_mem_nil, or_false] at hcall
      subst hcall
      exact .inr ⟨_, rfl, rfl⟩) ps hps
    (by
      rw [hes]
      cases ps with
      | nil => cases hus
      | cons p ps => rfl)
    (by
      intro i _ hc
      rw [hes] at hc
      have : runScript (txEnv exampleCrypto tx.wire 0 i (exampleSpendInput 0).value.toNat)
        [[⟨"claim", true⟩]] contractProg contractScript scriptBytes
          (start (claimValue.fields.map Prod.fst) [[1, 2, 0x41], [5, 6], [1]]) = .ok ⟨[⟨[1], none⟩], []⟩ := rfl
      rw [this] at hc
      cases hc)
  refine hiff.mpr ⟨⟨[1], none⟩, [], ?_, rfl⟩
  rw [hes]
  rfl

/-- What the macro makes of it. -/
def balancedSource : Macro.Script :=
  ⟨"Inputs", none, [], "P", [⟨"secret", "ByteArray", none, []⟩, ⟨"old", "bool", none, []⟩], balancedProg, ⟨[], []⟩,
    true⟩

theorem balanced_accepted : ∃ e g,
    scriptMacro exampleLex id [.nested (.path (name "Inputs"))] balancedFn = .ok (balancedSource, e, g) ∧
    e.map Emit.op = balancedScript := ⟨_, _, rfl, rfl⟩

theorem balanced_valid : Valid balancedSource.inputsItem := by
  show Valid (.struct [] "Inputs" [⟨[], true, "secret", "ByteArray"⟩, ⟨[], true, "old", "bool"⟩])
  unfold Valid
  decide

/-- A value of the generated struct for each of the two branches. -/
def balancedValue (old : Bool) : InputsValue := ⟨"Inputs", [("secret", .bytes [7, 7]), ("old", .boolean old)]⟩

set_option maxRecDepth 100000 in
/-- From the source, for both values at once: the coin is spent with the first branch only. -/
example (old : Bool) (u : UnsignedTx Bytes) (tx : UnhashedTx) (h : balancedRun old = some (u, tx)) (a : Address)
    (ha : Address.fromRedeemScript (fun _ => ⟨List.replicate 20 7, rfl⟩) [] (scriptBytes balancedScript) = some a) :
    SpendOk exampleCrypto tx.wire 0 10000 (scriptBytes a.toScript) ↔ old = true := by
  have hc := balanced_completed _ _ _ h
  obtain ⟨t, ps, _, hps, hus⟩ := SpendProofs.completed_script hc (idx := 0) (input := exampleSpendInput 0)
    (lock := balancedScript) (s := balancedSignatory old) ⟨newSimple, rfl, ⟨[], rfl⟩⟩ (sigs := ([1, 2] : Bytes)) (by
      intro call hcall hidx
      simp only [List.mem_cons, List.not_mem_nil, or_false] at hcall
      subst hcall
      exact .inr ⟨_, rfl, rfl⟩)
  obtain ⟨e, g, hacc, he⟩ := balanced_accepted
  have hops : ∃ ops, balancedSource.inputOps ScriptInput.name (balancedValue old) = .ok ops ∧
      ops.map Tagged.op = (inputNames balancedDecl "Inputs").map (balancedFields old) := by
    cases old <;> exact ⟨_, rfl, rfl⟩
  obtain ⟨ops, hops, hops'⟩ := hops
  have hitems : List.Forall₂ (fun (x : String × PushValue) item => ItemOf x.2 item) (balancedValue old).fields
      [[7, 7], if old then [1] else []] := by
    cases old
    · exact .cons (.bytes _) (.cons .false .nil)
    · exact .cons (.bytes _) (.cons .true .nil)
  obtain ⟨i, hi, hm, hiff⟩ := C96_without_variants_partial exampleCrypto ⟨1, 1⟩ exampleHash
    (fun _ => ⟨List.replicate 20 7, rfl⟩) (fun _ => rfl) exampleLex exampleLex_ok
    id (fun _ => List.Perm.refl _) _ balancedFn balancedDecl balancedProg balanced_declares balanced_says
    (by simp [balancedProg, WellNested, opens, isElse, closes])
    ⟨by decide, by
      intro i hi
      simp only [balancedDecl, List.mem_cons, List.not_mem_nil, or_false] at hi
      rcases hi with rfl | rfl <;> decide +kernel, by
      intro i hi vs hvs
      simp only [balancedDecl, List.mem_cons, List.not_mem_nil, or_false] at hi
      rcases hi with rfl | rfl <;> cases hvs⟩
    (by decide +kernel) rfl (by decide +kernel) balancedSource e g hacc
    (scriptBytes balancedScript) (by rw [he]; rfl) (by decide +kernel) [] a ha
    balanced_valid (balancedValue old) (.struct _ _ _ _ rfl) (by
      intro x hx
      simp only [balancedValue, List.mem_cons, List.not_mem_nil, or_false] at hx
      rcases hx with rfl | rfl
      · exact (by decide : [7, (7 : UInt8)].length < 2 ^ 32)
      · trivial)
    _ hitems ScriptInput.name ops hops
    (balancedBuilder old) u _ tx hc 0 (exampleSpendInput 0) (balancedSignatory old) rfl
    (by rw [he]; exact ⟨newSimple, rfl, ⟨[], rfl⟩⟩) ([1, 2] : Bytes) (by
      intro call hcall hidx
      simp only [List.mem_cons, List.not_mem_nil, or_false] at hcall
      subst hcall
      exact .inr ⟨_, rfl, rfl⟩) ps hps
    (by
      rw [he, hops']
      cases ps with
      | nil => cases hus
      | cons p ps => rfl)
  refine hiff.trans ?_
  cases old with
  | true => exact ⟨fun _ => rfl, fun _ => ⟨⟨[1], none⟩, [], rfl, rfl⟩⟩
  | false =>
    refine ⟨?_, by simp⟩
    rintro ⟨top, alt, hx, ht⟩
    have hrun : execScript (txEnv exampleCrypto tx.wire 0 i (exampleSpendInput 0).value.toNat) balancedProg
        (e.map Emit.op) scriptBytes (start ((balancedValue false).fields.map Prod.fst) [[7, 7], []]) =
        .ok ⟨[⟨[], none⟩], []⟩ := rfl
    change execScript _ _ _ _ (start ((balancedValue false).fields.map Prod.fst) [[7, 7], []]) = _ at hx
    rw [hrun] at hx
    cases hx
    cases ht

/-! ## Empty lists -/

/-- `#[script(Inputs)] fn f(p: P, #[variant()] x: bool, y: bool) { OP_VERIFY(y) }`. -/
def emptyListFn : ItemFn where
  attrs := []
  hasReturn := false
  constGeneric := false
  inputs := [.typed [] (.ident "p" true) "P", .typed [⟨name "variant", .list []⟩] (.ident "x" true) "bool",
    .typed [] (.ident "y" true) "bool"]
  body := .expr (callOp "OP_VERIFY" ["y"]) .nil

/-- **C96** fails for `#[variant()]` in a script without variants: the input is a field of the struct and is pushed,
but the macro takes it to be absent, so that after the script an item is left which the script does not know. -/
theorem C96_empty_list_fails : ∃ s e g,
    scriptMacro exampleLex id [.nested (.path (name "Inputs"))] emptyListFn = .ok (s, e, g) ∧
    s.inputsItem = .struct [] "Inputs" [⟨[], true, "x", "bool"⟩, ⟨[], true, "y", "bool"⟩] ∧
    g.states = [("Inputs", ⟨[], [], []⟩)] ∧
    ∀ env a b ops, s.inputOps ScriptInput.name ⟨"Inputs", [("x", .boolean a), ("y", .boolean b)]⟩ = .ok ops →
      ∃ unlocking x y, serializeOps (ops.map Tagged.op) = .ok unlocking ∧
        Vm.Runs env unlocking ⟨[], []⟩ (some ⟨[y, x], []⟩) := by
  refine ⟨_, _, _, rfl, rfl, rfl, fun env a b ops h => ?_⟩
  cases h
  obtain ⟨bs, h1, h2⟩ := C58_pushes env [.pushBoolean a, .pushBoolean b]
    [if a then [1] else [], if b then [1] else []] (by
      intro op hop
      simp only [List.mem_cons, List.not_mem_nil, or_false] at hop
      rcases hop with rfl | rfl <;> trivial) (by cases a <;> cases b <;> rfl) ⟨[], []⟩
  exact ⟨bs, _, _, h1, h2⟩

end BCash
