import Verif.Proofs.MacroProg

/-! # The states at the start of a script -/

namespace BCash
open Spec Spec.Macro Spec.Named Macro

namespace GenProofs

/-- States with the given names of inputs. -/
def canon (vars : List (String × Predicate)) (names : String → List String) : List (String × VState) :=
  vars.map fun vp => (vp.1, ⟨vp.2, ((names vp.1).map fun n => ⟨n, false, none⟩).reverse, []⟩)

theorem canon_congr {vars : List (String × Predicate)} {a b : String → List String} (h : ∀ v, a v = b v) :
    canon vars a = canon vars b := by
  unfold canon
  simp only [h]

theorem insert_all (vars : List (String × Predicate)) (acc : List (String × VState))
    (hn : ((acc.map Prod.fst) ++ vars.map Prod.fst).Nodup) :
    vars.foldl (fun states (vp : String × Predicate) => insertState states vp.1 ⟨vp.2, [], []⟩) acc =
      acc ++ vars.map fun vp => (vp.1, ⟨vp.2, [], []⟩) := by
  induction vars generalizing acc with
  | nil => simp
  | cons vp vars ih =>
    obtain ⟨v, p⟩ := vp
    have hv : (acc.any fun q => q.1 == v) = false := by
      rw [List.any_eq_false]
      intro q hq he
      simp only [beq_iff_eq] at he
      rw [List.nodup_append] at hn
      exact hn.2.2 q.1 (List.mem_map_of_mem hq) v (by simp) he
    simp only [List.foldl_cons]
    have hins : insertState acc v ⟨p, [], []⟩ = acc ++ [(v, ⟨p, [], []⟩)] := by
      unfold insertState
      rw [hv]
      rfl
    rw [hins, ih]
    · simp
    · simpa using hn

theorem emptyStates_spec (d : Decl) (hd : declOk d) : emptyStates d = canon (variantsOf d) fun _ => [] := by
  unfold emptyStates variantsOf
  cases hv : d.variants with
  | nil => rfl
  | cons vp vs =>
    have := insert_all d.variants [] (by simpa using hd.1)
    rw [hv] at this
    simp only [List.isEmpty_cons, Bool.false_eq_true, if_false]
    rw [if_neg (by simp)]
    exact this

theorem pushOn_spec (n : String) (vars : List (String × Predicate)) (vs : List String) (hvs : vs.Nodup)
    (names : String → List String) (states : List (String × VState))
    (h : pushOn ⟨n, false, none⟩ vs (canon vars names) = .ok states) :
    states = canon vars fun v => names v ++ if vs.contains v then [n] else [] := by
  induction vs generalizing names with
  | nil =>
    cases h
    exact canon_congr fun v => by simp
  | cons w vs ih =>
    simp only [pushOn] at h
    split at h
    · have hmap : ((canon vars names).map fun p =>
          if p.1 == w then (p.1, { p.2 with stack := ⟨n, false, none⟩ :: p.2.stack }) else p) =
          canon vars fun v => names v ++ if v == w then [n] else [] := by
        unfold canon
        rw [List.map_map]
        apply List.map_congr_left
        rintro ⟨v, p⟩ _
        simp only [Function.comp_apply]
        split <;> simp
      rw [hmap] at h
      rw [ih (List.nodup_cons.mp hvs).2 _ h]
      apply canon_congr
      intro v
      have hnot := (List.nodup_cons.mp hvs).1
      by_cases hw : v = w
      · subst hw
        simp [hnot]
      · simp [hw]
    · cases h

theorem pushInputs_spec (nv : Bool) (vars : List (String × Predicate)) (is : List Input)
    (hi : ∀ i ∈ is, ∀ vs, i.variants = some vs → vs.Nodup)
    (names : String → List String) (states : List (String × VState))
    (h : pushInputs nv is (canon vars names) = .ok states) :
    states = canon vars fun v =>
      names v ++ (is.filter fun i => i.variants.all fun vs => vs.contains v).map Input.name := by
  induction is generalizing names with
  | nil =>
    cases h
    exact canon_congr fun v => by simp
  | cons i is ih =>
    simp only [pushInputs] at h
    obtain ⟨st, hst, h⟩ := Res.bind_eq_ok.mp h
    have hcan : st = canon vars fun v =>
        names v ++ if (i.variants.all fun vs => vs.contains v) then [i.name] else [] := by
      split at hst
      · next vs hvs =>
        obtain ⟨st', h1, h2⟩ := Res.bind_eq_ok.mp hst
        have := pushOn_spec i.name vars vs (hi i (by simp) vs hvs) names st' h1
        split at h2
        · cases h2
        · cases h2
          rw [this]
          exact canon_congr fun v => by simp [hvs]
      · next hvs =>
        cases hst
        unfold canon
        rw [List.map_map]
        apply List.map_congr_left
        rintro ⟨v, p⟩ _
        simp [hvs]
    subst hcan
    rw [ih (fun j hj => hi j (by simp [hj])) _ h]
    apply canon_congr
    intro v
    rw [List.filter_cons]
    split <;> simp

/-- The states at the start: one per variant, with its inputs in order. -/
theorem initial_spec (d : Decl) (hd : declOk d) (states : List (String × VState))
    (h : initialStates d = .ok states) : states = canon (variantsOf d) (inputsOf d) := by
  unfold initialStates at h
  rw [emptyStates_spec d hd] at h
  rw [pushInputs_spec _ _ _ (fun i hi vs hvs => (hd.2.2 i hi vs hvs).1) _ _ h]
  exact canon_congr fun v => by simp [inputsOf]

theorem canon_good (d : Decl) (hd : declOk d) (g : Gen) (hg : ∀ p ∈ g.states, p ∈ canon (variantsOf d) (inputsOf d)) :
    GoodGen g := by
  intro p hp
  obtain ⟨vp, _, rfl⟩ := List.mem_map.mp (hg p hp)
  refine ⟨?_, by simp⟩
  intro i hi
  simp only [List.mem_reverse, List.mem_map] at hi
  obtain ⟨n, hn, rfl⟩ := hi
  obtain ⟨inp, hinp, rfl⟩ := List.mem_map.mp hn
  exact good_user (hd.2.1 inp (List.mem_filter.mp hinp).1) _

theorem canon_tracks (d : Decl) (v : String) (cond : Predicate) (hv : (v, cond) ∈ variantsOf d)
    (values : List Bytes) (hlen : values.length = (inputsOf d v).length) (g : Gen)
    (hg : ∀ p ∈ canon (variantsOf d) (inputsOf d), p ∈ g.states) :
    Tracks v cond g (start (inputsOf d v) values) := by
  refine ⟨_, hg _ (List.mem_map_of_mem hv), rfl, ?_, rfl⟩
  simp only [start, List.map_reverse, List.map_map]
  congr 1
  apply List.ext_getElem
  · simp [hlen]
  · intro i h1 h2
    simp [Item.tag]

theorem start_erase (names : List String) (values : List Bytes) (h : values.length = names.length) :
    (start names values).erase = ⟨values.reverse, []⟩ := by
  simp only [start, LState.erase, List.map_nil, List.map_reverse]
  congr 2
  apply List.ext_getElem
  · simp [h]
  · intro i h1 h2
    simp

theorem canon_keys (d : Decl) (hd : declOk d) : ((canon (variantsOf d) (inputsOf d)).map Prod.fst).Nodup := by
  have : (canon (variantsOf d) (inputsOf d)).map Prod.fst = (variantsOf d).map Prod.fst := by
    simp [canon, Function.comp_def]
  rw [this]
  unfold variantsOf
  split
  · simp
  · exact hd.1

end GenProofs
end BCash
