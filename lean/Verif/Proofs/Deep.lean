import Verif.Proofs.Pieces
import Verif.Props.Provenance

/-! # Splitting arrays between their pieces, at any depth -/

namespace BCash
open Spec

/-- Wherever an array is recorded as joined, the recorded arrays join to its bytes. (Nothing is required of
the arguments of functions.) -/
inductive Whole : ByteArray → Prop
  | leaf (d n) : Whole (.mk d n .plain none)
  | other (d n f p) : f ≠ .plain → Whole (.mk d n f p)
  | parts (d n ps) : (∀ p ∈ ps, Whole p) → ByteArray.partsData ps = d → Whole (.mk d n .plain (some ps))

/-- The pieces that hold bytes. -/
abbrev solid (b : ByteArray) : List ByteArray := ne (pieces b)

theorem Whole.solid_data {b : ByteArray} (h : Whole b) : ByteArray.partsData (solid b) = b.data := by
  rw [partsData_ne]
  induction h with
  | leaf d n => rw [pieces_leaf]; simp
  | other d n f p hf => rw [pieces_other _ _ _ _ hf]; simp
  | parts d n ps h1 h2 ih =>
    rw [pieces_plain, ByteArray.data_mk, ← h2]
    clear h1 h2
    induction ps with
    | nil => rfl
    | cons p ps ih2 =>
      rw [piecesOf, ByteArray.partsData_append, ih p (by simp), ih2 (fun q hq => ih q (by simp [hq]))]
      rfl

theorem solidOf_data {ps : List ByteArray} (h : ∀ p ∈ ps, Whole p) :
    ByteArray.partsData (ne (piecesOf ps)) = ByteArray.partsData ps := by
  induction ps with
  | nil => rfl
  | cons p ps ih =>
    rw [piecesOf, ne_append, ByteArray.partsData_append, ih (fun q hq => h q (by simp [hq])),
      (h p (by simp)).solid_data]
    rfl

/-- Joined from the pieces `X`. -/
structure J (b : ByteArray) (X : List ByteArray) : Prop where
  whole : Whole b
  fn : b.function = .plain
  pre : b.preimage ≠ none
  pieces : solid b = X

theorem J.data {b X} (h : J b X) : b.data = ByteArray.partsData X := by
  rw [← h.pieces, h.whole.solid_data]

theorem J.ofParts {ps : List ByteArray} {d n} (h : ∀ p ∈ ps, Whole p) (hd : ByteArray.partsData ps = d) :
    J (.mk d n .plain (some ps)) (ne (piecesOf ps)) :=
  ⟨.parts _ _ _ h hd, rfl, by simp [ByteArray.preimage], by unfold solid; rw [pieces_plain]⟩

theorem partsData_pos {x : ByteArray} {X : List ByteArray} (h : x.data ≠ []) :
    0 < (ByteArray.partsData (x :: X)).length := by
  have := List.length_pos_iff.mpr h
  simp only [ByteArray.partsData_cons, List.length_append]
  omega

/-- Two decompositions of a list of non-empty arrays, by length. -/
theorem split_lists {A B X Y : List ByteArray} (h : A ++ B = X ++ Y) (hne : ∀ p ∈ X ++ Y, p.data ≠ []) :
    ((ByteArray.partsData A).length ≤ (ByteArray.partsData X).length → ∃ Z, X = A ++ Z ∧ B = Z ++ Y) ∧
    ((ByteArray.partsData X).length < (ByteArray.partsData A).length →
      ∃ Z, Z ≠ [] ∧ A = X ++ Z ∧ Y = Z ++ B) := by
  rcases List.append_eq_append_iff.mp h with ⟨Z, e1, e2⟩ | ⟨Z, e1, e2⟩
  · refine ⟨fun _ => ⟨Z, e1, e2⟩, fun hlt => ?_⟩
    exfalso
    rw [e1, ByteArray.partsData_append, List.length_append] at hlt
    omega
  · refine ⟨fun hle => ?_, fun hlt => ?_⟩
    · cases Z with
      | nil => exact ⟨[], by simpa using e1.symm, by simpa using e2.symm⟩
      | cons z Z =>
        exfalso
        have hz : z.data ≠ [] := hne z (by rw [e2]; simp)
        have := partsData_pos (X := Z) hz
        rw [e1, ByteArray.partsData_append, List.length_append] at hle
        omega
    · refine ⟨Z, ?_, e1, e2⟩
      rintro rfl
      rw [List.append_nil] at e1
      rw [e1] at hlt
      omega

/-- Splitting strictly between pieces. -/
def SplitsBetween (p : ByteArray) : Prop :=
  ∀ X Y, solid p = X ++ Y → X ≠ [] → Y ≠ [] →
    ∃ l r, p.split (ByteArray.partsData X).length = .ok (l, r) ∧ J l X ∧ J r Y ∧ p.function = .plain

theorem splitParts_between (ps : List ByteArray) (hw : ∀ p ∈ ps, Whole p) (hs : ∀ p ∈ ps, SplitsBetween p)
    (X Y : List ByteArray) (hne : ne (piecesOf ps) = X ++ Y) (len : Nat) :
    ∃ l r, ByteArray.splitParts ps (len + (ByteArray.partsData X).length) true len = .ok (l, r) ∧
      (∀ p ∈ l, Whole p) ∧ (∀ p ∈ r, Whole p) ∧ ne (piecesOf l) = X ∧ ne (piecesOf r) = Y := by
  have hfull : ∀ p ∈ X ++ Y, p.data ≠ [] := by
    intro p hp; rw [← hne] at hp; exact ne_full hp
  induction ps generalizing X len with
  | nil =>
    have : X = [] ∧ Y = [] := by simpa [ne, piecesOf] using hne
    refine ⟨[], [], by simp [ByteArray.splitParts], by simp, by simp, ?_, ?_⟩
    · rw [this.1]; rfl
    · rw [this.2]; rfl
  | cons p ps ih =>
    have ih' := ih (fun q hq => hw q (by simp [hq])) (fun q hq => hs q (by simp [hq]))
    have right : ∀ qs at_ m, ByteArray.splitParts qs at_ false m = .ok ([], qs) := by
      intro qs at_ m
      obtain ⟨l, r, h⟩ := ByteArray.splitParts_ok qs at_ false m
      obtain ⟨e1, e2⟩ := splitParts_right _ _ _ _ _ h
      rw [h, e1, e2]
    by_cases h0 : (ByteArray.partsData X).length = 0
    · have hX : X = [] := by
        cases X with
        | nil => rfl
        | cons x X => have := partsData_pos (X := X) (hfull x (by simp)); omega
      subst hX
      refine ⟨[], p :: ps, ?_, by simp, hw, rfl, hne⟩
      have := right (p :: ps) (len + 0) len
      rw [ByteArray.splitParts] at this ⊢
      simpa using this
    · rw [ByteArray.splitParts]
      dsimp only
      rw [if_neg (show ¬ (len = len + (ByteArray.partsData X).length) by omega)]
      have hp := (hw p (by simp)).solid_data
      rw [piecesOf, ne_append] at hne
      obtain ⟨s1, s2⟩ := split_lists hne hfull
      by_cases hc : (ByteArray.partsData X).length < p.data.length
      · have hc' : len + p.data.length > len + (ByteArray.partsData X).length := by omega
        obtain ⟨Z, z1, z2, z3⟩ := s2 (by rw [show ne (pieces p) = solid p from rfl, hp]; exact hc)
        have hX : X ≠ [] := by rintro rfl; simp at h0
        obtain ⟨l, r, e1, e2, e3, e4⟩ := hs p (by simp) X Z z2 hX z1
        simp only [hc', decide_true, Bool.and_self, if_true, Nat.add_sub_cancel_left, e1, e4,
          Function.shouldKeepIntact, Bool.false_eq_true, if_false, right]
        refine ⟨[l], r :: ps, rfl, by simpa using e2.whole, ?_, ?_, ?_⟩
        · intro q hq
          rcases List.mem_cons.mp hq with rfl | hq
          · exact e3.whole
          · exact hw q (by simp [hq])
        · rw [piecesOf, piecesOf, List.append_nil]; exact e2.pieces
        · rw [piecesOf, ne_append, z3]
          exact congrArg (· ++ _) e3.pieces
      · have hc' : ¬ (len + p.data.length > len + (ByteArray.partsData X).length) := by omega
        obtain ⟨Z, z1, z2⟩ := s1 (by rw [show ne (pieces p) = solid p from rfl, hp]; omega)
        simp only [hc', decide_false, Bool.false_and, Bool.false_eq_true, if_false, if_true]
        have hat : len + (ByteArray.partsData X).length =
            (len + p.data.length) + (ByteArray.partsData Z).length := by
          rw [z1, ByteArray.partsData_append, List.length_append, show ne (pieces p) = solid p from rfl, hp]
          omega
        obtain ⟨l, r, e1, e2, e3, e4, e5⟩ := ih' Z z2 (len + p.data.length) (by
          intro q hq
          exact hfull q (by
            rcases List.mem_append.mp hq with h | h
            · rw [z1]; simp [h]
            · simp [h]))
        rw [hat, e1]
        refine ⟨p :: l, r, rfl, ?_, e3, ?_, e5⟩
        · intro q hq
          rcases List.mem_cons.mp hq with rfl | hq
          · exact hw q (by simp)
          · exact e2 q hq
        · rw [piecesOf, ne_append, e4, z1]

theorem Whole.single {p : ByteArray} (hs : pieces p = [p]) (X Y : List ByteArray) (h : solid p = X ++ Y)
    (hX : X ≠ []) (hY : Y ≠ []) : False := by
  unfold solid at h
  rw [hs] at h
  have := congrArg List.length h
  have h1 : (ne [p]).length ≤ 1 := List.length_filter_le _ _
  have h2 := List.length_pos_iff.mpr hX
  have h3 := List.length_pos_iff.mpr hY
  rw [List.length_append] at this
  omega

theorem split_joined {d n ps} {k : Nat} (hk : k ≤ d.length) {l r} (h : ByteArray.splitParts ps k true 0 = .ok (l, r)) :
    ByteArray.split (.mk d n .plain (some ps)) k =
      .ok (.mk (d.take k) none .plain (some l), .mk (d.drop k) none .plain (some r)) := by
  rw [ByteArray.split, if_neg (by omega)]
  simp only [Function.shouldKeepIntact, Bool.not_false, if_true, h]

theorem joined_between {d n ps} (hw : ∀ p ∈ ps, Whole p) (hs : ∀ p ∈ ps, SplitsBetween p)
    (hd : ByteArray.partsData ps = d) (X Y : List ByteArray) (h : ne (piecesOf ps) = X ++ Y) :
    ∃ l r, ByteArray.split (.mk d n .plain (some ps)) (ByteArray.partsData X).length = .ok (l, r) ∧
      J l X ∧ J r Y := by
  obtain ⟨l, r, e1, e2, e3, e4, e5⟩ := splitParts_between ps hw hs X Y h 0
  rw [Nat.zero_add] at e1
  have hdx : d = ByteArray.partsData X ++ ByteArray.partsData Y := by
    rw [← hd, ← solidOf_data hw, h, ByteArray.partsData_append]
  refine ⟨_, _, split_joined (by rw [hdx]; simp) e1, ?_, ?_⟩
  · rw [← e4]
    refine J.ofParts e2 ?_
    rw [← solidOf_data e2, e4, hdx, List.take_left']
    rfl
  · rw [← e5]
    refine J.ofParts e3 ?_
    rw [← solidOf_data e3, e5, hdx, List.drop_left']
    rfl

theorem Whole.between {p : ByteArray} (h : Whole p) : SplitsBetween p := by
  induction h with
  | leaf d n => intro X Y h hX hY; exact (Whole.single (pieces_leaf _ _ _) X Y h hX hY).elim
  | other d n f p hf => intro X Y h hX hY; exact (Whole.single (pieces_other _ _ _ _ hf) X Y h hX hY).elim
  | parts d n ps h1 h2 ih =>
    intro X Y h hX hY
    unfold solid at h
    rw [pieces_plain] at h
    obtain ⟨l, r, e1, e2, e3⟩ := joined_between (n := n) h1 ih h2 X Y h
    exact ⟨l, r, e1, e2, e3, rfl⟩

theorem J.cases {b X} (h : J b X) : ∃ d n ps, b = .mk d n .plain (some ps) ∧ (∀ p ∈ ps, Whole p) ∧
    ByteArray.partsData ps = d ∧ ne (piecesOf ps) = X := by
  obtain ⟨hw, hf, hp, he⟩ := h
  cases hw with
  | leaf d n => exact absurd rfl hp
  | other d n f p hf' => exact absurd hf hf'
  | parts d n ps h1 h2 =>
    unfold solid at he
    rw [pieces_plain] at he
    exact ⟨d, n, ps, rfl, h1, h2, he⟩

theorem J.splitAt {b X Y} (h : J b (X ++ Y)) {k : Nat} (hk : (ByteArray.partsData X).length = k) :
    ∃ l r, b.splitE k = .ok (l, r) ∧ J l X ∧ J r Y := by
  obtain ⟨d, n, ps, rfl, h1, h2, h3⟩ := h.cases
  obtain ⟨l, r, e1, e2, e3⟩ := joined_between (n := n) h1 (fun p hp => (h1 p hp).between) h2 X Y h3
  rw [← hk]
  exact ⟨l, r, by unfold ByteArray.splitE; rw [e1]; rfl, e2, e3⟩

/-- Splitting inside of a leading raw piece. -/
def SplitsInside (p : ByteArray) : Prop :=
  ∀ d n Y, solid p = .mk d n .plain none :: Y → ∀ k, 0 < k → k < d.length →
    ∃ l r, p.split k = .ok (l, r) ∧ Whole r ∧ l.data = d.take k ∧
      solid r = .mk (d.drop k) none .plain none :: Y ∧ p.function = .plain ∧ Whole l

theorem splitParts_in (ps : List ByteArray) (hw : ∀ p ∈ ps, Whole p) (hs : ∀ p ∈ ps, SplitsInside p)
    (d n) (Y : List ByteArray) (hne : ne (piecesOf ps) = .mk d n .plain none :: Y) (k : Nat)
    (h0 : 0 < k) (hk : k < d.length) :
    ∃ l r, ByteArray.splitParts ps k true 0 = .ok (l, r) ∧ (∀ p ∈ l, Whole p) ∧ (∀ p ∈ r, Whole p) ∧
      ne (piecesOf r) = .mk (d.drop k) none .plain none :: Y := by
  have right : ∀ qs at_ m, ByteArray.splitParts qs at_ false m = .ok ([], qs) := by
    intro qs at_ m
    obtain ⟨l, r, h⟩ := ByteArray.splitParts_ok qs at_ false m
    obtain ⟨e1, e2⟩ := splitParts_right _ _ _ _ _ h
    rw [h, e1, e2]
  induction ps with
  | nil => simp [ne, piecesOf] at hne
  | cons p ps ih =>
    have ih' := ih (fun q hq => hw q (by simp [hq])) (fun q hq => hs q (by simp [hq]))
    rw [ByteArray.splitParts]
    dsimp only
    rw [if_neg (show ¬ (0 = k) by omega)]
    rw [piecesOf, ne_append] at hne
    have hp := (hw p (by simp)).solid_data
    cases hsp : solid p with
    | nil =>
      rw [hsp] at hp
      have hpe : p.data = [] := by simpa using hp.symm
      rw [show ne (pieces p) = solid p from rfl, hsp, List.nil_append] at hne
      obtain ⟨l, r, e1, e2, e3, e4⟩ := ih' hne
      simp only [hpe, List.length_nil, Nat.add_zero, gt_iff_lt, Nat.not_lt_zero, decide_false, Bool.false_and,
        Bool.false_eq_true, if_false, if_true, e1]
      refine ⟨p :: l, r, rfl, ?_, e3, e4⟩
      intro q hq
      rcases List.mem_cons.mp hq with rfl | hq
      · exact hw q (by simp)
      · exact e2 q hq
    | cons x X =>
      rw [show ne (pieces p) = solid p from rfl, hsp, List.cons_append] at hne
      obtain ⟨rfl, hY⟩ := List.cons.inj hne
      have hl : d.length ≤ p.data.length := by
        rw [← hp, hsp]; simp
      have hc : 0 + p.data.length > k := by omega
      obtain ⟨l, r, e1, e2, e3, e4, e5, e6⟩ := hs p (by simp) d n X hsp k h0 hk
      simp only [hc, decide_true, Bool.and_self, if_true, Nat.sub_zero, e1, e5,
        Function.shouldKeepIntact, Bool.false_eq_true, if_false, right]
      refine ⟨[l], r :: ps, rfl, by simpa using e6, ?_, ?_⟩
      · intro q hq
        rcases List.mem_cons.mp hq with rfl | hq
        · exact e2
        · exact hw q (by simp [hq])
      · rw [piecesOf, ne_append, show ne (pieces r) = solid r from rfl, e4, ← hY]
        rfl

theorem joined_in {d n ps} (hw : ∀ p ∈ ps, Whole p) (hs : ∀ p ∈ ps, SplitsInside p)
    (hd : ByteArray.partsData ps = d) {d' n'} {Y : List ByteArray}
    (h : ne (piecesOf ps) = .mk d' n' .plain none :: Y) (k : Nat) (h0 : 0 < k) (hk : k < d'.length) :
    ∃ l r, ByteArray.split (.mk d n .plain (some ps)) k = .ok (l, r) ∧ l.data = d'.take k ∧
      J r (.mk (d'.drop k) none .plain none :: Y) ∧ Whole l := by
  obtain ⟨l, r, e1, e2, e3, e4⟩ := splitParts_in ps hw hs d' n' Y h k h0 hk
  have hdx : d = d' ++ ByteArray.partsData Y := by
    rw [← hd, ← solidOf_data hw, h]; rfl
  refine ⟨_, _, split_joined (by rw [hdx]; simp; omega) e1, ?_, ?_, ?_⟩
  · rw [ByteArray.data_mk, hdx, List.take_append_of_le_length (by omega)]
  · rw [← e4]
    refine J.ofParts e3 ?_
    rw [← solidOf_data e3, e4, hdx, List.drop_append_of_le_length (by omega)]
    rfl
  · refine .parts _ _ _ e2 ?_
    have := (ByteArray.splitParts_data ps k true 0 _ _ e1 (by simp)).1
    simp only [if_true, Nat.sub_zero] at this
    rw [this, hd]

theorem Whole.inside {p : ByteArray} (h : Whole p) : SplitsInside p := by
  induction h with
  | leaf d n =>
    intro d' n' Y h k h0 hk
    unfold solid at h
    rw [pieces_leaf] at h
    have hd : (ByteArray.mk d n .plain none).data ≠ [] := by
      intro hh; rw [ne_cons_empty hh] at h; simp [ne] at h
    rw [ne_cons_full hd] at h
    obtain ⟨e, hY⟩ := List.cons.inj h
    cases e
    refine ⟨.mk (d.take k) none .plain none, .mk (d.drop k) none .plain none, ?_, .leaf _ _, rfl, ?_, rfl,
      .leaf _ _⟩
    · rw [ByteArray.split, if_neg (by omega)]
    · unfold solid
      rw [pieces_leaf, ne_cons_full (by intro hh; have := congrArg List.length hh; simp at this; omega), ← hY]
  | other d n f p hf =>
    intro d' n' Y h k h0 hk
    exfalso
    unfold solid at h
    rw [pieces_other _ _ _ _ hf] at h
    by_cases hd : (ByteArray.mk d n f p).data = []
    · rw [ne_cons_empty hd] at h; simp [ne] at h
    · rw [ne_cons_full hd] at h
      obtain ⟨e, _⟩ := List.cons.inj h
      cases e
      exact hf rfl
  | parts d n ps h1 h2 ih =>
    intro d' n' Y h k h0 hk
    unfold solid at h
    rw [pieces_plain] at h
    obtain ⟨l, r, e1, e2, e3, e4⟩ := joined_in (n := n) h1 ih h2 h k h0 hk
    exact ⟨l, r, e1, e3.whole, e2, e3.pieces, rfl, e4⟩

theorem J.reader : Reader J where
  data := J.data
  splitAt := fun h _ hk => h.splitAt hk
  splitIn := by
    intro b d n Y h k h0 hk
    obtain ⟨d', n', ps, rfl, h1, h2, h3⟩ := h.cases
    obtain ⟨l, r, e1, e2, e3, _⟩ := joined_in (n := n') h1 (fun p hp => (h1 p hp).inside) h2 h3 k h0 hk
    exact ⟨l, r, by unfold ByteArray.splitE; rw [e1]; rfl, e2, e3⟩

/-! ## Making arrays -/

theorem Whole.named {b : ByteArray} (h : Whole b) (n : Option String) : Whole (b.namedOption n) := by
  cases h with
  | leaf d m => exact .leaf _ _
  | other d m f p hf => exact .other _ _ _ _ hf
  | parts d m ps h1 h2 => exact .parts _ _ _ h1 h2

theorem Whole.concat {a b : ByteArray} (ha : Whole a) (hb : Whole b) (n : Option String) :
    J (a.concatNamedOption b n) (solid a ++ solid b) := by
  have hp := (C72_concat a b n).1
  have side : ∀ x, Whole x → x.function = .plain →
      (∀ p ∈ (match x.preimage with | some ps => ps | none => [x]), Whole p) ∧
      ByteArray.partsData (match x.preimage with | some ps => ps | none => [x]) = x.data := by
    intro x hx hf
    cases hx with
    | leaf d n => exact ⟨by simpa using Whole.leaf d n, by simp⟩
    | other d n f p hf' => exact absurd hf hf'
    | parts d n ps h1 h2 => exact ⟨by simpa using h1, by simpa using h2⟩
  have main : Whole (a.concatNamedOption b n) ∧ (a.concatNamedOption b n).function = .plain ∧
      (a.concatNamedOption b n).preimage ≠ none := by
    unfold ByteArray.concatNamedOption
    dsimp only
    split
    · next hc =>
      obtain ⟨a1, a2⟩ := side a ha hc.1
      obtain ⟨b1, b2⟩ := side b hb hc.2
      refine ⟨.parts _ _ _ ?_ ?_, rfl, by simp [ByteArray.preimage]⟩
      · intro p hp
        rcases List.mem_append.mp hp with h | h
        · exact a1 p h
        · exact b1 p h
      · exact (ByteArray.partsData_append _ _).trans
          ((congrArg (· ++ _) a2).trans (congrArg (_ ++ ·) b2))
    · refine ⟨.parts _ _ _ ?_ (by simp), rfl, by simp [ByteArray.preimage]⟩
      intro p hp
      simp only [List.mem_cons, List.not_mem_nil, or_false] at hp
      rcases hp with h | h <;> subst h <;> assumption
  refine ⟨main.1, main.2.1, main.2.2, ?_⟩
  unfold solid
  rw [hp, ne_append]

theorem Whole.foldl (ps : List ByteArray) : ∀ p, Whole p → (∀ q ∈ ps, Whole q) →
    Whole (ps.foldl ByteArray.concat p) ∧
    solid (ps.foldl ByteArray.concat p) = solid p ++ ne (piecesOf ps) := by
  induction ps with
  | nil => intro p hp _; exact ⟨hp, by simp [piecesOf]⟩
  | cons q ps ih =>
    intro p hp hq
    have hj := hp.concat (hq q (by simp)) none
    obtain ⟨e1, e2⟩ := ih _ hj.whole (fun x hx => hq x (by simp [hx]))
    refine ⟨e1, ?_⟩
    rw [List.foldl_cons, ByteArray.concat, piecesOf, ne_append]
    rw [← List.append_assoc, ← hj.pieces]
    exact e2

theorem Whole.fromParts {ps : List ByteArray} (h : ∀ p ∈ ps, Whole p) :
    Whole (ByteArray.fromParts ps) ∧ solid (ByteArray.fromParts ps) = ne (piecesOf ps) := by
  cases ps with
  | nil =>
    refine ⟨.leaf _ _, ?_⟩
    unfold solid ByteArray.fromParts ByteArray.newUnnamed
    rw [pieces_leaf, ne_cons_empty rfl]
    rfl
  | cons p ps =>
    obtain ⟨e1, e2⟩ := Whole.foldl ps p (h p (by simp)) (fun q hq => h q (by simp [hq]))
    refine ⟨e1, ?_⟩
    rw [piecesOf, ne_append]
    exact e2

end BCash
