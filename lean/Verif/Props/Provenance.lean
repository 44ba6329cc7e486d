import Verif.Props.ByteArray

/-! # C72: names and pieces of byte arrays -/

namespace BCash
open Spec

/-! ## Specification -/

mutual
/-- Spec: the pieces an array was put together from, as a reader of the recorded provenance finds them. -/
def Spec.pieces : ByteArray → List ByteArray
  | .mk d n f p =>
    match f, p with
    | .plain, some ps => Spec.piecesOf ps
    | f, p => [.mk d n f p]

/-- Spec: the pieces of several arrays in order. -/
def Spec.piecesOf : List ByteArray → List ByteArray
  | [] => []
  | b :: bs => Spec.pieces b ++ Spec.piecesOf bs
end

/-- Spec: `l` and `r` are the pieces left and right of a cut: no piece is changed except that the cut may go
through one piece, which is replaced by two unnamed ones that hold its two parts, marked as unexpectedly
split if the piece was the result of a function. The cut goes through the inside of that piece, unless there
is no other piece. -/
def Spec.Cut (bs l r : List ByteArray) : Prop :=
  l ++ r = bs ∨
  ∃ pre x post xl xr, bs = pre ++ x :: post ∧ l = pre ++ [xl] ∧ r = xr :: post ∧
    xl.data ++ xr.data = x.data ∧
    xl.name = none ∧ xr.name = none ∧ xl.preimage = none ∧ xr.preimage = none ∧
    xl.function = xr.function ∧ (xl.function = .plain ∨ xl.function = .unexpectedSplit) ∧
    (x.function.isHash = true → xl.function = .unexpectedSplit) ∧
    (x.function = .plain → xl.function = .plain) ∧
    ((xl.data ≠ [] ∧ xr.data ≠ []) ∨ bs = [x])

/-! ## Proof -/

theorem piecesOf_append (xs ys : List ByteArray) : piecesOf (xs ++ ys) = piecesOf xs ++ piecesOf ys := by
  induction xs with
  | nil => simp [piecesOf]
  | cons x xs ih => simp [piecesOf, ih]

theorem pieces_plain (d n ps) : pieces (.mk d n .plain (some ps)) = piecesOf ps := by
  rw [pieces]

theorem pieces_leaf (d n f) : pieces (.mk d n f none) = [.mk d n f none] := by
  cases f <;> rw [pieces] <;> simp

theorem pieces_other (d n f p) (h : f ≠ .plain) : pieces (.mk d n f p) = [.mk d n f p] := by
  cases f <;> first | exact absurd rfl h | (rw [pieces]; simp)

theorem side_pieces (b : ByteArray) (h : b.function = .plain) :
    piecesOf (match b.preimage with | some ps => ps | none => [b]) = pieces b := by
  obtain ⟨d, n, f, p⟩ := b
  dsimp only [ByteArray.function_mk, ByteArray.preimage_mk] at h ⊢
  subst h
  cases p with
  | none => simp [piecesOf]
  | some ps => rw [pieces_plain]

/-! ## C72 -/

/-- **C72** (names): an array made with a name has it and no provenance; naming changes the name only. -/
theorem C72_names (name : String) (n : Option String) (data : Bytes) (b : ByteArray) :
    (ByteArray.new name data = .mk data (some name) .plain none) ∧
    (ByteArray.newUnnamed data = .mk data none .plain none) ∧
    ((b.named name).name = some name ∧ (b.named name).data = b.data ∧
      (b.named name).function = b.function ∧ (b.named name).preimage = b.preimage) ∧
    ((b.namedOption n).name = n ∧ (b.namedOption n).data = b.data ∧
      (b.namedOption n).function = b.function ∧ (b.namedOption n).preimage = b.preimage) := by
  obtain ⟨d, m, f, p⟩ := b
  exact ⟨rfl, rfl, ⟨rfl, rfl, rfl, rfl⟩, rfl, rfl, rfl, rfl⟩

/-- **C72** (functions): the result of a function on an array is recorded as that, with the argument. -/
theorem C72_function (b : ByteArray) (data : Bytes) (f : Function) (hf : f ≠ .plain) :
    pieces (b.applyFunction data f) = [b.applyFunction data f] ∧
    (b.applyFunction data f).function = f ∧ (b.applyFunction data f).preimage = some [b] ∧
    (b.applyFunction data f).name = none :=
  ⟨pieces_other _ _ _ _ hf, rfl, rfl, rfl⟩

/-- **C72** (concatenation): the pieces of a concatenation, with their names, are those of the operands in
order. -/
theorem C72_concat (a b : ByteArray) (n : Option String) :
    pieces (a.concatNamedOption b n) = pieces a ++ pieces b ∧ (a.concatNamedOption b n).name = n := by
  unfold ByteArray.concatNamedOption
  dsimp only
  split
  · next h =>
    rw [pieces_plain, piecesOf_append]
    exact ⟨congr (congrArg _ (side_pieces a h.1)) (side_pieces b h.2), rfl⟩
  · rw [pieces_plain]
    simp [piecesOf]

/-- **C72** (joining): likewise for joining any number of arrays. -/
theorem C72_from_parts (ps : List ByteArray) (h : ps ≠ []) :
    pieces (ByteArray.fromParts ps) = piecesOf ps := by
  cases ps with
  | nil => exact absurd rfl h
  | cons p ps =>
    unfold ByteArray.fromParts
    dsimp only
    suffices hh : ∀ ps p, pieces (ps.foldl ByteArray.concat p) = pieces p ++ piecesOf ps by
      rw [hh, piecesOf]
    intro ps
    induction ps with
    | nil => intro p; simp [piecesOf]
    | cons q qs ih =>
      intro p
      rw [List.foldl_cons, ih, ByteArray.concat, (C72_concat p q none).1, piecesOf, List.append_assoc]

/-- A cut that goes through the inside of a piece at most. -/
def StrictCut (bs l r : List ByteArray) : Prop :=
  l ++ r = bs ∨
  ∃ pre x post xl xr, bs = pre ++ x :: post ∧ l = pre ++ [xl] ∧ r = xr :: post ∧
    xl.data ++ xr.data = x.data ∧
    xl.name = none ∧ xr.name = none ∧ xl.preimage = none ∧ xr.preimage = none ∧
    xl.function = xr.function ∧ (xl.function = .plain ∨ xl.function = .unexpectedSplit) ∧
    (x.function.isHash = true → xl.function = .unexpectedSplit) ∧
    (x.function = .plain → xl.function = .plain) ∧ xl.data ≠ [] ∧ xr.data ≠ []

theorem StrictCut.cut {bs l r : List ByteArray} (h : StrictCut bs l r) : Cut bs l r := by
  rcases h with h | ⟨p, x, q, xl, xr, e1, e2, e3, a1, a2, a3, a4, a5, a6, a7, a8, a9, a10, a11⟩
  · exact .inl h
  · exact .inr ⟨p, x, q, xl, xr, e1, e2, e3, a1, a2, a3, a4, a5, a6, a7, a8, a9, .inl ⟨a10, a11⟩⟩

theorem StrictCut.context {bs l r : List ByteArray} (h : StrictCut bs l r) (pre post : List ByteArray) :
    StrictCut (pre ++ (bs ++ post)) (pre ++ l) (r ++ post) := by
  rcases h with h | ⟨p, x, q, xl, xr, e1, e2, e3, rest⟩
  · left
    rw [← h]; simp
  · exact .inr ⟨pre ++ p, x, q ++ post, xl, xr, by simp [e1], by simp [e2], by simp [e3], rest⟩

/-- The parts right of a cut are kept. -/
theorem splitParts_right (ps : List ByteArray) (at_ len : Nat) (l r : List ByteArray)
    (h : ByteArray.splitParts ps at_ false len = .ok (l, r)) : l = [] ∧ r = ps := by
  induction ps generalizing len l r with
  | nil => simp only [ByteArray.splitParts, Except.ok.injEq, Prod.mk.injEq] at h; exact ⟨h.1.symm, h.2.symm⟩
  | cons p ps ih =>
    rw [ByteArray.splitParts] at h
    simp only [ite_self, Bool.and_false, Bool.false_eq_true, if_false] at h
    split at h
    · cases h
    · next l' r' h2 =>
      simp only [Except.ok.injEq, Prod.mk.injEq] at h
      obtain ⟨e1, e2⟩ := ih _ _ _ h2
      exact ⟨by rw [← h.1, e1], by rw [← h.2, e2]⟩

theorem splitParts_cut (ps : List ByteArray)
    (hps : ∀ p ∈ ps, ∀ at_ l r, 0 < at_ → at_ < p.data.length → p.split at_ = .ok (l, r) →
      StrictCut (pieces p)
        (pieces (if p.function.shouldKeepIntact then l.setFunction .unexpectedSplit else l))
        (pieces (if p.function.shouldKeepIntact then r.setFunction .unexpectedSplit else r)))
    (at_ len : Nat) (hle : len ≤ at_) (l r : List ByteArray)
    (h : ByteArray.splitParts ps at_ true len = .ok (l, r)) :
    StrictCut (piecesOf ps) (piecesOf l) (piecesOf r) := by
  induction ps generalizing len l r with
  | nil =>
    simp only [ByteArray.splitParts, Except.ok.injEq, Prod.mk.injEq] at h
    rw [← h.1, ← h.2]
    exact .inl (by simp [piecesOf])
  | cons p ps ih =>
    have h0 := h
    rw [ByteArray.splitParts] at h
    dsimp only at h
    by_cases he : len = at_
    · subst he
      have : ByteArray.splitParts (p :: ps) len false len = .ok (l, r) := by
        rw [ByteArray.splitParts]
        simp only [if_true, Bool.and_false, Bool.false_eq_true, if_false] at h ⊢
        exact h
      obtain ⟨e1, e2⟩ := splitParts_right _ _ _ _ _ this
      rw [e1, e2]
      exact .inl (by simp [piecesOf])
    · rw [if_neg he] at h
      by_cases hc : len + p.data.length > at_
      · simp only [hc, decide_true, Bool.and_self, if_true] at h
        split at h
        · cases h
        · next sl sr hsp =>
          split at h
          · cases h
          · next l' r' h2 =>
            simp only [Except.ok.injEq, Prod.mk.injEq] at h
            obtain ⟨e1, e2⟩ := splitParts_right _ _ _ _ _ h2
            have := (hps p (by simp) _ _ _ (by omega) (by omega) hsp).context [] (piecesOf ps)
            rw [← h.1, ← h.2, e1, e2]
            simpa [piecesOf] using this
      · simp only [hc, decide_false, Bool.false_and, Bool.false_eq_true, if_false, if_true] at h
        split at h
        · cases h
        · next l' r' h2 =>
          simp only [Except.ok.injEq, Prod.mk.injEq] at h
          have := (ih (fun q hq => hps q (by simp [hq])) _ (by omega) _ _ h2).context (pieces p) []
          rw [← h.1, ← h.2]
          simpa [piecesOf] using this

theorem take_drop_ne {d : Bytes} {n : Nat} (h1 : 0 < n) (h2 : n < d.length) : d.take n ≠ [] ∧ d.drop n ≠ [] := by
  constructor
  · intro h
    have := congrArg List.length h
    rw [List.length_take, List.length_nil] at this
    omega
  · intro h
    have := congrArg List.length h
    simp at this
    omega

theorem Cons.strictCut {H b} (hb : Cons H b) : ∀ at_ l r, 0 < at_ → at_ < b.data.length →
    b.split at_ = .ok (l, r) →
      StrictCut (pieces b)
        (pieces (if b.function.shouldKeepIntact then l.setFunction .unexpectedSplit else l))
        (pieces (if b.function.shouldKeepIntact then r.setFunction .unexpectedSplit else r)) := by
  induction hb with
  | leaf d n f hf =>
    intro at_ l r h1 h2 h
    rw [ByteArray.split] at h
    rw [if_neg (by simpa using Nat.le_of_lt h2)] at h
    simp only [Except.ok.injEq, Prod.mk.injEq] at h
    rw [← h.1, ← h.2]
    obtain ⟨t1, t2⟩ := take_drop_ne h1 h2
    right
    rcases hf with rfl | rfl
    · simp only [ByteArray.function_mk, Function.shouldKeepIntact, Bool.false_eq_true, if_false]
      exact ⟨[], _, [], _, _, pieces_leaf _ _ _, pieces_leaf _ _ _, pieces_leaf _ _ _, by simp, rfl, rfl, rfl,
        rfl, rfl, .inl rfl, by simp [Function.isHash], fun _ => rfl, t1, t2⟩
    · simp only [ByteArray.function_mk, Function.shouldKeepIntact, if_true, ByteArray.setFunction]
      exact ⟨[], _, [], _, _, pieces_leaf _ _ _, pieces_leaf _ _ _, pieces_leaf _ _ _, by simp, rfl, rfl, rfl,
        rfl, rfl, .inr rfl, fun _ => rfl, by simp, t1, t2⟩
  | parts d n ps h1 h2 ih =>
    intro at_ l r g1 g2 h
    rw [ByteArray.split] at h
    split at h
    · cases h
    · simp only [Function.shouldKeepIntact, Bool.not_false, if_true] at h
      split at h
      · cases h
      · next lp rp hp =>
        simp only [Except.ok.injEq, Prod.mk.injEq] at h
        rw [← h.1, ← h.2]
        simp only [ByteArray.function_mk, Function.shouldKeepIntact, Bool.false_eq_true, if_false]
        rw [pieces_plain, pieces_plain, pieces_plain]
        exact splitParts_cut ps ih _ _ (Nat.zero_le _) _ _ hp
  | hash d n f p h1 h2 h3 ih =>
    intro at_ l r g1 g2 h
    have hk : f.shouldKeepIntact = true := by cases f <;> simp_all [Function.isHash, Function.shouldKeepIntact]
    have hp : f ≠ .plain := by rintro rfl; cases h1
    rw [ByteArray.split] at h
    split at h
    · cases h
    · simp only [hk, Bool.not_true, Bool.false_eq_true, if_false, Except.ok.injEq, Prod.mk.injEq] at h
      rw [← h.1, ← h.2]
      obtain ⟨t1, t2⟩ := take_drop_ne g1 g2
      simp only [ByteArray.function_mk, hk, if_true, ByteArray.setFunction]
      exact .inr ⟨[], _, [], _, _, pieces_other _ _ _ _ hp, pieces_leaf _ _ _, pieces_leaf _ _ _, by simp,
        rfl, rfl, rfl, rfl, rfl, .inr rfl, fun _ => rfl, fun h => absurd h hp, t1, t2⟩

theorem pieces_data {H b} (hb : Cons H b) : ((pieces b).map ByteArray.data).flatten = b.data := by
  induction hb with
  | leaf d n f hf => rw [pieces_leaf]; simp
  | parts d n ps h1 h2 ih =>
    rw [pieces_plain]
    have : ∀ ps : List ByteArray, (∀ p ∈ ps, ((pieces p).map ByteArray.data).flatten = p.data) →
        ((piecesOf ps).map ByteArray.data).flatten = ByteArray.partsData ps := by
      intro ps
      induction ps with
      | nil => intro _; simp [piecesOf]
      | cons p ps ih2 =>
        intro h
        simp [piecesOf, h p, ih2 (fun q hq => h q (by simp [hq]))]
    rw [this ps ih, h2]
    rfl
  | hash d n f p h1 h2 h3 ih =>
    rw [pieces_other _ _ _ _ (by rintro rfl; cases h1)]
    simp

/-- **C72** (splitting): for arrays obtained by wrapping, naming, concatenating, hashing and splitting, the
bytes of the pieces are the bytes of the array, and splitting distributes the pieces to the two sides, cutting
at most one. -/
theorem C72_split (H : Function → Bytes → Bytes) (b : ByteArray) (hb : Built H b) :
    ((pieces b).map ByteArray.data).flatten = b.data ∧
    ∀ at_ l r, b.split at_ = .ok (l, r) →
      Cut (pieces b) (pieces l) (pieces r) ∧
      ((pieces l).map ByteArray.data).flatten = b.data.take at_ ∧
      ((pieces r).map ByteArray.data).flatten = b.data.drop at_ := by
  have hc := hb.cons
  refine ⟨pieces_data hc, ?_⟩
  intro at_ l r h
  obtain ⟨_, d1, d2⟩ := ByteArray.split_data h
  refine ⟨?_, by rw [pieces_data (hc.split _ _ _ h).1.1, d1], by rw [pieces_data (hc.split _ _ _ h).1.2, d2]⟩
  cases hc with
  | leaf d n f hf =>
    rw [ByteArray.split] at h
    split at h
    · cases h
    · simp only [Except.ok.injEq, Prod.mk.injEq] at h
      rw [← h.1, ← h.2]
      rw [pieces_leaf, pieces_leaf, pieces_leaf]
      refine .inr ⟨[], _, [], _, _, rfl, rfl, rfl, by simp, rfl, rfl, rfl, rfl, rfl, .inl rfl, ?_, fun _ => rfl,
        .inr rfl⟩
      rcases hf with rfl | rfl <;> simp [Function.isHash]
  | parts d n ps h1 h2 =>
    rw [ByteArray.split] at h
    split at h
    · cases h
    · simp only [Function.shouldKeepIntact, Bool.not_false, if_true] at h
      split at h
      · cases h
      · next lp rp hp =>
        simp only [Except.ok.injEq, Prod.mk.injEq] at h
        rw [← h.1, ← h.2]
        rw [pieces_plain, pieces_plain, pieces_plain]
        exact (splitParts_cut ps (fun p hp => (h1 p hp).strictCut) _ _ (Nat.zero_le _) _ _ hp).cut
  | hash d n f p h1 h2 h3 =>
    have hk : f.shouldKeepIntact = true := by cases f <;> simp_all [Function.isHash, Function.shouldKeepIntact]
    have hp : f ≠ .plain := by rintro rfl; cases h1
    rw [ByteArray.split] at h
    split at h
    · cases h
    · simp only [hk, Bool.not_true, Bool.false_eq_true, if_false, Except.ok.injEq, Prod.mk.injEq] at h
      rw [← h.1, ← h.2]
      rw [pieces_other _ _ _ _ hp, pieces_leaf, pieces_leaf]
      exact .inr ⟨[], _, [], _, _, rfl, rfl, rfl, by simp, rfl, rfl, rfl, rfl, rfl, .inr rfl, fun _ => rfl,
        fun h => absurd h hp, .inr rfl⟩

/-- Non-vacuity: in a concatenation of a key hash, named bytes and named bytes, a cut through the middle
keeps the outer pieces with their names. -/
example : ∃ b l r, Built (fun _ d => d.reverse) b ∧ b.split 4 = .ok (l, r) ∧
    (pieces b).map ByteArray.name = [none, some "amount", some "tail"] ∧
    (pieces l).map ByteArray.function = [.sha256, .plain] ∧
    (pieces l).map ByteArray.data = [[2, 1], [5, 6]] ∧
    (pieces r).map ByteArray.name = [none, some "tail"] ∧
    (pieces r).map ByteArray.data = [[7], [8, 9]] := by
  refine ⟨_, _, _, .concat (some "all") (.concat none (.hash (f := .sha256) rfl (.raw (some "key") [1, 2]))
    (.raw (some "amount") [5, 6, 7])) (.raw (some "tail") [8, 9]), rfl, ?_, ?_, ?_, ?_, ?_⟩ <;> rfl

/-- **C72** fails for the name of a whole array: it does not survive further concatenation or splitting,
not even splitting at the end. -/
theorem C72_whole_name_fails :
    (∃ a b c : ByteArray, ∀ p ∈ pieces (((a.concat b).named "ab").concat c), p.name ≠ some "ab") ∧
    (∃ l r, (ByteArray.new "a" [1, 2]).split 2 = .ok (l, r) ∧ l.data = [1, 2] ∧ l.name = none) := by
  refine ⟨⟨.newUnnamed [1], .newUnnamed [2], .newUnnamed [3], ?_⟩, _, _, rfl, rfl, rfl⟩
  intro p hp
  have : pieces ((((ByteArray.newUnnamed [1]).concat (.newUnnamed [2])).named "ab").concat (.newUnnamed [3])) =
      [.newUnnamed [1], .newUnnamed [2], .newUnnamed [3]] := rfl
  rw [this] at hp
  simp only [List.mem_cons, List.not_mem_nil, or_false] at hp
  rcases hp with rfl | rfl | rfl <;> simp [ByteArray.newUnnamed]

end BCash
