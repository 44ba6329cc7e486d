import Verif.Model.ByteArray
import Verif.Proofs.LE

/-! Lemmas about byte arrays. -/

namespace BCash
namespace ByteArray

@[simp] theorem data_mk (d n f p) : (mk d n f p).data = d := rfl
@[simp] theorem name_mk (d n f p) : (mk d n f p).name = n := rfl
@[simp] theorem function_mk (d n f p) : (mk d n f p).function = f := rfl
@[simp] theorem preimage_mk (d n f p) : (mk d n f p).preimage = p := rfl
@[simp] theorem data_setFunction (b : ByteArray) (f) : (b.setFunction f).data = b.data := by
  cases b; rfl
@[simp] theorem preimage_setFunction (b : ByteArray) (f) :
    (b.setFunction f).preimage = b.preimage := by
  cases b; rfl

@[simp] theorem data_concatNamedOption (a b : ByteArray) (n) :
    (a.concatNamedOption b n).data = a.data ++ b.data := by
  unfold concatNamedOption; simp only; split <;> rfl

@[simp] theorem data_concat (a b : ByteArray) : (a.concat b).data = a.data ++ b.data :=
  data_concatNamedOption a b none

theorem data_foldl_concat (ps : List ByteArray) (p : ByteArray) :
    (ps.foldl concat p).data = p.data ++ (ps.map data).flatten := by
  induction ps generalizing p with
  | nil => simp
  | cons q ps ih => simp [ih]

@[simp] theorem data_fromParts (ps : List ByteArray) :
    (fromParts ps).data = (ps.map data).flatten := by
  cases ps with
  | nil => rfl
  | cons p ps => simp [fromParts, data_foldl_concat]

@[simp] theorem data_named (b : ByteArray) (n) : (b.named n).data = b.data := by cases b; rfl
@[simp] theorem data_namedOption (b : ByteArray) (n) : (b.namedOption n).data = b.data := by
  cases b; rfl
@[simp] theorem data_applyFunction (b : ByteArray) (d f) : (b.applyFunction d f).data = d := rfl

mutual
theorem split_ok : ∀ (b : ByteArray) (at_ : Nat), at_ ≤ b.data.length →
    ∃ l r, split b at_ = .ok (l, r) ∧ l.data = b.data.take at_ ∧ r.data = b.data.drop at_
  | mk d n f none, at_, h => by
    simp only [data_mk] at h
    exact ⟨_, _, by rw [split, if_neg (by omega)], rfl, rfl⟩
  | mk d n f (some ps), at_, h => by
    simp only [data_mk] at h
    rw [split, if_neg (by omega)]
    by_cases hk : f.shouldKeepIntact = true
    · simp only [hk, Bool.not_true, Bool.false_eq_true, if_false]
      exact ⟨_, _, rfl, rfl, rfl⟩
    · obtain ⟨l, r, hlr⟩ := splitParts_ok ps at_ true 0
      simp only [hk, hlr]
      exact ⟨_, _, rfl, rfl, rfl⟩

theorem splitParts_ok : ∀ (ps : List ByteArray) (at_ : Nat) (isLeft : Bool) (len : Nat),
    ∃ l r, splitParts ps at_ isLeft len = .ok (l, r)
  | [], _, _, _ => ⟨[], [], rfl⟩
  | part :: rest, at_, isLeft, len => by
    rw [splitParts]
    simp only
    generalize (if len = at_ then false else isLeft) = il
    by_cases hc : (decide (len + part.data.length > at_) && il) = true
    · rw [if_pos hc]
      have hs : at_ - len ≤ part.data.length := by
        simp only [Bool.and_eq_true, decide_eq_true_eq] at hc
        omega
      obtain ⟨sl, sr, h1, _, _⟩ := split_ok part (at_ - len) hs
      obtain ⟨l, r, h2⟩ := splitParts_ok rest at_ false (len + part.data.length)
      rw [h1]; simp only [h2]
      exact ⟨_, _, rfl⟩
    · rw [if_neg hc]
      obtain ⟨l, r, h2⟩ := splitParts_ok rest at_ il (len + part.data.length)
      rw [h2]
      cases il
      · exact ⟨_, _, rfl⟩
      · exact ⟨_, _, rfl⟩
end

theorem split_err (b : ByteArray) (at_ : Nat) (h : b.data.length < at_) :
    split b at_ = .error (.invalidSplit at_ b.data.length) := by
  cases b with
  | mk d n f p => rw [split.eq_def]; simp only [data_mk] at h ⊢; rw [if_pos h]

theorem split_data {b : ByteArray} {at_ : Nat} {l r : ByteArray} (h : split b at_ = .ok (l, r)) :
    at_ ≤ b.data.length ∧ l.data = b.data.take at_ ∧ r.data = b.data.drop at_ := by
  by_cases hc : at_ ≤ b.data.length
  · obtain ⟨l', r', h1, h2, h3⟩ := split_ok b at_ hc
    rw [h1] at h
    simp only [Except.ok.injEq, Prod.mk.injEq] at h
    rw [← h.1, ← h.2]; exact ⟨hc, h2, h3⟩
  · rw [split_err b at_ (by omega)] at h; simp at h

/-- The concatenated bytes of a list of parts. -/
def partsData (ps : List ByteArray) : Bytes := (ps.map data).flatten

@[simp] theorem partsData_nil : partsData [] = [] := rfl
@[simp] theorem partsData_cons (p ps) : partsData (p :: ps) = p.data ++ partsData ps := rfl
theorem partsData_append (xs ys) : partsData (xs ++ ys) = partsData xs ++ partsData ys := by
  simp [partsData]

/-- Bytes of the recorded parts after a split. -/
theorem splitParts_data (ps : List ByteArray) (at_ : Nat) (isLeft : Bool) (len : Nat)
    (l r : List ByteArray) (h : splitParts ps at_ isLeft len = .ok (l, r))
    (hinv : isLeft = true → len ≤ at_) :
    partsData l = (if isLeft then (partsData ps).take (at_ - len) else []) ∧
    partsData r = (if isLeft then (partsData ps).drop (at_ - len) else partsData ps) := by
  induction ps generalizing isLeft len l r with
  | nil =>
    simp only [splitParts, Except.ok.injEq, Prod.mk.injEq] at h
    rw [← h.1, ← h.2]; simp
  | cons part rest ih =>
    rw [splitParts] at h
    simp only at h
    by_cases hl : isLeft = true
    · have hle := hinv hl
      by_cases heq : len = at_
      · -- everything goes right
        simp only [heq, if_true, Bool.and_false, Bool.false_eq_true, if_false] at h
        split at h
        · simp at h
        · next l' r' h2 =>
          simp only [Except.ok.injEq, Prod.mk.injEq] at h
          obtain ⟨i1, i2⟩ := ih _ _ _ _ h2 (by simp)
          rw [← h.1, ← h.2]
          simp only [Bool.false_eq_true, if_false] at i1 i2
          simp [hl, heq, i1, i2]
      · simp only [heq, if_false, hl, Bool.and_true, decide_eq_true_eq, if_true] at h
        by_cases hgt : len + part.data.length > at_
        · rw [if_pos hgt] at h
          split at h
          · simp at h
          · next sl sr h1 =>
            split at h
            · simp at h
            · next l' r' h2 =>
              simp only [Except.ok.injEq, Prod.mk.injEq] at h
              obtain ⟨i1, i2⟩ := ih _ _ _ _ h2 (by simp)
              obtain ⟨_, d1, d2⟩ := split_data h1
              have e1 : (if part.function.shouldKeepIntact = true
                  then sl.setFunction .unexpectedSplit else sl).data = sl.data := by split <;> simp
              have e2 : (if part.function.shouldKeepIntact = true
                  then sr.setFunction .unexpectedSplit else sr).data = sr.data := by split <;> simp
              rw [← h.1, ← h.2]
              simp only [Bool.false_eq_true, if_false] at i1 i2
              have hz : at_ - len - part.data.length = 0 := by omega
              simp [hl, i1, i2, e1, e2, d1, d2, List.take_append, List.drop_append, hz]
        · rw [if_neg hgt] at h
          split at h
          · simp at h
          · next l' r' h2 =>
            simp only [Except.ok.injEq, Prod.mk.injEq] at h
            obtain ⟨i1, i2⟩ := ih _ _ _ _ h2 (by intro _; omega)
            rw [← h.1, ← h.2]
            simp only [if_true] at i1 i2
            have hle2 : part.data.length ≤ at_ - len := by omega
            have e : at_ - (len + part.data.length) = at_ - len - part.data.length := by omega
            simp [hl, i1, i2, e, List.take_append, List.drop_append, List.take_of_length_le hle2,
              List.drop_of_length_le hle2]
    · simp only [Bool.not_eq_true] at hl
      subst hl
      simp only [ite_self, Bool.and_false, Bool.false_eq_true, if_false] at h
      split at h
      · simp at h
      · next l' r' h2 =>
        simp only [Except.ok.injEq, Prod.mk.injEq] at h
        obtain ⟨i1, i2⟩ := ih _ _ _ _ h2 (by simp)
        rw [← h.1, ← h.2]
        simp only [Bool.false_eq_true, if_false] at i1 i2
        simp [i1, i2]

end ByteArray
end BCash
