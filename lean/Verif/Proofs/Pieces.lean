import Verif.Props.Script

/-! # Reading arrays piece by piece

Reading a script operation depends only on how an array splits at the boundaries of its pieces. -/

namespace BCash
open Spec

/-- Non-empty parts. -/
abbrev ne (ps : List ByteArray) : List ByteArray := ps.filter fun p => !p.data.isEmpty

theorem ne_append (xs ys : List ByteArray) : ne (xs ++ ys) = ne xs ++ ne ys := by simp [ne]

theorem ne_cons_empty {p : ByteArray} {ps : List ByteArray} (h : p.data = []) : ne (p :: ps) = ne ps := by
  simp [ne, h]

theorem ne_cons_full {p : ByteArray} {ps : List ByteArray} (h : p.data ≠ []) : ne (p :: ps) = p :: ne ps := by
  simp [ne, h]

theorem partsData_ne (ps : List ByteArray) : ByteArray.partsData (ne ps) = ByteArray.partsData ps := by
  induction ps with
  | nil => rfl
  | cons p ps ih =>
    by_cases h : p.data = []
    · rw [ne_cons_empty h, ih]; simp [h]
    · rw [ne_cons_full h]; simp [ih]

theorem ne_full {ps : List ByteArray} {p : ByteArray} (h : p ∈ ne ps) : p.data ≠ [] := by
  simp only [ne, List.mem_filter, Bool.not_eq_true', List.isEmpty_eq_false_iff] at h
  exact h.2

/-- `P b X`: the array `b` consists of the (non-empty) pieces `X` and can be split between them, and inside of
a leading raw piece. -/
structure Reader (P : ByteArray → List ByteArray → Prop) : Prop where
  data : ∀ {b X}, P b X → b.data = ByteArray.partsData X
  splitAt : ∀ {b X Y}, P b (X ++ Y) → ∀ {k : Nat}, (ByteArray.partsData X).length = k →
    ∃ l r, b.splitE k = .ok (l, r) ∧ P l X ∧ P r Y
  splitIn : ∀ {b d n Y}, P b (.mk d n .plain none :: Y) → ∀ k, 0 < k → k < d.length →
    ∃ l r, b.splitE k = .ok (l, r) ∧ l.data = d.take k ∧ P r (.mk (d.drop k) none .plain none :: Y)

variable {P : ByteArray → List ByteArray → Prop}

/-! ## Reading one operation -/

theorem Reader.readOp (R : Reader P) {b : ByteArray} {Y : List ByteArray} {x : UInt8} {n : Option String}
    (h : P b (.mk [x] n .plain none :: Y)) (hx : x = 0 ∨ 0x4f ≤ x.toNat) :
    ∃ r, deserializeOpBA b = .ok (codeOrInvalid x, r) ∧ P r Y := by
  obtain ⟨l, r, h1, h2, h3⟩ :=
    R.splitAt (X := [.mk [x] n .plain none]) (Y := Y) (by simpa using h) (k := 1) rfl
  have h6 := R.data h2
  refine ⟨r, ?_, h3⟩
  unfold deserializeOpBA
  rw [h1]
  simp only [Res.bind_ok, h6, ByteArray.partsData_cons, ByteArray.data_mk, ByteArray.partsData_nil,
    List.append_nil]
  by_cases h0 : x = 0
  · rw [if_pos h0]; simp [codeOrInvalid, h0]
  · have hx' : 0x4f ≤ x.toNat := by rcases hx with h | h; exact absurd h h0; exact h
    have e : ∀ y : UInt8, y.toNat < 0x4f → x ≠ y := by intro y hy h; subst h; omega
    rw [if_neg h0, if_neg (by omega), if_neg (e _ (by decide)), if_neg (e _ (by decide)),
      if_neg (e _ (by decide))]

theorem Reader.pushTail (R : Reader P) {b : ByteArray} {X Y : List ByteArray} (h : P b (X ++ Y)) {k : Nat}
    (hk : (ByteArray.partsData X).length = k) (hlt : k < 2 ^ 32) (byte : UInt8) :
    ∃ a m r, ((b.splitE k).bind fun x =>
        match serializePushPrefix x.1.data true with
        | none => .err .pushTooLarge
        | some (pre, _) =>
          match pre with
          | [] => .panic
          | p0 :: _ => Res.ok (Op.pushByteArray x.1 (p0 = byte), x.2)) = .ok (.pushByteArray a m, r) ∧
      P a X ∧ P r Y := by
  obtain ⟨l, r, h1, h2, h3⟩ := R.splitAt h hk
  have h6 := R.data h2
  rw [h1]
  simp only [Res.bind_ok]
  have hlen : l.data.length < 2 ^ 32 := by rw [h6, hk]; exact hlt
  have hp := mkPush_ne_panic byte l.data
  have hs := serializePushBytes_token l.data true hlen
  unfold mkPush at hp
  unfold serializePushBytes at hs
  cases hc : serializePushPrefix l.data true with
  | none => rw [hc] at hs; cases hs
  | some q =>
    obtain ⟨pre, tail⟩ := q
    rw [hc] at hp
    cases pre with
    | nil => exact absurd rfl hp
    | cons p0 tl => exact ⟨l, _, r, rfl, h2, h3⟩

theorem Reader.readPush (R : Reader P) {b : ByteArray} {X Y : List ByteArray} {pd : Bytes} {n : Option String}
    {f : PushForm} {d : Bytes} (hv : (Token.push f d).Valid)
    (h : P b (.mk pd n .plain none :: (X ++ Y)))
    (hd : ByteArray.partsData X = d) (he : (Token.push f d).encode = pd ++ d) :
    ∃ a m r, deserializeOpBA b = .ok (.pushByteArray a m, r) ∧
      P a X ∧ P r Y := by
  have hlt : d.length < 2 ^ 32 := by cases f <;> simp only [Token.Valid] at hv <;> omega
  have hdl : (ByteArray.partsData X).length = d.length := by rw [hd]
  cases f with
  | direct =>
    simp only [Token.Valid] at hv
    have hpd : pd = [UInt8.ofNat d.length] := by
      have : ([UInt8.ofNat d.length] ++ d) = pd ++ d := he
      exact (List.append_cancel_right this).symm
    subst hpd
    obtain ⟨l, r, h1, h2, h3⟩ :=
      R.splitAt (X := [.mk [UInt8.ofNat d.length] n .plain none]) (Y := X ++ Y) (by simpa using h) (k := 1) rfl
    have h6 := R.data h2
    have hn : (UInt8.ofNat d.length).toNat = d.length := by
      rw [UInt8.toNat_ofNat']; exact Nat.mod_eq_of_lt (by omega)
    have hz : UInt8.ofNat d.length ≠ 0 := by
      intro hh; rw [hh] at hn; simp at hn; omega
    obtain ⟨a, m, r', q1, q2, q3⟩ :=
      R.pushTail h3 hdl hlt (UInt8.ofNat d.length)
    refine ⟨a, m, r', ?_, q2, q3⟩
    rw [← q1]
    unfold deserializeOpBA
    rw [h1]
    simp only [Res.bind_ok, h6, ByteArray.partsData_cons, ByteArray.data_mk, ByteArray.partsData_nil,
      List.append_nil]
    rw [if_neg hz, if_pos (by omega), hn]
    rfl
  | pushdata1 =>
    simp only [Token.Valid] at hv
    have hpd : pd = [0x4c, UInt8.ofNat d.length] := by
      have : ([0x4c, UInt8.ofNat d.length] ++ d) = pd ++ d := he
      exact (List.append_cancel_right this).symm
    subst hpd
    obtain ⟨l, r, h1, h3, h4⟩ := R.splitIn h 1 (by omega) (by simp)
    obtain ⟨l2, r2, g1, g2, g3⟩ :=
      R.splitAt (X := [.mk [UInt8.ofNat d.length] none .plain none]) (Y := X ++ Y) (by simpa using h4) (k := 1) rfl
    have hn : (UInt8.ofNat d.length).toNat = d.length := by
      rw [UInt8.toNat_ofNat']; exact Nat.mod_eq_of_lt (by omega)
    have g6 := R.data g2
    obtain ⟨a, m, r', q1, q2, q3⟩ := R.pushTail g3 hdl hlt 0x4c
    refine ⟨a, m, r', ?_, q2, q3⟩
    rw [← q1]
    unfold deserializeOpBA
    rw [h1]
    simp only [Res.bind_ok, h3, List.take_succ_cons, List.take_zero]
    rw [if_neg (by decide), if_neg (by decide), if_pos (by decide), g1]
    simp only [Res.bind_ok, g6, ByteArray.partsData_cons, ByteArray.data_mk, ByteArray.partsData_nil,
      List.append_nil, hn]
    rfl
  | pushdata2 =>
    simp only [Token.Valid] at hv
    have hpd : pd = 0x4d :: leBytes 2 d.length := by
      have : ((0x4d :: leBytes 2 d.length) ++ d) = pd ++ d := he
      exact (List.append_cancel_right this).symm
    subst hpd
    obtain ⟨l, r, h1, h3, h4⟩ := R.splitIn h 1 (by omega) (by simp)
    obtain ⟨l2, r2, g1, g2, g3⟩ :=
      R.splitAt (X := [.mk (leBytes 2 d.length) none .plain none]) (Y := X ++ Y) (by simpa using h4) (k := 2)
        (by simp)
    have g6 := R.data g2
    obtain ⟨a, m, r', q1, q2, q3⟩ := R.pushTail g3 hdl hlt 0x4d
    refine ⟨a, m, r', ?_, q2, q3⟩
    rw [← q1]
    unfold deserializeOpBA
    rw [h1]
    simp only [Res.bind_ok, h3, List.take_succ_cons, List.take_zero]
    rw [if_neg (by decide), if_neg (by decide), if_neg (by decide), if_pos (by decide), g1]
    simp only [Res.bind_ok, g6, ByteArray.partsData_cons, ByteArray.data_mk, ByteArray.partsData_nil,
      List.append_nil, fromLeBytes, leBytes_length, if_true]
    rw [leVal_leBytes, Nat.mod_eq_of_lt (by simpa using hv)]
    rfl
  | pushdata4 =>
    simp only [Token.Valid] at hv
    have hpd : pd = 0x4e :: leBytes 4 d.length := by
      have : ((0x4e :: leBytes 4 d.length) ++ d) = pd ++ d := he
      exact (List.append_cancel_right this).symm
    subst hpd
    obtain ⟨l, r, h1, h3, h4⟩ := R.splitIn h 1 (by omega) (by simp)
    obtain ⟨l2, r2, g1, g2, g3⟩ :=
      R.splitAt (X := [.mk (leBytes 4 d.length) none .plain none]) (Y := X ++ Y) (by simpa using h4) (k := 4)
        (by simp)
    have g6 := R.data g2
    obtain ⟨a, m, r', q1, q2, q3⟩ := R.pushTail g3 hdl hlt 0x4e
    refine ⟨a, m, r', ?_, q2, q3⟩
    rw [← q1]
    unfold deserializeOpBA
    rw [h1]
    simp only [Res.bind_ok, h3, List.take_succ_cons, List.take_zero]
    rw [if_neg (by decide), if_neg (by decide), if_neg (by decide), if_neg (by decide), if_pos (by decide), g1]
    simp only [Res.bind_ok, g6, ByteArray.partsData_cons, ByteArray.data_mk, ByteArray.partsData_nil,
      List.append_nil, fromLeBytes, leBytes_length, if_true]
    rw [leVal_leBytes, Nat.mod_eq_of_lt (by simpa using hv)]
    rfl

end BCash
