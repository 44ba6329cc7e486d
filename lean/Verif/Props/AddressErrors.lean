import Verif.Props.Address
import Verif.Proofs.CashErrors
import Verif.Spec.CashErrors

/-! # C29: typing errors anywhere in an address -/

namespace BCash
open Spec CashErr

/-! ## Words that differ in few places have different remainders -/

def diff (vs vs' : List Nat) : List Nat := List.zipWith (· ^^^ ·) vs vs'

theorem fold_add : ∀ (vs vs' : List Nat) (r r' : List Nat), V 8 r → V 8 r' → (∀ v ∈ vs, v < 32) → (∀ v ∈ vs', v < 32) →
    vs.length = vs'.length →
    (diff vs vs').foldl remStep (vadd r r') = vadd (vs.foldl remStep r) (vs'.foldl remStep r')
  | [], [], _, _, _, _, _, _, _ => rfl
  | [], _ :: _, _, _, _, _, _, _, h => by simp at h
  | _ :: _, [], _, _, _, _, _, _, h => by simp at h
  | v :: vs, v' :: vs', r, r', hr, hr', hv, hv', h => by
    simp only [List.mem_cons, forall_eq_or_imp] at hv hv'
    simp only [diff, List.zipWith_cons_cons, List.foldl_cons]
    rw [remStep_add hr hr']
    exact fold_add vs vs' _ _ (V_remStep hr hv.1) (V_remStep hr' hv'.1) hv.2 hv'.2 (by simpa using h)

theorem fold_rem (e : List Nat) : e.foldl remStep z8 = rem e.reverse := by
  have : ∀ a : List Nat, rem a = a.foldr (fun v r => remStep r v) z8 := by
    intro a
    induction a with
    | nil => rfl
    | cons v a ih => simp only [rem, List.foldr_cons, ih]
  rw [this, List.foldr_reverse]

theorem V_fold : ∀ (vs : List Nat) (r : List Nat), V 8 r → (∀ v ∈ vs, v < 32) → V 8 (vs.foldl remStep r)
  | [], _, hr, _ => hr
  | v :: vs, r, hr, hv => by
    simp only [List.mem_cons, forall_eq_or_imp] at hv
    exact V_fold vs _ (V_remStep hr hv.1) hv.2

theorem remainder_distance (vs vs' : List Nat) (hv : ∀ v ∈ vs, v < 32) (hv' : ∀ v ∈ vs', v < 32)
    (hl : vs.length = vs'.length) (h56 : vs.length ≤ 56)
    (hc : (diff vs vs').countP (fun a => a != 0) ≤ 5)
    (h : cashRemainder vs = cashRemainder vs') : vs = vs' := by
  unfold cashRemainder at h
  have e := fold_add vs vs' _ _ V_one V_one hv hv' hl
  have hz : vadd [0, 0, 0, 0, 0, 0, 0, 1] [0, 0, 0, 0, 0, 0, 0, 1] = z8 := rfl
  rw [hz, fold_rem, h] at e
  have hzero : Z (rem (diff vs vs').reverse) := by rw [e]; exact Z_vadd_self _
  have hV : V vs.length vs := ⟨rfl, hv⟩
  have hV' : V vs.length vs' := ⟨hl.symm, hv'⟩
  have hD : V vs.length (diff vs vs') := V_vadd hV hV'
  have := distance (diff vs vs').reverse (by rw [List.length_reverse, hD.1]; exact h56)
    (fun a ha => hD.2 a (List.mem_reverse.mp ha)) (by rw [List.countP_reverse]; exact hc) hzero
  exact eq_of_Z_vadd hV hV' (fun x hx => this x (List.mem_reverse.mpr hx))

theorem countP_diff : ∀ (xs ys : Bytes),
    (diff (xs.map UInt8.toNat) (ys.map UInt8.toNat)).countP (fun a => a != 0) = changed xs ys
  | [], ys => by cases ys <;> rfl
  | x :: xs, [] => rfl
  | x :: xs, y :: ys => by
    have ih := countP_diff xs ys
    simp only [diff, List.map_cons, List.zipWith_cons_cons, List.countP_cons, changed] at ih ⊢
    rw [ih, Nat.add_comm]
    congr 1
    by_cases h : x = y
    · subst h; simp
    · have : x.toNat ^^^ y.toNat ≠ 0 := fun h' => h (UInt8.toNat_inj.mp (xor_zero_eq h'))
      simp [h, this]

theorem changed_map {f : UInt8 → UInt8} {P : UInt8 → Prop} (hf : ∀ x y, P x → P y → f x = f y → x = y) :
    ∀ (xs ys : Bytes), (∀ x ∈ xs, P x) → (∀ y ∈ ys, P y) → changed (xs.map f) (ys.map f) = changed xs ys
  | [], ys, _, _ => by cases ys <;> rfl
  | x :: xs, [], _, _ => rfl
  | x :: xs, y :: ys, hx, hy => by
    simp only [List.mem_cons, forall_eq_or_imp] at hx hy
    simp only [List.map_cons, changed, changed_map hf xs ys hx.2 hy.2]
    congr 1
    by_cases h : x = y
    · simp [h]
    · have : f x ≠ f y := fun h' => h (hf x y hx.1 hy.1 h')
      simp [h, this]

theorem changed_append : ∀ (a b c d : Bytes), a.length = b.length →
    changed (a ++ c) (b ++ d) = changed a b + changed c d
  | [], [], c, d, _ => by simp [changed]
  | [], _ :: _, _, _, h => by simp at h
  | _ :: _, [], _, _, h => by simp at h
  | x :: a, y :: b, c, d, h => by
    simp only [List.cons_append, changed, changed_append a b c d (by simpa using h), Nat.add_assoc]

theorem changed_self : ∀ a : Bytes, changed a a = 0
  | [] => rfl
  | x :: a => by simp [changed, changed_self a]

set_option maxRecDepth 100000 in
theorem lowFive_lower : ∀ c : UInt8, lowFive (asciiLower c) = lowFive c := forall_u8 (by decide)

theorem covered_eq (pre vs : Bytes) :
    cashCovered (pre.map asciiLower) vs = (pre.map lowFive ++ [0] ++ vs).map UInt8.toNat := by
  unfold cashCovered
  simp only [List.map_append, List.map_map]
  congr 2
  apply List.map_congr_left
  intro c _
  show (asciiLower c).toNat % 32 = (lowFive c).toNat
  rw [← lowFive_lower c]
  unfold lowFive
  rw [ofNat_toNat_lt (by omega)]

/-- What is needed of an accepted string. -/
theorem accepted_values {s pre payload : Bytes} {a : Address} (hs : CashParts s pre payload)
    (hok : Address.fromCashAddr s = .ok a) : ∃ vs : Bytes, payload.map asciiLower = vs.map cashLetter ∧
      (∀ v ∈ vs, v.toNat < 32) ∧ ChecksumOk (pre.map asciiLower) vs := by
  rw [fromCashAddr_ok] at hok
  have hok := hok.1
  rw [raw_parts hs] at hok
  rcases parseParts_cases (pre.map asciiLower) (payload.map asciiLower) with
    ⟨_, _, _, _, _, _, h⟩ | ⟨_, _, _, _, h⟩ | ⟨vs, h1, hv, hc⟩
  · rw [h] at hok; cases hok
  · rw [h] at hok; cases hok
  · exact ⟨vs, h1, hv, hc⟩

/-- A string whose letters are in the alphabet and whose checksum is wrong. -/
theorem wrong_checksum {s pre payload vs : Bytes} (hs : CashParts s pre payload)
    (h1 : payload.map asciiLower = vs.map cashLetter) (hv : ∀ v ∈ vs, v.toNat < 32)
    (hc : ¬ ChecksumOk (pre.map asciiLower) vs) :
    Address.fromCashAddr s = .err (.invalidCashAddr .invalidChecksum) := by
  apply fromCashAddr_err
  rw [raw_parts hs, h1]
  unfold parseParts
  rw [mapFromB32_letters _ hv 0]
  have hb : verifyChecksum (pre.map asciiLower) vs = false := by
    rw [← Bool.not_eq_true, verifyChecksum_iff _ _ hv]; exact hc
  simp only [Res.ofExcept_ok, Res.bind_ok, hb, Bool.not_false, if_true]

/-- **C29** (letters anywhere): take any accepted address string with a prefix of at most twelve letters
(both known prefixes have no more). Replacing between one and five letters, anywhere in the payload or the
prefix, by other letters makes parsing fail with a checksum error. (Changing the case of a letter is no
change; of a letter of the prefix only the low five bits count.) -/
theorem C29_substitutions (pre payload pre' payload' s s' : Bytes) (a : Address)
    (hs : CashParts s pre payload) (hs' : CashParts s' pre' payload')
    (hok : Address.fromCashAddr s = .ok a) (h12 : pre.length ≤ 12)
    (hpl : pre'.length = pre.length) (hl : payload'.length = payload.length)
    (halpha : ∀ c ∈ payload', asciiLowerSpec c ∈ cashAlphabet)
    (h1 : 1 ≤ changed (pre.map lowFive) (pre'.map lowFive) +
      changed (payload.map asciiLowerSpec) (payload'.map asciiLowerSpec))
    (h5 : changed (pre.map lowFive) (pre'.map lowFive) +
      changed (payload.map asciiLowerSpec) (payload'.map asciiLowerSpec) ≤ 5) :
    Address.fromCashAddr s' = .err (.invalidCashAddr .invalidChecksum) := by
  have hlow : asciiLowerSpec = asciiLower := by funext c; rw [lower_eq]
  rw [hlow] at h1 h5
  simp only [hlow] at halpha
  have hlen := (C31_canonical_partial s pre payload a hs hok).2.1
  obtain ⟨vs, e1, hv, hc⟩ := accepted_values hs hok
  obtain ⟨vs', hv', e1'⟩ := letters_of_alphabet (payload'.map asciiLower) (by
    intro c hc
    rw [List.mem_map] at hc
    obtain ⟨d, hd, e⟩ := hc
    rw [← e]; exact halpha d hd)
  have hvl : vs.length = payload.length := by simpa using (congrArg List.length e1).symm
  have hvl' : vs'.length = payload.length := by
    have := (congrArg List.length e1').symm
    simp only [List.length_map] at this
    omega
  have hch : changed (payload.map asciiLower) (payload'.map asciiLower) = changed vs vs' := by
    rw [e1, e1']
    exact changed_map (P := fun v => v.toNat < 32) (fun _ _ hx hy h => cashLetter_inj hx hy h) vs vs' hv hv'
  rw [hch] at h1 h5
  have hb : ∀ (pre vs : Bytes), (∀ v ∈ vs, v.toNat < 32) →
      ∀ v ∈ (pre.map lowFive ++ [0] ++ vs).map UInt8.toNat, v < 32 := by
    intro pre vs hv v hm
    simp only [List.mem_map, List.mem_append, List.mem_singleton] at hm
    obtain ⟨w, ((⟨c, _, rfl⟩ | rfl) | hw), rfl⟩ := hm
    · unfold lowFive; rw [ofNat_toNat_lt (by omega)]; omega
    · decide
    · exact hv w hw
  have hcc : changed (pre.map lowFive ++ [0] ++ vs) (pre'.map lowFive ++ [0] ++ vs') =
      changed (pre.map lowFive) (pre'.map lowFive) + changed vs vs' := by
    rw [changed_append _ _ _ _ (by simp [hpl]), changed_append _ _ _ _ (by simp [hpl])]
    simp [changed]
  refine wrong_checksum hs' e1' hv' ?_
  intro hc'
  unfold ChecksumOk at hc hc'
  rw [covered_eq] at hc hc'
  have := remainder_distance _ _ (hb pre vs hv) (hb pre' vs' hv')
    (by simp [hpl, hvl, hvl']) (by simp; omega) (by rw [countP_diff, hcc]; exact h5) (hc.trans hc'.symm)
  have heq : pre.map lowFive ++ [0] ++ vs = pre'.map lowFive ++ [0] ++ vs' :=
    List.map_inj_right (fun _ _ h => UInt8.toNat_inj.mp h) |>.mp this
  rw [heq, changed_self] at hcc
  omega

/-- **C29** (any bytes): replacing between one and five letters of the payload of an accepted address by
any others (not only letters of the alphabet) makes parsing fail. -/
theorem C29_typing_errors (pre payload payload' s s' : Bytes) (a : Address)
    (hs : CashParts s pre payload) (hs' : CashParts s' pre payload')
    (hok : Address.fromCashAddr s = .ok a) (h12 : pre.length ≤ 12) (hl : payload'.length = payload.length)
    (h1 : 1 ≤ changed (payload.map asciiLowerSpec) (payload'.map asciiLowerSpec))
    (h5 : changed (payload.map asciiLowerSpec) (payload'.map asciiLowerSpec) ≤ 5) :
    ∃ e, Address.fromCashAddr s' = .err (.invalidCashAddr e) := by
  by_cases halpha : ∀ c ∈ payload', asciiLowerSpec c ∈ cashAlphabet
  · exact ⟨_, C29_substitutions pre payload pre payload' s s' a hs hs' hok h12 rfl hl halpha
      (by rw [changed_self]; omega) (by rw [changed_self]; omega)⟩
  · have : ∃ c ∈ payload', asciiLowerSpec c ∉ cashAlphabet := by
      apply Classical.byContradiction
      intro hn
      apply halpha
      intro c hc
      apply Classical.byContradiction
      intro hm
      exact hn ⟨c, hc, hm⟩
    obtain ⟨i, c, _, _, h⟩ := C29_alphabet pre payload' s' hs' this
    exact ⟨_, h⟩

/-- A digit one for a letter. -/
example : ∃ e, Address.fromCashAddr
    (asciiBytes "bitcoincash:qqqqqqqqqqqqqqq1qqqqqqqqqqqqqqqqqqfnhks603".toList) = .err (.invalidCashAddr e) := by
  set_option maxRecDepth 100000 in
  exact C29_typing_errors (asciiBytes "bitcoincash".toList)
    (asciiBytes "qqqqqqqqqqqqqqqqqqqqqqqqqqqqqqqqqqfnhks603".toList)
    (asciiBytes "qqqqqqqqqqqqqqq1qqqqqqqqqqqqqqqqqqfnhks603".toList)
    (asciiBytes "bitcoincash:qqqqqqqqqqqqqqqqqqqqqqqqqqqqqqqqqqfnhks603".toList) _ _
    (.colon (asciiBytes "bitcoincash".toList) _ (by decide))
    (.colon (asciiBytes "bitcoincash".toList) _ (by decide)) rfl (by decide) (by decide) (by decide) (by decide)

/-- **C29** (five is the limit): these two strings are both accepted, as different hashes, and differ in
six letters. (The CashAddr specification promises to detect six wrong letters; its code does not.) -/
theorem C29_six_letters :
    ∃ a b, Address.fromCashAddr
        (asciiBytes "bitcoincash:qqqqqqqqqqqqqqqqqqqqqqqqqqqqqqqqqqfnhks603".toList) = .ok a ∧
      Address.fromCashAddr
        (asciiBytes "bitcoincash:qqqqqqpqqqqaqqqqqqqqqqqqqhqqqqqqqqfn9ks6up".toList) = .ok b ∧
      a.hash ≠ b.hash ∧
      changed (asciiBytes "bitcoincash:qqqqqqqqqqqqqqqqqqqqqqqqqqqqqqqqqqfnhks603".toList)
        (asciiBytes "bitcoincash:qqqqqqpqqqqaqqqqqqqqqqqqqhqqqqqqqqfn9ks6up".toList) = 6 := by
  set_option maxRecDepth 100000 in
  refine ⟨_, _, rfl, rfl, by decide, by decide⟩

/-- **C29** (wrong network): an address of one network is rejected with the prefix of the other. -/
theorem C29_network (p q : Prefix) (hpq : p ≠ q) (payload payload' s s' : Bytes) (a : Address)
    (hs : CashParts s p.str payload) (hs' : CashParts s' q.str payload')
    (hok : Address.fromCashAddr s = .ok a)
    (he : payload'.map asciiLowerSpec = payload.map asciiLowerSpec) :
    Address.fromCashAddr s' = .err (.invalidCashAddr .invalidChecksum) := by
  have hlow : asciiLowerSpec = asciiLower := by funext c; rw [lower_eq]
  rw [hlow] at he
  obtain ⟨vs, e1, hv, hc⟩ := accepted_values hs hok
  refine wrong_checksum hs' (he.trans e1) hv ?_
  intro hc'
  rw [← verifyChecksum_iff _ _ hv] at hc hc'
  unfold verifyChecksum polyMod at hc hc'
  rw [beq_iff_eq, UInt64.xor_eq_zero_iff, List.foldl_append] at hc hc'
  have hlt : ∀ pre : Bytes, ((prefixValues pre).foldl polyStep 1).toNat < 2 ^ 40 :=
    fun pre => polyFold_lt _ _ (by decide)
  have := polyFold_inj vs _ _ (hlt _) (hlt _) (hc.trans hc'.symm)
  cases p <;> cases q
  · exact hpq rfl
  · revert this; decide +kernel
  · revert this; decide +kernel
  · exact hpq rfl

/-! ## The hypotheses are met -/

/-- Five letters of an accepted address changed (three of the payload, two of the prefix). -/
example : Address.fromCashAddr
    (asciiBytes "bitcoinsalh:pqqqqqqqqqqqqqqqzqqqqqqqqqqqqqqqqqfnhks6q3".toList) =
      .err (.invalidCashAddr .invalidChecksum) := by
  set_option maxRecDepth 100000 in
  exact C29_substitutions (asciiBytes "bitcoincash".toList)
    (asciiBytes "qqqqqqqqqqqqqqqqqqqqqqqqqqqqqqqqqqfnhks603".toList) (asciiBytes "bitcoinsalh".toList)
    (asciiBytes "pqqqqqqqqqqqqqqqzqqqqqqqqqqqqqqqqqfnhks6q3".toList)
    (asciiBytes "bitcoincash:qqqqqqqqqqqqqqqqqqqqqqqqqqqqqqqqqqfnhks603".toList) _ _
    (.colon (asciiBytes "bitcoincash".toList) _ (by decide))
    (.colon (asciiBytes "bitcoinsalh".toList) _ (by decide)) rfl (by decide) (by decide) (by decide) (by decide)
    (by decide) (by decide)

/-- The zero address with the other prefix. -/
example : Address.fromCashAddr
    (asciiBytes "simpleledger:qqqqqqqqqqqqqqqqqqqqqqqqqqqqqqqqqqfnhks603".toList) =
      .err (.invalidCashAddr .invalidChecksum) := by
  set_option maxRecDepth 100000 in
  exact C29_network .bitcoinCash .simpleLedger (by decide)
    (asciiBytes "qqqqqqqqqqqqqqqqqqqqqqqqqqqqqqqqqqfnhks603".toList) _
    (asciiBytes "bitcoincash:qqqqqqqqqqqqqqqqqqqqqqqqqqqqqqqqqqfnhks603".toList) _ _
    (.colon (Prefix.str .bitcoinCash) _ (by decide)) (.colon (Prefix.str .simpleLedger) _ (by decide)) rfl rfl

end BCash
