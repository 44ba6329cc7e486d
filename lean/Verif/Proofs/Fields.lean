import Verif.Proofs.Named
import Verif.Spec.Separated

/-! # Field values and the condition of a variant -/

namespace BCash
open Spec Spec.Named Macro

namespace GenProofs

/-- An item with a name in the conjunction has the truth value it asks for. -/
def Truthful (c : List Atom) (i : LItem) : Prop :=
  ∀ a ∈ c, i.name = some a.varName → Vm.truthy i.value = a.isPositive

def TruthfulState (c : List Atom) (s : LState) : Prop :=
  (∀ i ∈ s.stack, Truthful c i) ∧ ∀ i ∈ s.alt, Truthful c i

theorem renameOne_cases {written : Option (List String)} {name n' : Option String}
    (h : renameOne written name = some n') : (written = none ∧ n' = name) ∨ ∃ w, written = some [w] ∧ n' = some w := by
  unfold renameOne at h
  split at h
  · cases h; exact .inl ⟨rfl, rfl⟩
  · next w => cases h; exact .inr ⟨w, rfl, rfl⟩
  · cases h

theorem rename_cases {written : Option (List String)} {names ns : List (Option String)}
    (h : rename written names = some ns) : ns.length = names.length ∧ ∀ (i : Nat) (n : Option String), ns[i]? = some n →
      names[i]? = some n ∨ ∃ ws w, written = some ws ∧ ws[i]? = some w ∧ n = some w := by
  unfold rename at h
  split at h
  · cases h; exact ⟨rfl, fun i n h => .inl h⟩
  · next ws =>
    split at h
    · next hl =>
      cases h
      refine ⟨by simp [hl], fun i n h => ?_⟩
      rw [List.getElem?_zipWith] at h
      cases hw : ws[i]? with
      | none => rw [hw] at h; cases h
      | some w =>
        cases hn : names[i]? with
        | none => rw [hw, hn] at h; cases h
        | some m =>
          rw [hw, hn] at h
          simp only [Option.some.injEq] at h
          split at h
          · exact .inl (by rw [h])
          · exact .inr ⟨ws, w, rfl, hw, h.symm⟩
    · cases h

theorem leafGives_cases {x : String} {head : Head} {args : Option (List OpcodeInput)} {ws : List String}
    (h : leafGives x (.opcode ⟨head, args, some ws⟩) = false) (i : Nat) (hi : ws[i]? = some x) :
    finds x head args i = true := by
  simp only [leafGives, List.any_eq_false, Bool.and_eq_true, Bool.not_eq_true', not_and, Bool.not_eq_false] at h
  exact h (x, i) (List.mem_zipIdx_iff_getElem?.mpr hi) (by simp)

theorem argsOk_get {args : List OpcodeInput} {names : List (Option String)} (h : argsOk (some args) names = true)
    {j : Nat} {x : String} (hx : x ≠ "__") (ha : args[j]? = some (.ident x)) : names[j]? = some (some x) := by
  simp only [argsOk, Bool.and_eq_true, beq_iff_eq, List.all_eq_true] at h
  have hj : j < names.length := by
    rw [← h.1]
    exact (List.getElem?_eq_some_iff.mp ha).1
  have := h.2 (.ident x, names[j]) (by
    rw [List.mem_iff_getElem?]
    exact ⟨j, by rw [List.getElem?_zip_eq_some]; exact ⟨ha, List.getElem?_eq_getElem hj⟩⟩)
  simp only [argOk, Bool.or_eq_true, beq_iff_eq, hx, false_or] at this
  rw [List.getElem?_eq_getElem hj, this]

theorem ordinary_truthful {env : Vm.Env} {o : Opcode} {i : Option (List OpcodeInput)} {out : Option (List String)}
    {c : List Atom} {s s' : LState}
    (hsp : o ≠ .OP_PICK ∧ o ≠ .OP_ROLL ∧ o ≠ .OP_TOALTSTACK ∧ o ≠ .OP_FROMALTSTACK)
    (h : ordinary env o ⟨.op o, i, out⟩ s = .ok s')
    (hc : ∀ a ∈ c, a.varName ≠ "__" ∧ leafGives a.varName (.opcode ⟨.op o, i, out⟩) = false)
    (hs : TruthfulState c s) : TruthfulState c s' := by
  unfold ordinary at h
  dsimp only at h
  split at h
  · cases h
  next hlen =>
  split at h
  · cases h
  next hargs =>
  simp only [Bool.not_eq_true', Bool.not_eq_false] at hargs
  split at h
  · cases h
  next ns hr =>
  obtain ⟨hl, hns⟩ := rename_cases hr
  split at h
  · cases h
  next st hm =>
  cases h
  refine ⟨fun it hit => ?_, hs.2⟩
  replace hit := List.mem_append.mp hit
  rcases hit with hit | hit
  swap
  · exact hs.1 it (List.mem_of_mem_drop hit)
  by_cases hif : o = .OP_IFDUP
  · subst hif
    have : ns = [] := List.eq_nil_of_length_eq_zero (by rw [hl]; rfl)
    subst this
    simp at hit
  have hspec : NamedProofs.special o = false := by
    obtain ⟨h1, h2, h3, h4⟩ := hsp
    unfold NamedProofs.special
    split <;> first | contradiction | rfl
  obtain ⟨ins, outs, rest, e1, e2, e3, e4⟩ := NamedProofs.main_flow env o hspec _ _ hm
  have hol : outs.length = ns.length := by
    rw [hl, List.length_map, e4.length_eq, List.length_reverse]
  have htake : ins = (s.stack.take (flow o).1).map LItem.value := by
    rw [List.map_take, e1, List.take_left' e3]
  rw [e2] at hit
  have hz : List.zipWith LItem.mk (outs ++ rest) ns.reverse = (List.zipWith LItem.mk outs.reverse ns).reverse := by
    have : ns.reverse = ns.reverse ++ [] := by simp
    rw [this, List.zipWith_append (by simp [hol])]
    rw [List.reverse_zipWith (by simp [hol])]
    simp
  rw [hz, List.mem_reverse] at hit
  obtain ⟨k, hk⟩ := List.mem_iff_getElem?.mp hit
  rw [List.getElem?_zipWith] at hk
  cases hv : outs.reverse[k]? with
  | none => rw [hv] at hk; cases hk
  | some value =>
  cases hn : ns[k]? with
  | none => rw [hv, hn] at hk; cases hk
  | some n =>
  rw [hv, hn] at hk
  simp only [Option.some.injEq] at hk
  subst hk
  intro a ha hname
  dsimp only at hname ⊢
  subst hname
  have key : ∀ j, (flow o).2[k]? = some (some j) →
      ((s.stack.take (flow o).1).reverse.map LItem.name)[j]? = some (some a.varName) →
      Vm.truthy value = a.isPositive := by
    intro j h1 h2
    have hval : ins.reverse[j]? = some value := by
      obtain ⟨h5, h6⟩ := List.getElem?_eq_some_iff.mp h1
      obtain ⟨h7, h8⟩ := List.getElem?_eq_some_iff.mp hv
      have := (List.forall₂_iff_get.mp e4).2 k h5 h7
      simp only [List.get_eq_getElem] at this
      rw [← h8]
      exact this j h6
    rw [htake, ← List.map_reverse, List.getElem?_map] at hval
    rw [List.getElem?_map] at h2
    obtain ⟨it, h3, h4⟩ := Option.map_eq_some_iff.mp h2
    rw [h3] at hval
    simp only [Option.map_some, Option.some.injEq] at hval
    have hmem : it ∈ s.stack :=
      List.mem_of_mem_take (List.mem_reverse.mp (List.mem_of_getElem? h3))
    rw [← hval]
    exact hs.1 it hmem a ha h4
  rcases hns k _ hn with hn | ⟨ws, w, hw, hwk, hwn⟩
  · rw [List.getElem?_map] at hn
    cases hfl : (flow o).2[k]? with
    | none => rw [hfl] at hn; cases hn
    | some oj =>
      rw [hfl] at hn
      simp only [Option.map_some, Option.some.injEq] at hn
      obtain ⟨j, hj, hn'⟩ := Option.bind_eq_some_iff.mp hn
      subst hj
      obtain ⟨it, h3, h4⟩ := Option.bind_eq_some_iff.mp hn'
      exact key j hfl (by rw [List.getElem?_map, h3, Option.map_some, h4])
  · cases hwn
    subst hw
    obtain ⟨hne, hg⟩ := hc a ha
    have hf := leafGives_cases hg k hwk
    unfold finds at hf
    split at hf
    · next _ heq => exact absurd (Head.op.inj heq) hsp.2.2.1
    · next _ heq => exact absurd (Head.op.inj heq) hsp.2.2.2
    · next o' as _ _ heq =>
      cases heq
      split at hf
      · next j hj =>
        split at hf
        · next y hy =>
          simp only [beq_iff_eq] at hf
          subst hf
          exact key j hj (argsOk_get hargs hne hy)
        · cases hf
      · cases hf
    · cases hf

theorem leaf_truthful {env : Vm.Env} {l : Leaf} {c : List Atom} {s s' : LState} (h : Named.leaf env l s = .ok s')
    (hc : ∀ a ∈ c, a.varName ≠ "__" ∧ leafGives a.varName l = false)
    (hs : TruthfulState c s) : TruthfulState c s' := by
  have fresh : ∀ (value : Bytes) (name : Option String), (∀ a ∈ c, name ≠ some a.varName) → Truthful c ⟨value, name⟩ :=
    fun value name h a ha hn => absurd hn (h a ha)
  cases l with
  | forLoop => cases h
  | rustIf => cases h
  | push op name =>
    simp only [Named.leaf] at h
    split at h
    · cases h
      refine ⟨fun i hi => ?_, hs.2⟩
      rcases List.mem_cons.mp hi with rfl | hi
      · exact fresh _ _ fun a ha hn => by have := (hc a ha).2; simp [leafGives, hn] at this
      · exact hs.1 i hi
    · cases h
  | opcode stmt =>
    obtain ⟨head, i, out⟩ := stmt
    have moved : ∀ (top : LItem) (n : Option String), Truthful c top → nameIs i top.name = true →
        (head = .op .OP_TOALTSTACK ∨ head = .op .OP_FROMALTSTACK) → renameOne out top.name = some n →
        Truthful c ⟨top.value, n⟩ := by
      intro top n ht hi hh hr a ha hn
      rcases renameOne_cases hr with ⟨_, rfl⟩ | ⟨w, rfl, rfl⟩
      · exact ht a ha hn
      · cases hn
        have := leafGives_cases (hc a ha).2 0 rfl
        have hin : ∃ b, i = some [b] ∧ b.toString = a.varName := by
          match i, this with
          | none, this => rcases hh with rfl | rfl <;> simp [finds] at this
          | some [], this => rcases hh with rfl | rfl <;> simp [finds, flow] at this
          | some [b], this => exact ⟨b, rfl, by rcases hh with rfl | rfl <;> simpa [finds] using this⟩
          | some (_ :: _ :: _), this => rcases hh with rfl | rfl <;> simp [finds, flow] at this
        obtain ⟨b, rfl, hb⟩ := hin
        simp only [nameIs, beq_iff_eq] at hi
        exact ht a ha (by rw [hi, hb])
    have given : ∀ (item : LItem) (n : Option String), Truthful c item →
        (∀ x k, finds x head i k = false) → renameOne out item.name = some n →
        Truthful c ⟨item.value, n⟩ := by
      intro item n ht hf hr a ha hn
      rcases renameOne_cases hr with ⟨_, rfl⟩ | ⟨w, rfl, rfl⟩
      · exact ht a ha hn
      · cases hn
        have := leafGives_cases (hc a ha).2 0 rfl
        rw [hf] at this
        cases this
    have pr : ∀ isRoll, (∀ x k, finds x head i k = false) → pickRoll isRoll ⟨head, i, out⟩ s = .ok s' →
        TruthfulState c s' := by
      intro isRoll hf h
      unfold pickRoll at h
      split at h
      · cases h
      next top st hst =>
      have hs : (∀ i ∈ top :: st, Truthful c i) ∧ ∀ i ∈ s.alt, Truthful c i := by rw [← hst]; exact hs
      split at h
      · cases h
      split at h
      · cases h
      split at h
      · cases h
      split at h
      · cases h
      next n _ _ item hitem =>
      split at h
      · cases h
      next name hr =>
      cases h
      have hit := List.mem_of_getElem? hitem
      refine ⟨fun j hj => ?_, hs.2⟩
      rcases List.mem_cons.mp hj with rfl | hj
      · exact given item name (hs.1 item (List.mem_cons_of_mem _ hit)) hf hr
      · split at hj
        · exact hs.1 j (List.mem_cons_of_mem _ (List.mem_of_mem_eraseIdx hj))
        · exact hs.1 j (List.mem_cons_of_mem _ hj)
    have dep : ∀ x off, (∀ x k, finds x head i k = false) → depthOf x off ⟨head, i, out⟩ s = .ok s' →
        TruthfulState c s' := by
      intro x off hf h
      unfold depthOf at h
      split at h
      · cases h
      split at h
      · cases h
      next name hr =>
      cases h
      refine ⟨fun j hj => ?_, hs.2⟩
      rcases List.mem_cons.mp hj with rfl | hj
      · exact given ⟨_, none⟩ name (fun a ha hn => by cases hn) hf hr
      · exact hs.1 j hj
    unfold Named.leaf at h
    dsimp only at h
    split at h
    · split at h
      · cases h
      next top st hst =>
      have hs : (∀ i ∈ top :: st, Truthful c i) ∧ ∀ i ∈ s.alt, Truthful c i := by rw [← hst]; exact hs
      split at h
      · cases h
      next hi =>
      split at h
      · cases h
      next n hr =>
      cases h
      refine ⟨fun j hj => hs.1 j (List.mem_cons_of_mem _ hj), fun j hj => ?_⟩
      rcases List.mem_cons.mp hj with rfl | hj
      · exact moved top n (hs.1 top (List.mem_cons_self ..)) (by simpa using hi) (.inl rfl) hr
      · exact hs.2 j hj
    · split at h
      · cases h
      next top st hst =>
      have hs : (∀ i ∈ s.stack, Truthful c i) ∧ ∀ i ∈ top :: st, Truthful c i := by rw [← hst]; exact hs
      split at h
      · cases h
      next hi =>
      split at h
      · cases h
      next n hr =>
      cases h
      refine ⟨fun j hj => ?_, fun j hj => hs.2 j (List.mem_cons_of_mem _ hj)⟩
      rcases List.mem_cons.mp hj with rfl | hj
      · exact moved top n (hs.2 top (List.mem_cons_self ..)) (by simpa using hi) (.inr rfl) hr
      · exact hs.1 j hj
    · exact pr false (fun x k => by cases i <;> simp [finds, flow]) h
    · exact pr true (fun x k => by cases i <;> simp [finds, flow]) h
    · next o _ h1 h2 h3 h4 =>
      refine ordinary_truthful ⟨?_, ?_, ?_, ?_⟩ h hc hs <;> (rintro rfl; simp_all)
    · exact dep _ _ (fun x k => by simp [finds]) h
    · exact dep _ _ (fun x k => by simp [finds]) h
    · split at h
      · cases h; exact hs
      · cases h
    · cases h

theorem exec_truthful {env : Vm.Env} {p : Prog} {c : List Atom} {s s' : LState} (h : exec env p s = .ok s')
    (hc : ∀ a ∈ c, a.varName ≠ "__" ∧ gives a.varName p = false) (hs : TruthfulState c s) : TruthfulState c s' := by
  induction p generalizing s s' with
  | nil => cases h; exact hs
  | leaf l rest ih =>
    simp only [gives, Bool.or_eq_false_iff] at hc
    simp only [exec] at h
    cases hl : Named.leaf env l s with
    | ok s1 =>
      rw [hl] at h
      exact ih h (fun a ha => ⟨(hc a ha).1, (hc a ha).2.2⟩)
        (leaf_truthful hl (fun a ha => ⟨(hc a ha).1, (hc a ha).2.1⟩) hs)
    | fail => rw [hl] at h; cases h
    | mismatch => rw [hl] at h; cases h
    | undecided => rw [hl] at h; cases h
  | scriptIf i t e el en rest iht ihe ihr =>
    simp only [gives, Bool.or_eq_false_iff] at hc
    simp only [exec] at h
    split at h
    · next x top st _ hst =>
      have hs1 : TruthfulState c ⟨st, s.alt⟩ :=
        ⟨fun j hj => hs.1 j (by rw [hst]; exact List.mem_cons_of_mem _ hj), hs.2⟩
      split at h
      · cases h
      · split at h
        · cases hb : exec env t ⟨st, s.alt⟩ with
          | ok s1 =>
            rw [hb] at h
            exact ihr h (fun a ha => ⟨(hc a ha).1, (hc a ha).2.2⟩)
              (iht hb (fun a ha => ⟨(hc a ha).1, (hc a ha).2.1.1⟩) hs1)
          | fail => rw [hb] at h; cases h
          | mismatch => rw [hb] at h; cases h
          | undecided => rw [hb] at h; cases h
        · cases hb : exec env el ⟨st, s.alt⟩ with
          | ok s1 =>
            rw [hb] at h
            exact ihr h (fun a ha => ⟨(hc a ha).1, (hc a ha).2.2⟩)
              (ihe hb (fun a ha => ⟨(hc a ha).1, (hc a ha).2.1.2⟩) hs1)
          | fail => rw [hb] at h; cases h
          | mismatch => rw [hb] at h; cases h
          | undecided => rw [hb] at h; cases h
    · cases h
    · cases h

theorem execFrom_truthful {envAt : Nat → Vm.Env} {p : Prog} {c : List Atom} {passed : Nat} {env env' : Vm.Env}
    {s s' : LState} (h : execFrom envAt p passed env s = (.ok s', env'))
    (hc : ∀ a ∈ c, a.varName ≠ "__" ∧ gives a.varName p = false) (hs : TruthfulState c s) : TruthfulState c s' := by
  induction p generalizing s passed env env' s' with
  | nil => cases h; exact hs
  | leaf l rest ih =>
    simp only [gives, Bool.or_eq_false_iff] at hc
    simp only [execFrom] at h
    cases hl : Named.leaf env l s with
    | ok s1 =>
      rw [hl] at h
      have h1 := leaf_truthful hl (fun a ha => ⟨(hc a ha).1, (hc a ha).2.1⟩) hs
      split at h
      · exact ih h (fun a ha => ⟨(hc a ha).1, (hc a ha).2.2⟩) h1
      · exact ih h (fun a ha => ⟨(hc a ha).1, (hc a ha).2.2⟩) h1
    | fail => rw [hl] at h; split at h <;> cases h
    | mismatch => rw [hl] at h; split at h <;> cases h
    | undecided => rw [hl] at h; split at h <;> cases h
  | scriptIf i t e el en rest iht ihe ihr =>
    simp only [gives, Bool.or_eq_false_iff] at hc
    simp only [execFrom] at h
    split at h
    · next x top st _ hst =>
      have hs1 : TruthfulState c ⟨st, s.alt⟩ :=
        ⟨fun j hj => hs.1 j (by rw [hst]; exact List.mem_cons_of_mem _ hj), hs.2⟩
      split at h
      · cases h
      · split at h
        · cases hb : execFrom envAt t passed env ⟨st, s.alt⟩ with
          | mk r env1 =>
            rw [hb] at h
            cases r with
            | ok s1 =>
              exact ihr h (fun a ha => ⟨(hc a ha).1, (hc a ha).2.2⟩)
                (iht hb (fun a ha => ⟨(hc a ha).1, (hc a ha).2.1.1⟩) hs1)
            | fail => cases h
            | mismatch => cases h
            | undecided => cases h
        · cases hb : execFrom envAt el (passed + separators t) env ⟨st, s.alt⟩ with
          | mk r env1 =>
            rw [hb] at h
            cases r with
            | ok s1 =>
              exact ihr h (fun a ha => ⟨(hc a ha).1, (hc a ha).2.2⟩)
                (ihe hb (fun a ha => ⟨(hc a ha).1, (hc a ha).2.1.2⟩) hs1)
            | fail => cases h
            | mismatch => cases h
            | undecided => cases h
    · cases h
    · cases h

/-- The branches taken around a statement do not contradict the conjunction. -/
def Agrees (c : List Atom) (known : List Atom) : Prop :=
  ∀ k ∈ known, ∀ a ∈ c, k.varName = a.varName → k.isPositive = a.isPositive

theorem agrees_holds {cond : Predicate} {c known : List Atom} (hc : c ∈ cond) (h : Agrees c known) :
    cond.holds known = true := by
  unfold Predicate.holds
  simp only [Bool.or_eq_true, List.any_eq_true, List.all_eq_true, bne_iff_ne, ne_eq, beq_iff_eq]
  refine .inr ⟨c, hc, fun a ha k hk => ?_⟩
  by_cases hv : k.varName = a.varName
  · exact .inr (h k hk a ha hv)
  · exact .inl hv

theorem agrees_push {c known : List Atom} {x : String} {top : LItem} (h : Agrees c known)
    (hc : ∀ a ∈ c, a.varName ≠ "__") (ht : Truthful c top) (ha : argOk (.ident x) top.name = true) :
    Agrees c (known ++ [⟨x, Vm.truthy top.value⟩]) := by
  intro k hk a hm hv
  rcases List.mem_append.mp hk with hk | hk
  · exact h k hk a hm hv
  · simp only [List.mem_cons, List.not_mem_nil, or_false] at hk
    subst hk
    dsimp only at hv ⊢
    subst hv
    simp only [argOk, Bool.or_eq_true, beq_iff_eq, hc a hm, false_or] at ha
    exact ht a hm ha

theorem obeys_of_truthful {env : Vm.Env} {cond : Predicate} {c : List Atom} (hcm : c ∈ cond) {p : Prog}
    {known : List Atom} {s : LState} (hk : Agrees c known)
    (hc : ∀ a ∈ c, a.varName ≠ "__" ∧ gives a.varName p = false) (hs : TruthfulState c s) :
    Obeys env cond p known s := by
  induction p generalizing known s with
  | nil => trivial
  | leaf l rest ih =>
    simp only [gives, Bool.or_eq_false_iff] at hc
    intro s' hl
    exact ih hk (fun a ha => ⟨(hc a ha).1, (hc a ha).2.2⟩)
      (leaf_truthful hl (fun a ha => ⟨(hc a ha).1, (hc a ha).2.1⟩) hs)
  | scriptIf i t e el en rest iht ihe ihr =>
    simp only [gives, Bool.or_eq_false_iff] at hc
    intro x top st _ hst ha
    have hs1 : TruthfulState c ⟨st, s.alt⟩ :=
      ⟨fun j hj => hs.1 j (by rw [hst]; exact List.mem_cons_of_mem _ hj), hs.2⟩
    have hag := agrees_push hk (fun a ha => (hc a ha).1) (hs.1 top (by rw [hst]; exact List.mem_cons_self ..)) ha
    refine ⟨agrees_holds hcm hag, ?_⟩
    split
    · next hb =>
      rw [hb] at hag
      exact ⟨iht hag (fun a ha => ⟨(hc a ha).1, (hc a ha).2.1.1⟩) hs1, fun s' h =>
        ihr hk (fun a ha => ⟨(hc a ha).1, (hc a ha).2.2⟩)
          (exec_truthful h (fun a ha => ⟨(hc a ha).1, (hc a ha).2.1.1⟩) hs1)⟩
    · next hb =>
      rw [Bool.not_eq_true] at hb
      rw [hb] at hag
      exact ⟨ihe hag (fun a ha => ⟨(hc a ha).1, (hc a ha).2.1.2⟩) hs1, fun s' h =>
        ihr hk (fun a ha => ⟨(hc a ha).1, (hc a ha).2.2⟩)
          (exec_truthful h (fun a ha => ⟨(hc a ha).1, (hc a ha).2.1.2⟩) hs1)⟩

theorem obeysFrom_of_truthful {envAt : Nat → Vm.Env} {cond : Predicate} {c : List Atom} (hcm : c ∈ cond) {p : Prog}
    {passed : Nat} {known : List Atom} {env : Vm.Env} {s : LState} (hk : Agrees c known)
    (hc : ∀ a ∈ c, a.varName ≠ "__" ∧ gives a.varName p = false) (hs : TruthfulState c s) :
    ObeysFrom envAt cond p passed known env s := by
  induction p generalizing known s passed env with
  | nil => trivial
  | leaf l rest ih =>
    simp only [gives, Bool.or_eq_false_iff] at hc
    intro s' hl
    have h1 := leaf_truthful hl (fun a ha => ⟨(hc a ha).1, (hc a ha).2.1⟩) hs
    split
    · exact ih hk (fun a ha => ⟨(hc a ha).1, (hc a ha).2.2⟩) h1
    · exact ih hk (fun a ha => ⟨(hc a ha).1, (hc a ha).2.2⟩) h1
  | scriptIf i t e el en rest iht ihe ihr =>
    simp only [gives, Bool.or_eq_false_iff] at hc
    intro x top st _ hst ha
    have hs1 : TruthfulState c ⟨st, s.alt⟩ :=
      ⟨fun j hj => hs.1 j (by rw [hst]; exact List.mem_cons_of_mem _ hj), hs.2⟩
    have hag := agrees_push hk (fun a ha => (hc a ha).1) (hs.1 top (by rw [hst]; exact List.mem_cons_self ..)) ha
    refine ⟨agrees_holds hcm hag, ?_⟩
    split
    · next hb =>
      rw [hb] at hag
      exact ⟨iht hag (fun a ha => ⟨(hc a ha).1, (hc a ha).2.1.1⟩) hs1, fun s' env' h =>
        ihr hk (fun a ha => ⟨(hc a ha).1, (hc a ha).2.2⟩)
          (execFrom_truthful h (fun a ha => ⟨(hc a ha).1, (hc a ha).2.1.1⟩) hs1)⟩
    · next hb =>
      rw [Bool.not_eq_true] at hb
      rw [hb] at hag
      exact ⟨ihe hag (fun a ha => ⟨(hc a ha).1, (hc a ha).2.1.2⟩) hs1, fun s' env' h =>
        ihr hk (fun a ha => ⟨(hc a ha).1, (hc a ha).2.2⟩)
          (execFrom_truthful h (fun a ha => ⟨(hc a ha).1, (hc a ha).2.1.2⟩) hs1)⟩

theorem start_truthful {c : List Atom} {names : List String} {values : List Bytes}
    (h : ∀ a ∈ c, ∀ field ∈ names.zip values, field.1 = a.varName → Vm.truthy field.2 = a.isPositive) :
    TruthfulState c (start names values) := by
  refine ⟨fun i hi => ?_, fun i hi => by cases hi⟩
  simp only [start, List.mem_reverse] at hi
  obtain ⟨k, hk⟩ := List.mem_iff_getElem?.mp hi
  rw [List.getElem?_zipWith] at hk
  cases hv : values[k]? with
  | none => rw [hv] at hk; cases hk
  | some value =>
  cases hn : names[k]? with
  | none => rw [hv, hn] at hk; cases hk
  | some n =>
  rw [hv, hn] at hk
  simp only [Option.some.injEq] at hk
  subst hk
  intro a ha hname
  exact h a ha (n, value) (List.mem_iff_getElem?.mpr ⟨k, List.getElem?_zip_eq_some.mpr ⟨hn, hv⟩⟩)
    (Option.some.inj hname)

theorem stable_conj {cond : Predicate} {p : Prog} (h : stable cond p = true) {c : List Atom} (hc : c ∈ cond) :
    ∀ a ∈ c, a.varName ≠ "__" ∧ gives a.varName p = false := by
  intro a ha
  simp only [stable, List.all_eq_true, Bool.and_eq_true, bne_iff_ne, Bool.not_eq_true'] at h
  exact h c hc a ha

end GenProofs
end BCash
