import Verif.Proofs.MacroNames

/-! # Whole scripts: tracked names against execution with names -/

namespace BCash
open Spec Spec.Macro Spec.Named Macro ExecProofs

namespace GenProofs

/-! ### Tokens -/

theorem run_op (env : Vm.Env) (b : UInt8) (h1 : b ≠ 0x63) (h2 : b ≠ 0x64) (h3 : b ≠ 0x65) (h4 : b ≠ 0x66)
    (h5 : b ≠ 0x67) (h6 : b ≠ 0x68) (ts : List Token) (ex : List Bool) (s : Vm.State) :
    Vm.run env (.op b :: ts) ex s =
      if ex.all id then (Vm.step env b s).bind fun s => Vm.run env ts ex s else Vm.run env ts ex s := by
  rw [Vm.run.eq_def]
  dsimp only
  rw [if_neg (by simp [h1, h2]), if_neg h5, if_neg h6, if_neg (by simp [h3, h4])]

/-- A plain operation is one token. -/
theorem plain_token (env : Vm.Env) (op : Op Bytes) (hp : Plain op) :
    ∃ t : Token, t.Valid ∧ serializeOp op = .ok t.encode ∧
      (op ≠ .code .OP_CODESEPARATOR → t ≠ .op 0xab) ∧
      ∀ ts ex s, Vm.run env (t :: ts) ex s =
        if ex.all id then (execOp env op s).bind (Vm.run env ts ex) else Vm.run env ts ex s := by
  obtain ⟨hw, ⟨d, hd⟩ | ⟨o, rfl, h1, h2, h3, h4, h5, h6⟩⟩ := hp
  · obtain ⟨t, q1, q2, q3⟩ := push_token op d hw hd
    refine ⟨t, q1, q2, ?_, ?_⟩
    · rintro _ rfl
      exact absurd q3 (by simp [Token.stackItem])
    intro ts ex s
    rw [run_push env t d q3]
    have : execOp env op s = some ⟨d :: s.stack, s.alt⟩ := by
      cases op with
      | code o => cases hd
      | _ => simp only [execOp, hd, Option.map_some]
    rw [this]
    rfl
  · refine ⟨.op o.toByte, ?_, rfl, ?_, ?_⟩
    rotate_left
    · intro hne hc
      apply hne
      have : ∀ o : Opcode, o.toByte = 0xab → o = .OP_CODESEPARATOR := by
        intro o; cases o <;> decide
      rw [this o (by injection hc)]
    rotate_left
    · obtain ⟨w1, w2, w3⟩ := hw
      have : ∀ o : Opcode, o ≠ .OP_PUSHDATA1 → o ≠ .OP_PUSHDATA2 → o ≠ .OP_PUSHDATA4 →
          o.toByte = 0 ∨ 0x4f ≤ o.toByte.toNat := by
        intro o h1 h2 h3
        cases o <;> first | exact absurd rfl h1 | exact absurd rfl h2 | exact absurd rfl h3 |
          decide
      exact this o w1 w2 w3
    · intro ts ex s
      rw [run_op env _ h1 h2 h3 h4 h5 h6]
      rfl

theorem encode_append (a b : List Token) : encodeTokens (a ++ b) = encodeTokens a ++ encodeTokens b := by
  simp [encodeTokens]

theorem serializeOps_append {a b : List (Op Bytes)} {x y : Bytes} (h1 : serializeOps a = .ok x)
    (h2 : serializeOps b = .ok y) : serializeOps (a ++ b) = .ok (x ++ y) := by
  induction a generalizing x with
  | nil => cases h1; simpa using h2
  | cons op ops ih =>
    simp only [serializeOps, Res.bind_eq_ok, Res.ok.injEq] at h1
    obtain ⟨p, hp, q, hq, rfl⟩ := h1
    simp only [List.cons_append, serializeOps, hp, ih hq, Res.bind_ok, List.append_assoc]

/-- What a piece of a script is: tokens, skipped in branches not taken. -/
structure Code (env : Vm.Env) (ops : List (Op Bytes)) (ts : List Token) : Prop where
  valid : ∀ t ∈ ts, t.Valid
  bytes : serializeOps ops = .ok (encodeTokens ts)
  skip : ∀ rest ex s, ex.all id = false → Vm.run env (ts ++ rest) ex s = Vm.run env rest ex s
  sep : (∀ op ∈ ops, op ≠ .code .OP_CODESEPARATOR) → ∀ t ∈ ts, t ≠ .op 0xab

theorem Code.nil (env : Vm.Env) : Code env [] [] := ⟨by simp, rfl, by simp, by simp⟩

theorem Code.append {env : Vm.Env} {a b : List (Op Bytes)} {x y : List Token} (h1 : Code env a x)
    (h2 : Code env b y) : Code env (a ++ b) (x ++ y) where
  valid t ht := by
    rcases List.mem_append.mp ht with h | h
    · exact h1.valid t h
    · exact h2.valid t h
  bytes := by rw [encode_append]; exact serializeOps_append h1.bytes h2.bytes
  skip rest ex s h := by rw [List.append_assoc, h1.skip _ _ _ h, h2.skip _ _ _ h]
  sep h t ht := by
    rcases List.mem_append.mp ht with q | q
    · exact h1.sep (fun op ho => h op (List.mem_append_left _ ho)) t q
    · exact h2.sep (fun op ho => h op (List.mem_append_right _ ho)) t q

/-- Plain operations. -/
theorem plain_code_tokens (env : Vm.Env) (ops : List (Op Bytes)) (h : ∀ op ∈ ops, Plain op) :
    ∃ ts, Code env ops ts ∧ ∀ rest ex s, ex.all id = true →
      Vm.run env (ts ++ rest) ex s = (execOps env ops s).bind (Vm.run env rest ex) := by
  induction ops with
  | nil => exact ⟨[], Code.nil env, by simp [execOps]⟩
  | cons op ops ih =>
    obtain ⟨t, q1, q2, q4, q3⟩ := plain_token env op (h op (by simp))
    obtain ⟨ts, c, hr⟩ := ih fun o ho => h o (by simp [ho])
    refine ⟨t :: ts, ⟨?_, ?_, ?_, ?_⟩, ?_⟩
    · intro u hu
      rcases List.mem_cons.mp hu with rfl | hu
      · exact q1
      · exact c.valid u hu
    · simp [serializeOps, q2, c.bytes, encodeTokens]
    · intro rest ex s he
      rw [List.cons_append, q3, he]
      exact c.skip rest ex s he
    · intro hs u hu
      rcases List.mem_cons.mp hu with rfl | hu
      · exact q4 (hs op List.mem_cons_self)
      · exact c.sep (fun o ho => hs o (List.mem_cons_of_mem _ ho)) u hu
    · intro rest ex s he
      rw [List.cons_append, q3, if_pos he]
      simp only [execOps, Option.bind_assoc]
      congr 1
      funext s'
      exact hr rest ex s' he

/-! ### The brackets -/

/-- Operations without outputs. -/
theorem outputItems_nil {o : Opcode} {b : OpcodeBehavior} {items : List Item} {names : Option (List String)}
    {n m : Nat} {out : List Item} (h1 : b.outputTypes = []) (h2 : b.outputOrder = none ∨ b.outputOrder = some [])
    (h : outputItems o b items names n = .ok (out, m)) : out = [] := by
  unfold outputItems at h
  split at h
  · next ns =>
    split at h
    · cases h
    · next hl =>
      rw [h1] at hl
      have : ns = [] := by
        cases ns with
        | nil => rfl
        | cons a as => simp at hl
      subst this
      simp only [List.zipIdx_nil, collect, Res.bind_ok, Res.ok.injEq, Prod.mk.injEq] at h
      exact h.1.symm
  · rcases h2 with h2 | h2 <;> rw [h2] at h
    · rw [h1] at h
      simp only [List.length_nil, List.range_zero, collect, Res.bind_ok, Res.ok.injEq, Prod.mk.injEq] at h
      exact h.1.symm
    · simp only [collect, Res.bind_ok, Res.ok.injEq, Prod.mk.injEq] at h
      exact h.1.symm

/-- OP_ELSE and OP_ENDIF change nothing. -/
theorem bracket_spec (o : Opcode) (ho : o = .OP_ELSE ∨ o = .OP_ENDIF) (stmt : OpcodeStmt)
    (hh : stmt.head = .op o) (g g' : Gen) (e : List Emit) (h : runOpcode stmt g = .ok (e, g')) :
    e.map Emit.op = [.code o] ∧ g'.states = g.states ∧ g'.atoms = g.atoms := by
  have hb : ∃ b, o.behavior = some b ∧ b.inputTypes = [] ∧ b.outputTypes = [] ∧
      (b.outputOrder = none ∨ b.outputOrder = some []) := by
    rcases ho with rfl | rfl
    · exact ⟨_, rfl, rfl, rfl, .inl rfl⟩
    · exact ⟨_, rfl, rfl, rfl, .inl rfl⟩
  have hr : runOther o stmt g = .ok (e, g') := by
    rw [← h]
    unfold runOpcode
    rw [hh]
    rcases ho with rfl | rfl <;> rfl
  obtain ⟨b, b1, b2, b3, b4⟩ := hb
  unfold runOther at hr
  rw [b1] at hr
  simp only [b2, List.length_nil, popN, Res.bind_ok] at hr
  obtain ⟨u, _, hr⟩ := Res.bind_eq_ok.mp hr
  obtain ⟨⟨out, m⟩, ho, hr⟩ := Res.bind_eq_ok.mp hr
  have := outputItems_nil b3 b4 ho
  subst this
  simp only [Res.ok.injEq, Prod.mk.injEq] at hr
  obtain ⟨rfl, rfl⟩ := hr
  exact ⟨rfl, rfl, rfl⟩

/-- OP_IF takes the named item from the stack; OP_NOTIF is never accepted. -/
theorem if_spec (stmt : OpcodeStmt) (hopen : opens (.opcode stmt) = true) (g g' : Gen) (e : List Emit)
    (x : String) (hg : GoodGen g) (h : runOpcode stmt g = .ok (e, g')) (hx : predicateName stmt = .ok x) :
    e.map Emit.op = [.code .OP_IF] ∧ stmt.inputNames = some [.ident x] ∧ GoodGen g' ∧
    ∃ item : Item, argOk (.ident x) item.tag = true ∧
      Step (fun s s' => ∃ i, s.stack = i :: s'.stack ∧ s'.alt = s.alt ∧ i.tag = item.tag) g g' := by
  obtain ⟨ps, hps⟩ : ∃ ps, stmt.inputNames = some (.ident x :: ps) := by
    unfold predicateName at hx
    split at hx
    · next n ps hq => cases hx; exact ⟨ps, hq⟩
    · cases hx
  have hhead : stmt.head = .op .OP_IF ∨ stmt.head = .op .OP_NOTIF := by
    unfold opens at hopen
    split at hopen
    · next q => cases q; exact .inl rfl
    · next q => cases q; exact .inr rfl
    · cases hopen
  rcases hhead with hhead | hhead
  · have hr : runOther .OP_IF stmt g = .ok (e, g') := by
      rw [← h]; unfold runOpcode; rw [hhead]; rfl
    unfold runOther at hr
    obtain ⟨b, b1, b2, b3, b4⟩ : ∃ b, Opcode.behavior .OP_IF = some b ∧ b.inputTypes.length = 1 ∧
      b.outputTypes = [] ∧ (b.outputOrder = none ∨ b.outputOrder = some []) :=
      ⟨_, rfl, rfl, rfl, .inl rfl⟩
    rw [b1] at hr
    simp only [b2] at hr
    obtain ⟨⟨items, g1⟩, hp, hr⟩ := Res.bind_eq_ok.mp hr
    obtain ⟨u, hc, hr⟩ := Res.bind_eq_ok.mp hr
    obtain ⟨⟨out, m⟩, ho, hr⟩ := Res.bind_eq_ok.mp hr
    have := outputItems_nil b3 b4 ho
    subst this
    simp only [Res.ok.injEq, Prod.mk.injEq] at hr
    obtain ⟨rfl, rfl⟩ := hr
    obtain ⟨s1, _, gi, li, gg⟩ := popN_spec _ g g1 items hg hp
    obtain ⟨item, rfl⟩ := List.length_eq_one_iff.mp li
    have ha := argsOk_of_check hc
    rw [hps] at ha ⊢
    simp only [argsOk, List.map_cons, List.map_nil, List.length_cons, List.length_nil, Bool.and_eq_true,
      beq_iff_eq] at ha
    have hps0 : ps = [] := by
      cases ps with
      | nil => rfl
      | cons a as => simp at ha
    subst hps0
    refine ⟨rfl, rfl, ?_, item, by simpa using ha.2, ?_⟩
    · exact gg
    · have s2 := s1.trans (Step.refl g1 (g1.nIdent + m)) (R := fun s s' => ∃ i, s.stack = i :: s'.stack ∧
          s'.alt = s.alt ∧ i.tag = item.tag) (by
        rintro a b c ⟨its, q1, q2, q3, q4⟩ rfl
        obtain ⟨i, rfl⟩ := List.length_eq_one_iff.mp q1
        exact ⟨i, by simpa using q2, q3, by simpa using q4⟩)
      exact s2
  · exfalso
    have hr : runOther .OP_NOTIF stmt g = .ok (e, g') := by
      rw [← h]; unfold runOpcode; rw [hhead]; rfl
    unfold runOther at hr
    obtain ⟨b, b1, b2⟩ : ∃ b, Opcode.behavior .OP_NOTIF = some b ∧ b.inputTypes.length = 0 :=
      ⟨_, rfl, rfl⟩
    rw [b1] at hr
    simp only [b2, popN, Res.bind_ok] at hr
    obtain ⟨u, hc, hr⟩ := Res.bind_eq_ok.mp hr
    rw [hps] at hc
    cases hc

/-! ### The merge of branches -/

theorem lookup_ok {states : List (String × VState)} {v : String} {s : VState}
    (h : lookup states v = .ok s) : (v, s) ∈ states := by
  unfold lookup at h
  split at h
  · next p hp =>
    cases h
    have := List.find?_some hp
    have hm := List.mem_of_find?_eq_some hp
    simp only [beq_iff_eq] at this
    rw [← this]
    exact hm
  · cases h

theorem key_unique {l : List (String × VState)} (hn : (l.map Prod.fst).Nodup) {v : String} {s s' : VState}
    (h : (v, s) ∈ l) (h' : (v, s') ∈ l) : s = s' := by
  induction l with
  | nil => cases h
  | cons p ps ih =>
    simp only [List.map_cons, List.nodup_cons] at hn
    rcases List.mem_cons.mp h with rfl | h2 <;> rcases List.mem_cons.mp h' with h' | h'
    · cases h'; rfl
    · exact absurd (List.mem_map_of_mem (f := Prod.fst) h') hn.1
    · cases h'; exact absurd (List.mem_map_of_mem (f := Prod.fst) h2) hn.1
    · exact ih hn.2 h2 h'

theorem keys_of_signature {g g' : Gen} (h : signature g' = signature g) :
    g'.states.map Prod.fst = g.states.map Prod.fst := by
  have := congrArg (List.map Prod.fst) h
  simpa [signature, Function.comp_def] using this

theorem mem_signature {g g' : Gen} (h : signature g' = signature g) {v : String} {s : VState}
    (hm : (v, s) ∈ g.states) : ∃ s', (v, s') ∈ g'.states ∧ s'.condition = s.condition := by
  have : (v, s.condition) ∈ signature g' := by
    rw [h]; exact List.mem_map.mpr ⟨(v, s), hm, rfl⟩
  obtain ⟨⟨v', s'⟩, q1, q2⟩ := List.mem_map.mp this
  simp only [Prod.mk.injEq] at q2
  obtain ⟨rfl, q2⟩ := q2
  exact ⟨s', q1, q2⟩

theorem merge_spec (gt ge : Gen) (hi he : List Atom) (states : List (String × VState))
    (hsig : signature gt = signature ge) (hn : (ge.states.map Prod.fst).Nodup)
    (h : merge gt.states hi he ge.states = .ok states) :
    states.map (fun p => (p.1, p.2.condition)) = signature ge ∧
    (∀ p ∈ states, p ∈ gt.states ∨ p ∈ ge.states) ∧
    (∀ v s, (v, s) ∈ gt.states → s.condition.holds hi = true → s.condition.holds he = false →
      (v, s) ∈ states) ∧
    (∀ v s, (v, s) ∈ ge.states → s.condition.holds he = true → (v, s) ∈ states) := by
  have hnt : (gt.states.map Prod.fst).Nodup := by rw [keys_of_signature hsig]; exact hn
  unfold merge at h
  -- every entry
  have key : List.Forall₂ (fun (p q : String × VState) => q.1 = p.1 ∧
      (if p.2.condition.holds hi && !p.2.condition.holds he then q ∈ gt.states else q = p))
      ge.states states := by
    generalize ge.states = l at h
    clear hn hsig
    induction l generalizing states with
    | nil => cases h; exact .nil
    | cons p ps ih =>
      obtain ⟨v, s⟩ := p
      simp only [collect] at h
      obtain ⟨q, hq, h⟩ := Res.bind_eq_ok.mp h
      obtain ⟨qs, hqs, h⟩ := Res.bind_eq_ok.mp h
      cases h
      refine .cons ?_ (ih qs hqs)
      dsimp only
      split at hq
      · next hc =>
        obtain ⟨t, ht, hq⟩ := Res.bind_eq_ok.mp hq
        cases hq
        rw [if_pos hc]
        exact ⟨rfl, lookup_ok ht⟩
      · next hc =>
        cases hq
        rw [if_neg hc]
        exact ⟨rfl, rfl⟩
  clear h
  -- conditions agree
  have hcond : ∀ v s t, (v, s) ∈ ge.states → (v, t) ∈ gt.states → t.condition = s.condition := by
    intro v s t h1 h2
    obtain ⟨t', q1, q2⟩ := mem_signature hsig h1
    rw [key_unique hnt h2 q1, q2]
  refine ⟨?_, ?_, ?_, ?_⟩
  · unfold signature
    have hc' : ∀ p ∈ ge.states, ∀ q, q.1 = p.1 →
        (if p.2.condition.holds hi && !p.2.condition.holds he then q ∈ gt.states else q = p) →
        (q.1, q.2.condition) = (p.1, p.2.condition) := by
      rintro ⟨v, s⟩ hp ⟨v', t⟩ hk hq
      dsimp only at hk hq ⊢
      subst hk
      split at hq
      · rw [hcond v' s t hp hq]
      · cases hq; rfl
    generalize ge.states = l at key hc'
    induction key with
    | nil => rfl
    | cons hh ht ih =>
      simp only [List.map_cons]
      rw [ih (fun p hp => hc' p (by simp [hp])), hc' _ (by simp) _ hh.1 hh.2]
  · clear hcond
    generalize ge.states = l at key
    induction key with
    | nil => intro p hp; cases hp
    | @cons a b l1 l2 hh ht ih =>
      intro p hp
      rcases List.mem_cons.mp hp with rfl | hp
      · have := hh.2
        split at this
        · exact .inl this
        · rw [this]; exact .inr (by simp)
      · rcases ih p hp with h | h
        · exact .inl h
        · exact .inr (by simp [h])
  · intro v t hm h1 h2
    obtain ⟨s, hs, hsc⟩ := mem_signature hsig.symm hm
    have hq : (if s.condition.holds hi && !s.condition.holds he then True else False) := by
      rw [hsc, h1, h2]; trivial
    have : ∃ q ∈ states, q.1 = v ∧ q ∈ gt.states := by
      clear hcond hn hsig
      generalize ge.states = l at key hs
      induction key with
      | nil => cases hs
      | cons hh ht ih =>
        rcases List.mem_cons.mp hs with rfl | hs
        · dsimp only at hh
          rw [hsc, h1, h2] at hh
          exact ⟨_, by simp, hh.1, hh.2⟩
        · obtain ⟨q, q1, q2⟩ := ih hs
          exact ⟨q, by simp [q1], q2⟩
    obtain ⟨⟨v', t'⟩, q1, q2, q3⟩ := this
    dsimp only at q2
    subst q2
    rw [key_unique hnt hm q3]
    exact q1
  · intro v s hm h1
    clear hcond hn hsig
    generalize ge.states = l at key hm
    induction key with
    | nil => cases hm
    | cons hh ht ih =>
      rcases List.mem_cons.mp hm with rfl | hm
      · dsimp only at hh
        rw [h1] at hh
        simp only [Bool.not_true, Bool.and_false, Bool.false_eq_true, if_false] at hh
        rw [← hh.2]
        simp
      · exact List.mem_cons_of_mem _ (ih hm)

/-! ### Whole scripts -/

theorem run_if_taken (env : Vm.Env) (ts : List Token) (ex : List Bool) (he : ex.all id = true) (c : Bytes)
    (st alt : List Bytes) :
    Vm.run env (.op 0x63 :: ts) ex ⟨c :: st, alt⟩ = Vm.run env ts (Vm.truthy c :: ex) ⟨st, alt⟩ := by
  rw [Vm.run.eq_def]
  simp [he]

theorem run_if_skip (env : Vm.Env) (ts : List Token) (ex : List Bool) (he : ex.all id = false)
    (s : Vm.State) : Vm.run env (.op 0x63 :: ts) ex s = Vm.run env ts (false :: ex) s := by
  rw [Vm.run.eq_def]
  simp [he]

theorem run_else (env : Vm.Env) (ts : List Token) (c : Bool) (ex : List Bool) (s : Vm.State) :
    Vm.run env (.op 0x67 :: ts) (c :: ex) s = Vm.run env ts ((!c) :: ex) s := by
  rw [Vm.run.eq_def]; rfl

theorem run_endif (env : Vm.Env) (ts : List Token) (c : Bool) (ex : List Bool) (s : Vm.State) :
    Vm.run env (.op 0x68 :: ts) (c :: ex) s = Vm.run env ts ex s := by
  rw [Vm.run.eq_def]; rfl

/-- What is shown of a piece of a script. -/
def ProgSim (env : Vm.Env) (k? : Option Nat) (p : Prog) (g g' : Gen) (ts : List Token) : Prop :=
  ∀ v cond L rest ex, Tracks v cond g L → cond.holds g.atoms = true → (∀ k, k? = some k → DDepth L k) →
    ex.all id = true →
    match Named.run env cond p g.atoms L with
    | .ok L' => Tracks v cond g' L' ∧ Vm.run env (ts ++ rest) ex L.erase = Vm.run env rest ex L'.erase
    | .fail => Vm.run env (ts ++ rest) ex L.erase = none
    | .mismatch => False
    | .undecided => True

/-- The names left by a piece of a script are those tracked after it. -/
def LeavesSim (k? : Option Nat) (p : Prog) (g g' : Gen) : Prop :=
  ∀ v cond N N', TracksN v cond g N → cond.holds g.atoms = true → namesAfter cond p g.atoms k? N = some N' →
    TracksN v cond g' N'

/-- OP_ELSE with its branch, or nothing. -/
theorem else_code (elseOp : Option OpcodeStmt) (gt gt' : Gen) (e3 : List Emit)
    (hel : ∀ o, elseOp = some o → isElse (.opcode o) = true)
    (h : runOptional elseOp gt = .ok (e3, gt')) :
    gt'.states = gt.states ∧ gt'.atoms = gt.atoms ∧
    (elseOp = none ∧ e3 = [] ∨ elseOp.isSome = true ∧ e3.map Emit.op = [.code .OP_ELSE]) := by
  cases elseOp with
  | none => cases h; exact ⟨rfl, rfl, .inl ⟨rfl, rfl⟩⟩
  | some o =>
    have hh : o.head = .op .OP_ELSE := by
      have := hel o rfl
      unfold isElse at this
      split at this
      · next q => cases q; rfl
      · cases this
    obtain ⟨q1, q2, q3⟩ := bracket_spec .OP_ELSE (.inl rfl) o hh gt gt' e3 h
    exact ⟨q2, q3, .inr ⟨rfl, q1⟩⟩

theorem prog_sim_leaves (env : Vm.Env) (p : Prog) (k? : Option Nat) (g g' : Gen) (e : List Emit)
    (hwn : WellNested p) (hok : progOk k?.isSome p = true) (hg : GoodGen g)
    (hkeys : (g.states.map Prod.fst).Nodup)
    (hk : ∀ k, k? = some k → SDepth g k) (h : runProg p g = .ok (e, g')) :
    signature g' = signature g ∧ g'.atoms = g.atoms ∧ GoodGen g' ∧ LeavesSim k? p g g' ∧
    ∃ ts, Code env (e.map Emit.op) ts ∧ ProgSim env k? p g g' ts := by
  induction p generalizing k? g g' e with
  | nil =>
    cases h
    refine ⟨rfl, rfl, hg, fun v cond N N' ht _ h => by cases h; exact ht, [], Code.nil env, ?_⟩
    intro v cond L rest ex ht hh _ he
    exact ⟨ht, rfl⟩
  | leaf l rest ih =>
    obtain ⟨w1, w2, w3, w4⟩ := hwn
    simp only [progOk, Bool.and_eq_true] at hok
    simp only [runProg] at h
    obtain ⟨⟨e1, g1⟩, h1, h⟩ := Res.bind_eq_ok.mp h
    obtain ⟨⟨e2, g2⟩, h2, h⟩ := Res.bind_eq_ok.mp h
    cases h
    obtain ⟨k'?, a1, a2, a3, a4, a5, a6, a7⟩ := leaf_sim env k? l g g1 e1 hg hk w1 w2 w3 hok.1 h1
    -- the rest is checked for the same depth, or for none
    obtain ⟨k2?, hk2, hk2'⟩ : ∃ k2? : Option Nat, k2?.isSome = isDepthOf l ∧
        (∀ k, k2? = some k → k'? = some k) := by
      cases hd : isDepthOf l with
      | true => exact ⟨k'?, a6 hd, fun k h => h⟩
      | false => exact ⟨none, rfl, by simp⟩
    obtain ⟨b1, b2, b3, _, ts2, c2, sim2⟩ := ih k2? g1 g2 e2 w4 (by rw [hk2]; exact hok.2) a3
      (by rw [keys_of_signature a1]; exact hkeys) (fun k hk => a5 k (hk2' k hk)) h2
    obtain ⟨ts1, c1, r1⟩ := plain_code_tokens env (e1.map Emit.op) a4
    refine ⟨b1.trans a1, b2.trans a2, b3, ?_, ts1 ++ ts2, by rw [List.map_append]; exact c1.append c2, ?_⟩
    · intro v cond N N' ht hh hN
      simp only [namesAfter] at hN
      obtain ⟨N1, hN1, hN⟩ := Option.bind_eq_some_iff.mp hN
      obtain ⟨q1, q2, q3⟩ := leaf_names k? l g g1 e1 hg hk w1 w2 w3 hok.1 h1 v cond N N1 ht hh hN1
      obtain ⟨_, _, _, ls, _⟩ := ih (depthLeft l N) g1 g2 e2 w4 (by rw [q2]; exact hok.2) a3
        (by rw [keys_of_signature a1]; exact hkeys) q3 h2
      exact ls v cond N1 N' q1 (by rw [a2]; exact hh) (by rw [a2]; exact hN)
    intro v cond L rest' ex ht hh hdd he
    have hl := a7 v cond L ht hh hdd
    simp only [Named.run]
    rw [List.append_assoc, r1 _ _ _ he]
    cases hr : Named.leaf env l L with
    | ok L1 =>
      rw [hr] at hl
      obtain ⟨t1, t2, t3⟩ := hl
      simp only [Outcome.andThen]
      rw [t2, Option.bind_some]
      have := sim2 v cond L1 rest' ex t1 (by rw [a2]; exact hh) (fun k hk => t3 k (hk2' k hk)) he
      rw [a2] at this
      exact this
    | fail =>
      rw [hr] at hl
      simp only at hl
      simp only [Outcome.andThen]
      rw [hl]
      rfl
    | mismatch => rw [hr] at hl; exact hl
    | undecided => rw [hr] at hl; exact hl.elim
  | scriptIf ifOp thenStmts elseOp elseStmts endifOp rest iht ihe ihr =>
    obtain ⟨w1, w2, w3, w4, w5, w6, w7⟩ := hwn
    simp only [progOk, Bool.and_eq_true] at hok
    obtain ⟨⟨⟨ok1, ok2⟩, ok3⟩, ok4⟩ := hok
    simp only [runProg] at h
    obtain ⟨⟨e1, g1⟩, h1, h⟩ := Res.bind_eq_ok.mp h
    obtain ⟨x, hx, h⟩ := Res.bind_eq_ok.mp h
    obtain ⟨⟨e2, gt⟩, h2, h⟩ := Res.bind_eq_ok.mp h
    obtain ⟨⟨e3, gt'⟩, h3, h⟩ := Res.bind_eq_ok.mp h
    obtain ⟨⟨e4, ge⟩, h4, h⟩ := Res.bind_eq_ok.mp h
    obtain ⟨⟨e5, ge'⟩, h5, h⟩ := Res.bind_eq_ok.mp h
    obtain ⟨states, h6, h⟩ := Res.bind_eq_ok.mp h
    obtain ⟨⟨e6, g6⟩, h7, h⟩ := Res.bind_eq_ok.mp h
    cases h
    dsimp only at h2 h3 h4 h5 h6 h7
    obtain ⟨i1, i2, i3, item, i4, i5⟩ := if_spec ifOp w1 g g1 e1 x hg h1 hx
    have k1 : (g1.states.map Prod.fst).Nodup := by rw [keys_of_signature i5.signature]; exact hkeys
    -- the branches
    obtain ⟨t1, t2, t3, lst, tst, ct, simt⟩ := iht none { g1 with atoms := g1.atoms ++ [⟨x, true⟩] } gt e2 w5 ok2
      i3 k1 (by simp) h2
    obtain ⟨l1, l2, l3⟩ := else_code elseOp gt gt' e3 w2 h3
    obtain ⟨u1, u2, u3, lse, tse, ce, sime⟩ := ihe none { g1 with atoms := g1.atoms ++ [⟨x, false⟩], nIdent := gt'.nIdent }
      ge e4 w6 ok3 i3 k1 (by simp) h4
    have hen : endifOp.head = .op .OP_ENDIF := by
      unfold closes at w4
      split at w4
      · next q => cases q; rfl
      · cases w4
    obtain ⟨n1, n2, n3⟩ := bracket_spec .OP_ENDIF (.inr rfl) endifOp hen ge ge' e5 h5
    -- the merged states
    have hsig : signature gt' = signature ge' := by
      have p1 : signature gt' = signature gt := by simp only [signature, l1]
      have p2 : signature ge' = signature ge := by simp only [signature, n2]
      rw [p1, p2, t1, u1]
      rfl
    have hsige : signature ge' = signature g1 := by
      have p2 : signature ge' = signature ge := by simp only [signature, n2]
      rw [p2, u1]
      rfl
    have ke : (ge'.states.map Prod.fst).Nodup := by rw [keys_of_signature hsige]; exact k1
    obtain ⟨m1, m2, m3, m4⟩ := merge_spec gt' ge' _ _ states hsig ke h6
    have gm : GoodGen { ge' with states := states, atoms := g1.atoms } := by
      intro p hp
      rcases m2 p hp with hp | hp
      · rw [l1] at hp; exact t3 p hp
      · rw [n2] at hp; exact u3 p hp
    have sigm : signature { ge' with states := states, atoms := g1.atoms } = signature g := by
      rw [← i5.signature, ← hsige]
      exact m1
    obtain ⟨r1, r2, r3, lsr, tsr, cr, simr⟩ := ihr none { ge' with states := states, atoms := g1.atoms } g6 e6 w7 ok4 gm
      (by rw [keys_of_signature sigm]; exact hkeys) (by simp) h7
    -- the tokens
    obtain ⟨tsl, hvl, hsl, hbl, hskl, hthen, helse⟩ : ∃ tsl : List Token, (∀ t ∈ tsl, t.Valid) ∧
        ((∀ op ∈ e4.map Emit.op, op ≠ .code .OP_CODESEPARATOR) → ∀ t ∈ tsl, t ≠ .op 0xab) ∧
        serializeOps (e3.map Emit.op ++ e4.map Emit.op) = .ok (encodeTokens tsl) ∧
        (∀ rest ex s, ex.all id = false → Vm.run env (tsl ++ .op 0x68 :: rest) (false :: ex) s =
          Vm.run env rest ex s) ∧
        (∀ rest ex s, ex.all id = true → Vm.run env (tsl ++ .op 0x68 :: rest) (true :: ex) s =
          Vm.run env rest ex s) ∧
        (∀ rest ex s, Vm.run env (tsl ++ rest) (false :: ex) s =
          Vm.run env (tse ++ rest) ((if elseOp.isSome then true else false) :: ex) s) := by
      rcases l3 with ⟨q1, rfl⟩ | ⟨q1, q2⟩
      · have hnil := w3 q1
        subst hnil
        cases h4
        have htse : tse = [] := by
          have hb := ce.bytes
          simp only [List.map_nil, serializeOps, Res.ok.injEq] at hb
          cases tse with
          | nil => rfl
          | cons t ts =>
            simp only [encodeTokens, List.map_cons, List.flatten_cons] at hb
            exact absurd (List.append_eq_nil_iff.mp hb.symm).1 (encode_ne_nil t)
        subst htse
        subst q1
        refine ⟨[], by simp, by simp, rfl, ?_, ?_, ?_⟩
        · intro rest ex s _; exact run_endif env rest false ex s
        · intro rest ex s _; exact run_endif env rest true ex s
        · intro rest ex s; rfl
      · refine ⟨.op 0x67 :: tse, ?_, ?_, ?_, ?_, ?_, ?_⟩
        · intro t ht
          rcases List.mem_cons.mp ht with rfl | ht
          · exact .inr (by decide)
          · exact ce.valid t ht
        · intro hs t ht
          rcases List.mem_cons.mp ht with rfl | ht
          · decide
          · exact ce.sep hs t ht
        · rw [q2]
          simp only [List.cons_append, List.nil_append, serializeOps, serializeOp, Res.bind_ok, ce.bytes]
          rfl
        · intro rest ex s he
          rw [List.cons_append, run_else, Bool.not_false, ce.skip _ _ _ (by simpa using he), run_endif]
        · intro rest ex s he
          rw [List.cons_append, run_else, Bool.not_true, ce.skip _ _ _ (by simp), run_endif]
        · intro rest ex s
          rw [List.cons_append, run_else, q1]
          rfl
    refine ⟨r1.trans sigm, r2.trans i5.1, r3, ?_, .op 0x63 :: (tst ++ (tsl ++ .op 0x68 :: tsr)), ?_, ?_⟩
    · intro v cond N N' ht hh hN
      obtain ⟨s, hm, hc, hs, ha⟩ := ht
      obtain ⟨s1, hm1, hc1, hP, _⟩ := i5.mem hm
      obtain ⟨it, z1, z2, z3⟩ := hP (by rw [hc]; exact hh)
      rw [z1] at hs
      have hat : g1.atoms = g.atoms := i5.1
      simp only [namesAfter, i2] at hN
      cases hL : N.stack with
      | nil => rw [hL] at hs; simp at hs
      | cons top st =>
        rw [hL] at hs hN
        simp only [List.map_cons, List.cons.injEq] at hs
        dsimp only at hN
        have hT : TracksN v cond g1 ⟨st, N.alt⟩ := ⟨s1, hm1, hc1.trans hc, hs.2, by rw [z2]; exact ha⟩
        obtain ⟨N2, hN2, hN⟩ := Option.bind_eq_some_iff.mp hN
        have first : ∀ N1, cond.holds (g.atoms ++ [⟨x, true⟩]) = true →
            cond.holds (g.atoms ++ [⟨x, false⟩]) = false →
            namesAfter cond thenStmts (g.atoms ++ [⟨x, true⟩]) none ⟨st, N.alt⟩ = some N1 →
            TracksN v cond { ge' with states := states, atoms := g1.atoms } N1 := by
          intro N1 c1 c2 hq
          obtain ⟨s2, hm2, hc2, hs2, ha2⟩ := lst v cond ⟨st, N.alt⟩ N1 hT (by dsimp only; rw [hat]; exact c1)
            (by dsimp only; rw [hat]; exact hq)
          exact ⟨s2, m3 v s2 (by rw [l1]; exact hm2) (by rw [hc2, hat]; exact c1)
            (by rw [hc2, hat]; exact c2), hc2, hs2, ha2⟩
        have second : ∀ N1, cond.holds (g.atoms ++ [⟨x, false⟩]) = true →
            namesAfter cond elseStmts (g.atoms ++ [⟨x, false⟩]) none ⟨st, N.alt⟩ = some N1 →
            TracksN v cond { ge' with states := states, atoms := g1.atoms } N1 := by
          intro N1 c2 hq
          obtain ⟨s2, hm2, hc2, hs2, ha2⟩ := lse v cond ⟨st, N.alt⟩ N1 hT (by dsimp only; rw [hat]; exact c2)
            (by dsimp only; rw [hat]; exact hq)
          exact ⟨s2, m4 v s2 (by rw [n2]; exact hm2) (by rw [hc2, hat]; exact c2), hc2, hs2, ha2⟩
        have hT2 : TracksN v cond { ge' with states := states, atoms := g1.atoms } N2 := by
          cases c1 : cond.holds (g.atoms ++ [⟨x, true⟩]) <;> cases c2 : cond.holds (g.atoms ++ [⟨x, false⟩]) <;>
            rw [c1, c2] at hN2 <;> dsimp only at hN2
          · cases hN2
          · exact second N2 c2 hN2
          · exact first N2 c1 c2 hN2
          · split at hN2
            · exact second N2 c2 hN2
            · cases hN2
        exact lsr v cond N2 N' hT2 (by dsimp only; rw [hat]; exact hh) (by dsimp only; rw [hat]; exact hN)
    · refine ⟨?_, ?_, ?_, ?_⟩
      rotate_right
      · intro hs t ht
        simp only [List.map_append, List.mem_append] at hs
        simp only [List.mem_cons, List.mem_append] at ht
        rcases ht with rfl | ht | ht | rfl | ht
        · decide
        · exact ct.sep (fun op ho => hs op (by simp [ho])) t ht
        · exact hsl (fun op ho => hs op (by simp [ho])) t ht
        · decide
        · exact cr.sep (fun op ho => hs op (by simp [ho])) t ht
      · intro t ht
        simp only [List.mem_cons, List.mem_append] at ht
        rcases ht with rfl | ht | ht | rfl | ht
        · exact .inr (by decide)
        · exact ct.valid t ht
        · exact hvl t ht
        · exact .inr (by decide)
        · exact cr.valid t ht
      · have q1 : serializeOps [.code .OP_IF] = .ok (encodeTokens [.op 0x63]) := rfl
        have q5 : serializeOps [.code .OP_ENDIF] = .ok (encodeTokens [.op 0x68]) := rfl
        have q := serializeOps_append q1 (serializeOps_append ct.bytes (serializeOps_append hbl
          (serializeOps_append q5 cr.bytes)))
        simp only [List.map_append, i1, n1, List.append_assoc] at q ⊢
        rw [q]
        simp only [← encode_append]
        rfl
      · intro rest' ex s he
        simp only [List.cons_append, List.append_assoc]
        rw [run_if_skip env _ ex he, ct.skip _ _ _ (by simp), hskl _ _ _ he, cr.skip _ _ _ he]
    · intro v cond L rest' ex ht hh _ he
      obtain ⟨s, hm, hc, hs, ha⟩ := ht
      obtain ⟨s1, hm1, hc1, hP, _⟩ := i5.mem hm
      obtain ⟨it, z1, z2, z3⟩ := hP (by rw [hc]; exact hh)
      rw [z1] at hs
      simp only [Named.run, i2]
      cases hL : L.stack with
      | nil => rw [hL] at hs; simp at hs
      | cons top st =>
        rw [hL] at hs
        simp only [List.map_cons, List.cons.injEq] at hs
        dsimp only
        rw [← hs.1, z3, i4]
        simp only [Bool.not_true, Bool.false_eq_true, if_false]
        have hT : Tracks v cond g1 ⟨st, L.alt⟩ := ⟨s1, hm1, hc1.trans hc, hs.2, by rw [z2]; exact ha⟩
        have herase : L.erase = ⟨top.value :: st.map LItem.value, L.alt.map LItem.value⟩ := by
          simp [LState.erase, hL]
        simp only [List.cons_append, List.append_assoc]
        rw [herase, run_if_taken env _ ex he]
        have hat : g1.atoms = g.atoms := i5.1
        cases hb : Vm.truthy top.value with
        | true =>
          simp only [if_true]
          cases hc1 : cond.holds (g.atoms ++ [⟨x, true⟩]) with
          | false => simp
          | true =>
            simp only [Bool.not_true, Bool.false_eq_true, if_false]
            have sm := simt v cond ⟨st, L.alt⟩ (tsl ++ .op 0x68 :: (tsr ++ rest')) (true :: ex) hT
              (by rw [hat]; exact hc1) (by simp) (by simpa using he)
            dsimp only at sm
            rw [hat] at sm
            cases hr : Named.run env cond thenStmts (g.atoms ++ [⟨x, true⟩]) ⟨st, L.alt⟩ with
            | ok L1 =>
              rw [hr] at sm
              obtain ⟨⟨s2, hm2, hc2, hs2, ha2⟩, sm2⟩ := sm
              simp only [Outcome.andThen]
              cases hbal : (cond.holds (g.atoms ++ [⟨x, false⟩]) &&
                  namesAfter cond elseStmts (g.atoms ++ [⟨x, false⟩]) none (LState.names ⟨st, L.alt⟩) !=
                    some L1.names) with
              | true => simp
              | false =>
                simp only [Bool.false_eq_true, if_false]
                have hT2 : Tracks v cond { ge' with states := states, atoms := g1.atoms } L1 := by
                  cases hc3 : cond.holds (g.atoms ++ [⟨x, false⟩]) with
                  | false =>
                    exact ⟨s2, m3 v s2 (by rw [l1]; exact hm2) (by rw [hc2, hat]; exact hc1)
                      (by rw [hc2, hat]; exact hc3), hc2, hs2, ha2⟩
                  | true =>
                    rw [hc3] at hbal
                    simp only [Bool.true_and, bne_eq_false_iff_eq] at hbal
                    obtain ⟨s3, hm3, hc3', hs3, ha3⟩ := lse v cond _ _ (tracksN_names.mp hT)
                      (by dsimp only; rw [hat]; exact hc3) (by dsimp only; rw [hat]; exact hbal)
                    exact ⟨s3, m4 v s3 (by rw [n2]; exact hm3) (by rw [hc3', hat]; exact hc3), hc3', hs3, ha3⟩
                have sr := simr v cond L1 rest' ex hT2 (by dsimp only; rw [hat]; exact hh) (by simp) he
                dsimp only at sr
                rw [hat] at sr
                have hrun : Vm.run env (tst ++ (tsl ++ .op 0x68 :: (tsr ++ rest'))) (true :: ex)
                    ⟨st.map LItem.value, L.alt.map LItem.value⟩ = Vm.run env (tsr ++ rest') ex L1.erase := by
                  have : (⟨st.map LItem.value, L.alt.map LItem.value⟩ : Vm.State) =
                    (⟨st, L.alt⟩ : LState).erase := rfl
                  rw [this, sm2, hthen _ _ _ he]
                rw [hrun]
                exact sr
            | fail =>
              rw [hr] at sm
              exact sm
            | mismatch => rw [hr] at sm; exact sm
            | undecided => trivial
        | false =>
          simp only [Bool.false_eq_true, if_false]
          cases hc1 : cond.holds (g.atoms ++ [⟨x, false⟩]) with
          | false => simp
          | true =>
            simp only [Bool.not_true, Bool.false_eq_true, if_false]
            rw [ct.skip _ _ _ (by simp), helse]
            -- without OP_ELSE, the else branch is empty
            have sm : match Named.run env cond elseStmts (g.atoms ++ [⟨x, false⟩]) ⟨st, L.alt⟩ with
                | .ok L' => Tracks v cond ge L' ∧
                    Vm.run env (tse ++ .op 0x68 :: (tsr ++ rest'))
                      ((if elseOp.isSome = true then true else false) :: ex)
                      (⟨st.map LItem.value, L.alt.map LItem.value⟩) = Vm.run env (tsr ++ rest') ex L'.erase
                | .fail => Vm.run env (tse ++ .op 0x68 :: (tsr ++ rest'))
                      ((if elseOp.isSome = true then true else false) :: ex)
                      (⟨st.map LItem.value, L.alt.map LItem.value⟩) = none
                | .mismatch => False
                | .undecided => True := by
              cases hel : elseOp.isSome with
              | true =>
                have sm := sime v cond ⟨st, L.alt⟩ (.op 0x68 :: (tsr ++ rest')) (true :: ex) hT
                  (by dsimp only; rw [hat]; exact hc1) (by simp) (by simpa using he)
                dsimp only at sm
                rw [hat] at sm
                cases hr : Named.run env cond elseStmts (g.atoms ++ [⟨x, false⟩]) ⟨st, L.alt⟩ with
                | ok L1 =>
                  rw [hr] at sm
                  refine ⟨sm.1, ?_⟩
                  have := sm.2
                  rw [run_endif] at this
                  exact this
                | fail => rw [hr] at sm; exact sm
                | mismatch => rw [hr] at sm; exact sm
                | undecided => trivial
              | false =>
                have hnone : elseOp = none := by
                  cases elseOp with
                  | none => rfl
                  | some o => cases hel
                have hnil := w3 hnone
                subst hnil
                cases h4
                have htse : tse = [] := by
                  have hb := ce.bytes
                  simp only [List.map_nil, serializeOps, Res.ok.injEq] at hb
                  cases tse with
                  | nil => rfl
                  | cons t ts =>
                    simp only [encodeTokens, List.map_cons, List.flatten_cons] at hb
                    exact absurd (List.append_eq_nil_iff.mp hb.symm).1 (encode_ne_nil t)
                subst htse
                exact ⟨hT, run_endif env _ _ ex _⟩
            cases hr : Named.run env cond elseStmts (g.atoms ++ [⟨x, false⟩]) ⟨st, L.alt⟩ with
            | ok L1 =>
              rw [hr] at sm
              obtain ⟨⟨s2, hm2, hc2, hs2, ha2⟩, sm2⟩ := sm
              simp only [Outcome.andThen]
              have hT2 : Tracks v cond { ge' with states := states, atoms := g1.atoms } L1 :=
                ⟨s2, m4 v s2 (by rw [n2]; exact hm2) (by rw [hc2, hat]; exact hc1), hc2, hs2, ha2⟩
              have sr := simr v cond L1 rest' ex hT2 (by dsimp only; rw [hat]; exact hh) (by simp) he
              dsimp only at sr
              rw [hat] at sr
              rw [sm2]
              exact sr
            | fail =>
              rw [hr] at sm
              exact sm
            | mismatch => rw [hr] at sm; exact sm
            | undecided => trivial

theorem prog_sim (env : Vm.Env) (p : Prog) (k? : Option Nat) (g g' : Gen) (e : List Emit)
    (hwn : WellNested p) (hok : progOk k?.isSome p = true) (hg : GoodGen g)
    (hkeys : (g.states.map Prod.fst).Nodup)
    (hk : ∀ k, k? = some k → SDepth g k) (h : runProg p g = .ok (e, g')) :
    signature g' = signature g ∧ g'.atoms = g.atoms ∧ GoodGen g' ∧
    ∃ ts, Code env (e.map Emit.op) ts ∧ ProgSim env k? p g g' ts := by
  obtain ⟨h1, h2, h3, _, h4⟩ := prog_sim_leaves env p k? g g' e hwn hok hg hkeys hk h
  exact ⟨h1, h2, h3, h4⟩

/-- The names every run leaves are those tracked. -/
theorem leaves_sound (p : Prog) (k? : Option Nat) (g g' : Gen) (e : List Emit)
    (hwn : WellNested p) (hok : progOk k?.isSome p = true) (hg : GoodGen g)
    (hkeys : (g.states.map Prod.fst).Nodup)
    (hk : ∀ k, k? = some k → SDepth g k) (h : runProg p g = .ok (e, g')) : LeavesSim k? p g g' :=
  (prog_sim_leaves anyVm p k? g g' e hwn hok hg hkeys hk h).2.2.2.1

end GenProofs
end BCash
