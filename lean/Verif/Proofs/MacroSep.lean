import Verif.Proofs.MacroProg
import Verif.Spec.Separated

/-! # Whole scripts with code separators: tracked names against execution with names

As `Proofs/MacroProg.lean`, with an environment that changes at executed code separators. -/

namespace BCash
open Spec Spec.Macro Spec.Named Macro ExecProofs

namespace GenProofs

/-! ### Running tokens -/

section
variable (envOf : Bytes → Vm.Env) (env : Vm.Env)

theorem runFrom_op (b : UInt8) (h1 : b ≠ 0x63) (h2 : b ≠ 0x64) (h3 : b ≠ 0x65) (h4 : b ≠ 0x66)
    (h5 : b ≠ 0x67) (h6 : b ≠ 0x68) (ts : List Token) (ex : List Bool) (s : Vm.State) :
    Vm.runFrom envOf env (.op b :: ts) ex s =
      if ex.all id then
        if b = 0xab then Vm.runFrom envOf (envOf (encodeTokens ts)) ts ex s
        else (Vm.step env b s).bind fun s => Vm.runFrom envOf env ts ex s
      else Vm.runFrom envOf env ts ex s := by
  rw [Vm.runFrom.eq_def]
  dsimp only
  rw [if_neg (by simp [h1, h2]), if_neg h5, if_neg h6, if_neg (by simp [h3, h4])]

theorem runFrom_push (t : Token) (d : Bytes) (hd : t.stackItem = some d) (ts : List Token) (ex : List Bool)
    (s : Vm.State) :
    Vm.runFrom envOf env (t :: ts) ex s =
      if ex.all id then Vm.runFrom envOf env ts ex ⟨d :: s.stack, s.alt⟩
      else Vm.runFrom envOf env ts ex s := by
  cases t with
  | push f d' => cases hd; rfl
  | op b =>
    have hb : b = 0 ∨ b = 0x4f ∨ (0x51 ≤ b.toNat ∧ b.toNat ≤ 0x60) := by
      simp only [Token.stackItem] at hd
      split at hd
      · exact .inl (by assumption)
      split at hd
      · exact .inr (.inl (by assumption))
      split at hd
      · exact .inr (.inr (by assumption))
      · cases hd
    have hne : ∀ c : UInt8, 0x61 ≤ c.toNat → b ≠ c := by
      rintro c hc rfl
      rcases hb with rfl | rfl | h
      · exact absurd hc (by decide)
      · exact absurd hc (by decide)
      · omega
    have hstep : Vm.step env b s = some ⟨d :: s.stack, s.alt⟩ := by
      unfold Vm.step
      rw [if_neg (hne _ (by decide)), if_neg (hne _ (by decide)), main_const env b s.stack hb, hd]
      rfl
    rw [runFrom_op envOf env b (hne _ (by decide)) (hne _ (by decide)) (hne _ (by decide))
      (hne _ (by decide)) (hne _ (by decide)) (hne _ (by decide)), if_neg (hne 0xab (by decide)), hstep]
    rfl

theorem runFrom_if_taken (ts : List Token) (ex : List Bool) (he : ex.all id = true) (c : Bytes)
    (st alt : List Bytes) :
    Vm.runFrom envOf env (.op 0x63 :: ts) ex ⟨c :: st, alt⟩ =
      Vm.runFrom envOf env ts (Vm.truthy c :: ex) ⟨st, alt⟩ := by
  rw [Vm.runFrom.eq_def]
  simp [he]

theorem runFrom_if_skip (ts : List Token) (ex : List Bool) (he : ex.all id = false)
    (s : Vm.State) : Vm.runFrom envOf env (.op 0x63 :: ts) ex s = Vm.runFrom envOf env ts (false :: ex) s := by
  rw [Vm.runFrom.eq_def]
  simp [he]

theorem runFrom_else (ts : List Token) (c : Bool) (ex : List Bool) (s : Vm.State) :
    Vm.runFrom envOf env (.op 0x67 :: ts) (c :: ex) s = Vm.runFrom envOf env ts ((!c) :: ex) s := by
  rw [Vm.runFrom.eq_def]; rfl

theorem runFrom_endif (ts : List Token) (c : Bool) (ex : List Bool) (s : Vm.State) :
    Vm.runFrom envOf env (.op 0x68 :: ts) (c :: ex) s = Vm.runFrom envOf env ts ex s := by
  rw [Vm.runFrom.eq_def]; rfl

end

/-! ### Tokens of a script -/

/-- The token of an operation. -/
structure Tok (op : Op Bytes) (t : Token) : Prop where
  valid : t.Valid
  bytes : serializeOp op = .ok t.encode
  sep : op = .code .OP_CODESEPARATOR ↔ t = .op 0xab

/-- A plain operation is one token. -/
theorem plain_tokenFrom (op : Op Bytes) (hp : Plain op) :
    ∃ t : Token, Tok op t ∧
      ∀ envOf env ts ex s, Vm.runFrom envOf env (t :: ts) ex s =
        if ex.all id then
          if op = .code .OP_CODESEPARATOR then Vm.runFrom envOf (envOf (encodeTokens ts)) ts ex s
          else (execOp env op s).bind (Vm.runFrom envOf env ts ex)
        else Vm.runFrom envOf env ts ex s := by
  obtain ⟨hw, ⟨d, hd⟩ | ⟨o, rfl, h1, h2, h3, h4, h5, h6⟩⟩ := hp
  · obtain ⟨t, q1, q2, q3⟩ := push_token op d hw hd
    have hne : op ≠ .code .OP_CODESEPARATOR := by rintro rfl; cases hd
    refine ⟨t, ⟨q1, q2, ?_⟩, ?_⟩
    · constructor
      · intro h; exact absurd h hne
      · rintro rfl
        exact absurd q3 (by simp [Token.stackItem])
    intro envOf env ts ex s
    rw [runFrom_push envOf env t d q3, if_neg hne]
    have : execOp env op s = some ⟨d :: s.stack, s.alt⟩ := by
      cases op with
      | code o => cases hd
      | _ => simp only [execOp, hd, Option.map_some]
    rw [this]
    rfl
  · have hsep : o = .OP_CODESEPARATOR ↔ o.toByte = 0xab := by
      clear hw h1 h2 h3 h4 h5 h6
      cases o <;> decide
    refine ⟨.op o.toByte, ⟨?_, rfl, ?_⟩, ?_⟩
    · obtain ⟨w1, w2, w3⟩ := hw
      have : ∀ o : Opcode, o ≠ .OP_PUSHDATA1 → o ≠ .OP_PUSHDATA2 → o ≠ .OP_PUSHDATA4 →
          o.toByte = 0 ∨ 0x4f ≤ o.toByte.toNat := by
        intro o h1 h2 h3
        cases o <;> first | exact absurd rfl h1 | exact absurd rfl h2 | exact absurd rfl h3 |
          decide
      exact this o w1 w2 w3
    · constructor
      · intro h
        injection h with h
        rw [hsep.mp h]
      · intro h
        injection h with h
        rw [hsep.mpr h]
    · intro envOf env ts ex s
      rw [runFrom_op envOf env _ h1 h2 h3 h4 h5 h6]
      by_cases hs : o = .OP_CODESEPARATOR
      · simp only [if_pos (hsep.mp hs), if_pos (show Op.code (α := Bytes) o = .code .OP_CODESEPARATOR by rw [hs])]
      · have hs' : ¬ Op.code (α := Bytes) o = .code .OP_CODESEPARATOR := fun h => hs (by injection h)
        simp only [if_neg (fun h => hs (hsep.mpr h)), if_neg hs']
        rfl

/-- How many code separators there are. -/
def seps (ts : List Token) : Nat := ts.countP fun t => decide (t = .op 0xab)

/-- The tokens of a piece of a script, skipped in branches not taken. -/
structure CodeFrom (ops : List (Op Bytes)) (ts : List Token) : Prop where
  toks : List.Forall₂ Tok ops ts
  skip : ∀ envOf env rest ex s, ex.all id = false →
    Vm.runFrom envOf env (ts ++ rest) ex s = Vm.runFrom envOf env rest ex s

theorem CodeFrom.nil : CodeFrom [] [] := ⟨.nil, by simp⟩

theorem forall₂_append {α β : Type} {R : α → β → Prop} {a b : List α} {x y : List β}
    (h1 : List.Forall₂ R a x) (h2 : List.Forall₂ R b y) : List.Forall₂ R (a ++ b) (x ++ y) := by
  induction h1 with
  | nil => exact h2
  | cons h _ ih => exact .cons h ih

theorem CodeFrom.append {a b : List (Op Bytes)} {x y : List Token} (h1 : CodeFrom a x)
    (h2 : CodeFrom b y) : CodeFrom (a ++ b) (x ++ y) where
  toks := forall₂_append h1.toks h2.toks
  skip envOf env rest ex s h := by rw [List.append_assoc, h1.skip _ _ _ _ _ h, h2.skip _ _ _ _ _ h]

theorem toks_valid {ops : List (Op Bytes)} {ts : List Token} (h : List.Forall₂ Tok ops ts) :
    ∀ t ∈ ts, t.Valid := by
  induction h with
  | nil => simp
  | cons h _ ih =>
    intro t ht
    rcases List.mem_cons.mp ht with rfl | ht
    · exact h.valid
    · exact ih t ht

theorem toks_bytes {ops : List (Op Bytes)} {ts : List Token} (h : List.Forall₂ Tok ops ts) :
    serializeOps ops = .ok (encodeTokens ts) := by
  induction h with
  | nil => rfl
  | cons h _ ih => simp [serializeOps, h.bytes, ih, encodeTokens]

/-- The environments given for the separators of a piece of a script, the first with number `n`, are
those of the script after them. -/
def EnvsAt (envOf : Bytes → Vm.Env) (envAt : Nat → Vm.Env) : Nat → List Token → List Token → Prop
  | _, [], _ => True
  | n, t :: ts, rest =>
    if t = .op 0xab then envAt n = envOf (encodeTokens (ts ++ rest)) ∧ EnvsAt envOf envAt (n + 1) ts rest
    else EnvsAt envOf envAt n ts rest

theorem envsAt_append (envOf : Bytes → Vm.Env) (envAt : Nat → Vm.Env) (n : Nat) (a b rest : List Token) :
    EnvsAt envOf envAt n (a ++ b) rest ↔
      EnvsAt envOf envAt n a (b ++ rest) ∧ EnvsAt envOf envAt (n + seps a) b rest := by
  induction a generalizing n with
  | nil => simp [EnvsAt, seps]
  | cons t ts ih =>
    simp only [List.cons_append, EnvsAt]
    by_cases h : t = .op 0xab
    · rw [if_pos h, if_pos h, ih, List.append_assoc]
      have : seps (t :: ts) = seps ts + 1 := by simp [seps, h]
      rw [this, show n + 1 + seps ts = n + (seps ts + 1) by omega]
      simp only [and_assoc]
    · rw [if_neg h, if_neg h, ih]
      have : seps (t :: ts) = seps ts := by simp [seps, h]
      rw [this]

/-- All separators of a script. -/
theorem envsAt_all (envOf : Bytes → Vm.Env) (bytes : List (Op Bytes) → Bytes)
    (hb : ∀ ops bs, serializeOps ops = .ok bs → bytes ops = bs)
    (ops : List (Op Bytes)) (ts : List Token) (h : List.Forall₂ Tok ops ts) (n : Nat) (envAt : Nat → Vm.Env)
    (he : ∀ k, envAt (n + k) = envOf (bytes (afterSeparator k ops))) :
    EnvsAt envOf envAt n ts [] := by
  induction h generalizing n with
  | nil => trivial
  | @cons op t ops ts hh ht ih =>
    simp only [EnvsAt]
    by_cases h : t = .op 0xab
    · have hop := hh.sep.mpr h
      rw [if_pos h]
      refine ⟨?_, ih (n + 1) ?_⟩
      · have := he 0
        simp only [afterSeparator, if_pos hop, Nat.add_zero] at this
        rw [this, List.append_nil, hb ops _ (toks_bytes ht)]
      · intro k
        have := he (k + 1)
        simp only [afterSeparator, if_pos hop] at this
        rw [← this, show n + 1 + k = n + (k + 1) by omega]
    · have hop : op ≠ .code .OP_CODESEPARATOR := fun hc => h (hh.sep.mp hc)
      rw [if_neg h]
      refine ih n ?_
      intro k
      rw [he k]
      cases k <;> simp only [afterSeparator, if_neg hop]

theorem toks_seps {ops : List (Op Bytes)} {ts : List Token} (h : List.Forall₂ Tok ops ts) :
    seps ts = ops.countP fun op => decide (op = .code .OP_CODESEPARATOR) := by
  induction h with
  | nil => rfl
  | @cons op t ops ts h _ ih =>
    simp only [seps, List.countP_cons] at ih ⊢
    rw [ih]
    by_cases hc : t = .op 0xab
    · rw [if_pos (by simpa using hc), if_pos (by simpa using h.sep.mpr hc)]
    · rw [if_neg (by simpa using hc), if_neg (by simpa using fun hx => hc (h.sep.mp hx))]

/-- Plain operations other than separators. -/
theorem plain_code_tokensFrom (ops : List (Op Bytes)) (h : ∀ op ∈ ops, Plain op) :
    ∃ ts, CodeFrom ops ts ∧ ((∀ op ∈ ops, op ≠ .code .OP_CODESEPARATOR) →
      ∀ envOf env rest ex s, ex.all id = true →
      Vm.runFrom envOf env (ts ++ rest) ex s = (execOps env ops s).bind (Vm.runFrom envOf env rest ex)) := by
  induction ops with
  | nil => exact ⟨[], CodeFrom.nil, by simp [execOps]⟩
  | cons op ops ih =>
    obtain ⟨t, q1, q3⟩ := plain_tokenFrom op (h op (by simp))
    obtain ⟨ts, c, hr⟩ := ih fun o ho => h o (by simp [ho])
    refine ⟨t :: ts, ⟨.cons q1 c.toks, ?_⟩, ?_⟩
    · intro envOf env rest ex s he
      rw [List.cons_append, q3, he]
      exact c.skip envOf env rest ex s he
    · intro hs envOf env rest ex s he
      rw [List.cons_append, q3, if_pos he, if_neg (hs op (by simp))]
      simp only [execOps, Option.bind_assoc]
      congr 1
      funext s'
      exact hr (fun o ho => hs o (by simp [ho])) envOf env rest ex s' he

/-! ### Which statements emit separators -/

theorem leaf_separator (l : Leaf) (g g' : Gen) (e : List Emit) (b : Bool) (hok : leafOk b l = true)
    (h : runLeaf l g = .ok (e, g')) :
    if isSeparator l then e.map Emit.op = [.code .OP_CODESEPARATOR]
    else ∀ op ∈ e.map Emit.op, op ≠ .code .OP_CODESEPARATOR := by
  cases l with
  | push op name =>
    simp only [leafOk, Bool.and_eq_true] at hok
    simp only [runLeaf, runPush, Res.ok.injEq, Prod.mk.injEq] at h
    rw [if_neg (by simp [isSeparator]), ← h.1]
    intro o ho
    simp only [List.map_cons, List.map_nil, List.mem_singleton] at ho
    subst ho
    rintro rfl
    simp [pushOk] at hok
  | forLoop => cases h
  | rustIf => cases h
  | opcode stmt =>
    simp only [runLeaf] at h
    obtain ⟨hd, i, o⟩ := stmt
    cases hd with
    | depthOf =>
      rw [if_neg (by simp [isSeparator])]
      simp only [runOpcode] at h
      split at h
      · obtain ⟨depth, fresh, _, _, _, _, hops, _⟩ := runDepthOf_ok h
        rw [hops]; simp
      · cases h
    | depthOfOffset =>
      rw [if_neg (by simp [isSeparator])]
      simp only [runOpcode] at h
      split at h
      · obtain ⟨depth, fresh, _, _, _, _, hops, _⟩ := runDepthOf_ok h
        rw [hops]; simp
      · cases h
    | transmute =>
      rw [if_neg (by simp [isSeparator])]
      simp only [runOpcode, runTransmute] at h
      split at h
      · replace h := of_ite_err h
        obtain ⟨_, _, h⟩ := Res.bind_eq_ok.mp h
        cases h
        simp
      · cases h
    | unknown => cases h
    | op c =>
      have key : e.map Emit.op = [.code c] := by
        have other : ∀ {stmt : OpcodeStmt}, runOther c stmt g = .ok (e, g') → e.map Emit.op = [.code c] := by
          intro stmt h
          unfold runOther at h
          split at h
          · cases h
          · obtain ⟨_, _, h⟩ := Res.bind_eq_ok.mp h
            obtain ⟨_, _, h⟩ := Res.bind_eq_ok.mp h
            obtain ⟨_, _, h⟩ := Res.bind_eq_ok.mp h
            cases h
            rfl
        have pick : ∀ {b : Bool} {stmt : OpcodeStmt}, runPickRoll c b stmt g = .ok (e, g') →
            e.map Emit.op = [.code c] := by
          intro b stmt h
          unfold runPickRoll at h
          obtain ⟨_, _, h⟩ := Res.bind_eq_ok.mp h
          obtain ⟨_, _, h⟩ := Res.bind_eq_ok.mp h
          obtain ⟨_, _, h⟩ := Res.bind_eq_ok.mp h
          obtain ⟨_, _, h⟩ := Res.bind_eq_ok.mp h
          obtain ⟨_, _, h⟩ := Res.bind_eq_ok.mp h
          cases h
          rfl
        unfold runOpcode at h
        dsimp only at h
        split at h
        · next hc =>
          cases hc
          obtain ⟨_, _, h⟩ := Res.bind_eq_ok.mp h
          obtain ⟨_, _, h⟩ := Res.bind_eq_ok.mp h
          obtain ⟨_, _, h⟩ := Res.bind_eq_ok.mp h
          cases h
          rfl
        · next hc =>
          cases hc
          obtain ⟨_, _, h⟩ := Res.bind_eq_ok.mp h
          obtain ⟨_, _, h⟩ := Res.bind_eq_ok.mp h
          obtain ⟨_, _, h⟩ := Res.bind_eq_ok.mp h
          cases h
          rfl
        · next hc => cases hc; exact pick h
        · next hc => cases hc; exact pick h
        · next hc =>
          cases hc
          split at h
          · exact other h
          · cases h
        all_goals next hc => cases hc
      rw [key]
      by_cases hs : c = .OP_CODESEPARATOR
      · subst hs; rfl
      · rw [if_neg]
        · simpa using hs
        · intro hc
          unfold isSeparator at hc
          split at hc
          · next q => cases q; exact hs rfl
          · cases hc

/-! ### Whole scripts -/

/-- Some environment. -/
def emptyEnv : Vm.Env := ⟨id, id, id, id, id, fun _ _ => none, fun _ _ _ => none, fun _ => false, fun _ => false⟩

/-- What is shown of a piece of a script. -/
def ProgSimFrom (k? : Option Nat) (p : Prog) (g g' : Gen) (ts : List Token) : Prop :=
  ∀ envOf envAt env passed v cond L rest ex, EnvsAt envOf envAt passed ts rest →
    Tracks v cond g L → cond.holds g.atoms = true → (∀ k, k? = some k → DDepth L k) → ex.all id = true →
    match runFrom envAt cond p passed g.atoms env L with
    | (.ok L', env') => Tracks v cond g' L' ∧
        Vm.runFrom envOf env (ts ++ rest) ex L.erase = Vm.runFrom envOf env' rest ex L'.erase
    | (.fail, _) => Vm.runFrom envOf env (ts ++ rest) ex L.erase = none
    | (.mismatch, _) => False
    | (.undecided, _) => True

theorem prog_simFrom (p : Prog) (k? : Option Nat) (g g' : Gen) (e : List Emit)
    (hwn : WellNested p) (hok : progOk k?.isSome p = true) (hg : GoodGen g)
    (hkeys : (g.states.map Prod.fst).Nodup)
    (hk : ∀ k, k? = some k → SDepth g k) (h : runProg p g = .ok (e, g')) :
    signature g' = signature g ∧ g'.atoms = g.atoms ∧ GoodGen g' ∧
    ∃ ts, CodeFrom (e.map Emit.op) ts ∧ seps ts = separators p ∧ ProgSimFrom k? p g g' ts := by
  induction p generalizing k? g g' e with
  | nil =>
    cases h
    refine ⟨rfl, rfl, hg, [], CodeFrom.nil, rfl, ?_⟩
    intro envOf envAt env passed v cond L rest ex _ ht hh _ he
    exact ⟨ht, rfl⟩
  | leaf l rest ih =>
    obtain ⟨w1, w2, w3, w4⟩ := hwn
    simp only [progOk, Bool.and_eq_true] at hok
    simp only [runProg] at h
    obtain ⟨⟨e1, g1⟩, h1, h⟩ := Res.bind_eq_ok.mp h
    obtain ⟨⟨e2, g2⟩, h2, h⟩ := Res.bind_eq_ok.mp h
    cases h
    obtain ⟨k'?, hsim⟩ := leaf_sim_all k? l g g1 e1 hg hk w1 w2 w3 hok.1 h1
    obtain ⟨a1, a2, a3, a4, a5, a6, _⟩ := hsim emptyEnv
    -- the rest is checked for the same depth, or for none
    obtain ⟨k2?, hk2, hk2'⟩ : ∃ k2? : Option Nat, k2?.isSome = isDepthOf l ∧
        (∀ k, k2? = some k → k'? = some k) := by
      cases hd : isDepthOf l with
      | true => exact ⟨k'?, a6 hd, fun k h => h⟩
      | false => exact ⟨none, rfl, by simp⟩
    obtain ⟨b1, b2, b3, ts2, c2, n2, sim2⟩ := ih k2? g1 g2 e2 w4 (by rw [hk2]; exact hok.2) a3
      (by rw [keys_of_signature a1]; exact hkeys) (fun k hk => a5 k (hk2' k hk)) h2
    have hsep := leaf_separator l g g1 e1 _ hok.1 h1
    cases hl : isSeparator l with
    | true =>
      rw [hl, if_pos rfl] at hsep
      have c1 : CodeFrom (e1.map Emit.op) [.op 0xab] := by
        rw [hsep]
        refine ⟨.cons ⟨.inr (by decide), rfl, by decide⟩ .nil, ?_⟩
        intro envOf env rest ex s he
        rw [List.singleton_append, runFrom_op _ _ _ (by decide) (by decide) (by decide) (by decide) (by decide)
          (by decide), he]
        rfl
      refine ⟨b1.trans a1, b2.trans a2, b3, [.op 0xab] ++ ts2, by rw [List.map_append]; exact c1.append c2, ?_, ?_⟩
      · rw [separators, hl, if_pos rfl, ← n2]
        simp [seps]
        omega
      intro envOf envAt env passed v cond L rest' ex hen ht hh hdd he
      have hleaf := (hsim env).2.2.2.2.2.2 v cond L ht hh hdd
      rw [List.singleton_append, EnvsAt, if_pos rfl] at hen
      simp only [Named.runFrom, hl, if_true]
      rw [List.singleton_append, List.cons_append, runFrom_op _ _ _ (by decide) (by decide) (by decide) (by decide)
        (by decide) (by decide), if_pos he, if_pos rfl, ← hen.1]
      rw [hsep] at hleaf
      have hx : execOps env [.code .OP_CODESEPARATOR] L.erase = some L.erase := by
        rw [execOps_one]; rfl
      rw [hx] at hleaf
      cases hr : Named.leaf env l L with
      | ok L1 =>
        rw [hr] at hleaf
        obtain ⟨t1, t2, t3⟩ := hleaf
        simp only [andThenIn]
        injection t2 with t2
        rw [t2]
        have := sim2 envOf envAt (envAt passed) (passed + 1) v cond L1 rest' ex hen.2 t1
          (by rw [a2]; exact hh) (fun k hk => t3 k (hk2' k hk)) he
        rw [a2] at this
        exact this
      | fail =>
        rw [hr] at hleaf
        cases hleaf
      | mismatch => rw [hr] at hleaf; exact hleaf
      | undecided => rw [hr] at hleaf; exact hleaf.elim
    | false =>
      rw [hl, if_neg (by simp)] at hsep
      obtain ⟨ts1, c1, r1⟩ := plain_code_tokensFrom (e1.map Emit.op) a4
      have n1 : seps ts1 = 0 := by
        rw [toks_seps c1.toks, List.countP_eq_zero]
        intro op hop
        simpa using hsep op hop
      refine ⟨b1.trans a1, b2.trans a2, b3, ts1 ++ ts2, by rw [List.map_append]; exact c1.append c2, ?_, ?_⟩
      · rw [separators, hl, if_neg (by simp), ← n2]
        simp only [seps, List.countP_append] at n1 ⊢
        rw [n1]
      intro envOf envAt env passed v cond L rest' ex hen ht hh hdd he
      have hleaf := (hsim env).2.2.2.2.2.2 v cond L ht hh hdd
      rw [envsAt_append, n1] at hen
      simp only [Named.runFrom, hl, Bool.false_eq_true, if_false]
      rw [List.append_assoc, r1 hsep _ _ _ _ _ he]
      cases hr : Named.leaf env l L with
      | ok L1 =>
        rw [hr] at hleaf
        obtain ⟨t1, t2, t3⟩ := hleaf
        simp only [andThenIn]
        rw [t2, Option.bind_some]
        have := sim2 envOf envAt env passed v cond L1 rest' ex hen.2 t1 (by rw [a2]; exact hh)
          (fun k hk => t3 k (hk2' k hk)) he
        rw [a2] at this
        exact this
      | fail =>
        rw [hr] at hleaf
        simp only at hleaf
        simp only [andThenIn]
        rw [hleaf]
        rfl
      | mismatch => rw [hr] at hleaf; exact hleaf
      | undecided => rw [hr] at hleaf; exact hleaf.elim
  | scriptIf ifOp thenStmts elseOp elseStmts endifOp rest iht ihe ihr =>
    obtain ⟨w1, w2, w3, w4, w5, w6, w7⟩ := hwn
    simp only [progOk, Bool.and_eq_true] at hok
    obtain ⟨⟨⟨ok1, ok2⟩, ok3⟩, ok4⟩ := hok
    simp only [runProg] at h
    obtain ⟨⟨e1, g1⟩, h1, h⟩ := Res.bind_eq_ok.mp h
    obtain ⟨x, hx, h⟩ := Res.bind_eq_ok.mp h
    obtain ⟨⟨e2, gt⟩, h2, h⟩ := Res.bind_eq_ok.mp h
    obtain ⟨⟨e3, gt'⟩, h3, h⟩ := Res.bind_eq_ok.mp h
    obtain ⟨⟨e4, ge⟩, h4, h⟩ := Res.bind_eq_ok.mp h
    obtain ⟨⟨e5, ge'⟩, h5, h⟩ := Res.bind_eq_ok.mp h
    obtain ⟨states, h6, h⟩ := Res.bind_eq_ok.mp h
    obtain ⟨⟨e6, g6⟩, h7, h⟩ := Res.bind_eq_ok.mp h
    cases h
    dsimp only at h2 h3 h4 h5 h6 h7
    obtain ⟨i1, i2, i3, item, i4, i5⟩ := if_spec ifOp w1 g g1 e1 x hg h1 hx
    have k1 : (g1.states.map Prod.fst).Nodup := by rw [keys_of_signature i5.signature]; exact hkeys
    -- the branches
    obtain ⟨t1, t2, t3, tst, ct, nt, simt⟩ := iht none { g1 with atoms := g1.atoms ++ [⟨x, true⟩] } gt e2 w5 ok2
      i3 k1 (by simp) h2
    obtain ⟨l1, l2, l3⟩ := else_code elseOp gt gt' e3 w2 h3
    obtain ⟨u1, u2, u3, tse, ce, ne, sime⟩ := ihe none { g1 with atoms := g1.atoms ++ [⟨x, false⟩], nIdent := gt'.nIdent }
      ge e4 w6 ok3 i3 k1 (by simp) h4
    have hen : endifOp.head = .op .OP_ENDIF := by
      unfold closes at w4
      split at w4
      · next q => cases q; rfl
      · cases w4
    obtain ⟨n1, n2, n3⟩ := bracket_spec .OP_ENDIF (.inr rfl) endifOp hen ge ge' e5 h5
    -- the merged states
    have hsig : signature gt' = signature ge' := by
      have p1 : signature gt' = signature gt := by simp only [signature, l1]
      have p2 : signature ge' = signature ge := by simp only [signature, n2]
      rw [p1, p2, t1, u1]
      rfl
    have hsige : signature ge' = signature g1 := by
      have p2 : signature ge' = signature ge := by simp only [signature, n2]
      rw [p2, u1]
      rfl
    have ke : (ge'.states.map Prod.fst).Nodup := by rw [keys_of_signature hsige]; exact k1
    obtain ⟨m1, m2, m3, m4⟩ := merge_spec gt' ge' _ _ states hsig ke h6
    have gm : GoodGen { ge' with states := states, atoms := g1.atoms } := by
      intro p hp
      rcases m2 p hp with hp | hp
      · rw [l1] at hp; exact t3 p hp
      · rw [n2] at hp; exact u3 p hp
    have sigm : signature { ge' with states := states, atoms := g1.atoms } = signature g := by
      rw [← i5.signature, ← hsige]
      exact m1
    obtain ⟨r1, r2, r3, tsr, cr, nr, simr⟩ := ihr none { ge' with states := states, atoms := g1.atoms } g6 e6 w7 ok4 gm
      (by rw [keys_of_signature sigm]; exact hkeys) (by simp) h7
    -- the tokens
    obtain ⟨tsl, htl, hskl, hthen, helse⟩ : ∃ tsl : List Token,
        List.Forall₂ Tok (e3.map Emit.op ++ e4.map Emit.op) tsl ∧
        (∀ envOf env rest ex s, ex.all id = false → Vm.runFrom envOf env (tsl ++ .op 0x68 :: rest) (false :: ex) s =
          Vm.runFrom envOf env rest ex s) ∧
        (∀ envOf env rest ex s, Vm.runFrom envOf env (tsl ++ .op 0x68 :: rest) (true :: ex) s =
          Vm.runFrom envOf env rest ex s) ∧
        ((elseOp = none ∧ tsl = [] ∧ tse = [] ∧ elseStmts = .nil ∧ ge.states = g1.states) ∨
          tsl = .op 0x67 :: tse) := by
      rcases l3 with ⟨q1, rfl⟩ | ⟨q1, q2⟩
      · have hnil := w3 q1
        subst hnil
        cases h4
        have htse : tse = [] := by
          have := ce.toks
          cases this
          rfl
        subst htse
        refine ⟨[], .nil, ?_, ?_, .inl ⟨q1, rfl, rfl, rfl, rfl⟩⟩
        · intro envOf env rest ex s _; exact runFrom_endif envOf env rest false ex s
        · intro envOf env rest ex s; exact runFrom_endif envOf env rest true ex s
      · refine ⟨.op 0x67 :: tse, ?_, ?_, ?_, .inr rfl⟩
        · rw [q2]
          exact .cons ⟨.inr (by decide), rfl, by decide⟩ ce.toks
        · intro envOf env rest ex s he
          rw [List.cons_append, runFrom_else, Bool.not_false, ce.skip _ _ _ _ _ (by simpa using he), runFrom_endif]
        · intro envOf env rest ex s
          rw [List.cons_append, runFrom_else, Bool.not_true, ce.skip _ _ _ _ _ (by simp), runFrom_endif]
    have nl : seps tsl = seps tse := by
      rcases helse with ⟨_, rfl, rfl, _⟩ | rfl
      · rfl
      · simp [seps]
    refine ⟨r1.trans sigm, r2.trans i5.1, r3, .op 0x63 :: (tst ++ (tsl ++ .op 0x68 :: tsr)), ?_, ?_, ?_⟩
    · refine ⟨?_, ?_⟩
      · simp only [List.map_append, i1, n1, List.append_assoc]
        have hif : Tok (.code .OP_IF) (.op 0x63) := ⟨.inr (by decide), rfl, by decide⟩
        have hen' : Tok (.code .OP_ENDIF) (.op 0x68) := ⟨.inr (by decide), rfl, by decide⟩
        have := forall₂_append ct.toks (forall₂_append htl (.cons hen' cr.toks))
        simp only [List.append_assoc] at this
        exact .cons hif this
      · intro envOf env rest' ex s he
        simp only [List.cons_append, List.append_assoc]
        rw [runFrom_if_skip envOf env _ ex he, ct.skip _ _ _ _ _ (by simp), hskl _ _ _ _ _ he,
          cr.skip _ _ _ _ _ he]
    · rw [separators, ← nt, ← ne, ← nr, ← nl]
      simp only [seps, List.countP_cons, List.countP_append]
      simp
      omega
    · intro envOf envAt env passed v cond L rest' ex hen2 ht hh _ he
      -- environments of the parts
      obtain ⟨envT, envE, envR⟩ : EnvsAt envOf envAt passed tst (tsl ++ .op 0x68 :: (tsr ++ rest')) ∧
          EnvsAt envOf envAt (passed + separators thenStmts) tse (.op 0x68 :: (tsr ++ rest')) ∧
          EnvsAt envOf envAt (passed + separators thenStmts + separators elseStmts) tsr rest' := by
        rw [EnvsAt, if_neg (by decide), envsAt_append, envsAt_append] at hen2
        obtain ⟨q1, q2, q3⟩ := hen2
        rw [EnvsAt, if_neg (by decide)] at q3
        refine ⟨by simpa using q1, ?_, by rw [← nt, ← ne, ← nl]; exact q3⟩
        rw [← nt]
        rcases helse with ⟨_, rfl, rfl, _⟩ | rfl
        · trivial
        · rw [EnvsAt, if_neg (by decide)] at q2
          exact q2
      obtain ⟨s, hm, hc, hs, ha⟩ := ht
      obtain ⟨s1, hm1, hc1, hP, _⟩ := i5.mem hm
      obtain ⟨it, z1, z2, z3⟩ := hP (by rw [hc]; exact hh)
      rw [z1] at hs
      simp only [Named.runFrom, i2]
      cases hL : L.stack with
      | nil => rw [hL] at hs; simp at hs
      | cons top st =>
        rw [hL] at hs
        simp only [List.map_cons, List.cons.injEq] at hs
        dsimp only
        rw [← hs.1, z3, i4]
        simp only [Bool.not_true, Bool.false_eq_true, if_false]
        have hT : Tracks v cond g1 ⟨st, L.alt⟩ := ⟨s1, hm1, hc1.trans hc, hs.2, by rw [z2]; exact ha⟩
        have herase : L.erase = ⟨top.value :: st.map LItem.value, L.alt.map LItem.value⟩ := by
          simp [LState.erase, hL]
        simp only [List.cons_append, List.append_assoc]
        rw [herase, runFrom_if_taken envOf env _ ex he]
        have hat : g1.atoms = g.atoms := i5.1
        cases hb : Vm.truthy top.value with
        | true =>
          simp only [if_true]
          cases hc1 : cond.holds (g.atoms ++ [⟨x, true⟩]) with
          | false => simp
          | true =>
            simp only [Bool.not_true, Bool.false_eq_true, if_false]
            have sm := simt envOf envAt env passed v cond ⟨st, L.alt⟩ (tsl ++ .op 0x68 :: (tsr ++ rest')) (true :: ex)
              envT hT (by rw [hat]; exact hc1) (by simp) (by simpa using he)
            dsimp only at sm
            rw [hat] at sm
            cases hr : Named.runFrom envAt cond thenStmts passed (g.atoms ++ [⟨x, true⟩]) env ⟨st, L.alt⟩ with
            | mk out env1 =>
            rw [hr] at sm
            cases out with
            | ok L1 =>
              obtain ⟨⟨s2, hm2, hc2, hs2, ha2⟩, sm2⟩ := sm
              simp only [andThenIn]
              cases hbal : (cond.holds (g.atoms ++ [⟨x, false⟩]) &&
                  namesAfter cond elseStmts (g.atoms ++ [⟨x, false⟩]) none (LState.names ⟨st, L.alt⟩) !=
                    some L1.names) with
              | true => simp
              | false =>
                simp only [Bool.false_eq_true, if_false]
                have hT2 : Tracks v cond { ge' with states := states, atoms := g1.atoms } L1 := by
                  cases hc3 : cond.holds (g.atoms ++ [⟨x, false⟩]) with
                  | false =>
                    exact ⟨s2, m3 v s2 (by rw [l1]; exact hm2) (by rw [hc2, hat]; exact hc1)
                      (by rw [hc2, hat]; exact hc3), hc2, hs2, ha2⟩
                  | true =>
                    rw [hc3] at hbal
                    simp only [Bool.true_and, bne_eq_false_iff_eq] at hbal
                    have lse := leaves_sound elseStmts none
                      { g1 with atoms := g1.atoms ++ [⟨x, false⟩], nIdent := gt'.nIdent } ge e4 w6 ok3 i3 k1 (by simp) h4
                    obtain ⟨s3, hm3, hc3', hs3, ha3⟩ := lse v cond _ _ (tracksN_names.mp hT)
                      (by dsimp only; rw [hat]; exact hc3) (by dsimp only; rw [hat]; exact hbal)
                    exact ⟨s3, m4 v s3 (by rw [n2]; exact hm3) (by rw [hc3', hat]; exact hc3), hc3', hs3, ha3⟩
                have sr := simr envOf envAt env1 _ v cond L1 rest' ex envR hT2 (by dsimp only; rw [hat]; exact hh)
                  (by simp) he
                dsimp only at sr
                rw [hat] at sr
                have hrun : Vm.runFrom envOf env (tst ++ (tsl ++ .op 0x68 :: (tsr ++ rest'))) (true :: ex)
                    ⟨st.map LItem.value, L.alt.map LItem.value⟩ = Vm.runFrom envOf env1 (tsr ++ rest') ex L1.erase := by
                  have : (⟨st.map LItem.value, L.alt.map LItem.value⟩ : Vm.State) =
                    (⟨st, L.alt⟩ : LState).erase := rfl
                  rw [this, sm2, hthen]
                rw [hrun]
                exact sr
            | fail => exact sm
            | mismatch => exact sm
            | undecided => trivial
        | false =>
          simp only [Bool.false_eq_true, if_false]
          cases hc1 : cond.holds (g.atoms ++ [⟨x, false⟩]) with
          | false => simp
          | true =>
            simp only [Bool.not_true, Bool.false_eq_true, if_false]
            rw [ct.skip _ _ _ _ _ (by simp)]
            have sm : match Named.runFrom envAt cond elseStmts (passed + separators thenStmts)
                (g.atoms ++ [⟨x, false⟩]) env ⟨st, L.alt⟩ with
                | (.ok L', env') => Tracks v cond ge L' ∧
                    Vm.runFrom envOf env (tsl ++ .op 0x68 :: (tsr ++ rest')) (false :: ex)
                      (⟨st.map LItem.value, L.alt.map LItem.value⟩) = Vm.runFrom envOf env' (tsr ++ rest') ex L'.erase
                | (.fail, _) => Vm.runFrom envOf env (tsl ++ .op 0x68 :: (tsr ++ rest')) (false :: ex)
                      (⟨st.map LItem.value, L.alt.map LItem.value⟩) = none
                | (.mismatch, _) => False
                | (.undecided, _) => True := by
              rcases helse with ⟨_, rfl, rfl, rfl, hst⟩ | rfl
              · refine ⟨?_, runFrom_endif envOf env _ _ ex _⟩
                obtain ⟨s2, hm2, hx⟩ := hT
                exact ⟨s2, by rw [hst]; exact hm2, hx⟩
              · have sm := sime envOf envAt env _ v cond ⟨st, L.alt⟩ (.op 0x68 :: (tsr ++ rest')) (true :: ex) envE hT
                  (by dsimp only; rw [hat]; exact hc1) (by simp) (by simpa using he)
                dsimp only at sm
                rw [hat] at sm
                rw [List.cons_append, runFrom_else, Bool.not_false]
                cases hr : Named.runFrom envAt cond elseStmts (passed + separators thenStmts)
                  (g.atoms ++ [⟨x, false⟩]) env ⟨st, L.alt⟩ with
                | mk out env1 =>
                rw [hr] at sm
                cases out with
                | ok L1 =>
                  refine ⟨sm.1, ?_⟩
                  have := sm.2
                  rw [runFrom_endif] at this
                  exact this
                | fail => exact sm
                | mismatch => exact sm
                | undecided => trivial
            cases hr : Named.runFrom envAt cond elseStmts (passed + separators thenStmts)
                (g.atoms ++ [⟨x, false⟩]) env ⟨st, L.alt⟩ with
            | mk out env1 =>
            rw [hr] at sm
            cases out with
            | ok L1 =>
              obtain ⟨⟨s2, hm2, hc2, hs2, ha2⟩, sm2⟩ := sm
              simp only [andThenIn]
              have hT2 : Tracks v cond { ge' with states := states, atoms := g1.atoms } L1 :=
                ⟨s2, m4 v s2 (by rw [n2]; exact hm2) (by rw [hc2, hat]; exact hc1), hc2, hs2, ha2⟩
              have sr := simr envOf envAt env1 _ v cond L1 rest' ex envR hT2 (by dsimp only; rw [hat]; exact hh)
                (by simp) he
              dsimp only at sr
              rw [hat] at sr
              rw [sm2]
              exact sr
            | fail => exact sm
            | mismatch => exact sm
            | undecided => trivial

/-- A run that is not undecided is an execution. -/
theorem runFrom_execFrom (envAt : Nat → Vm.Env) (cond : Predicate) (p : Prog) (passed : Nat) (known : List Atom)
    (env : Vm.Env) (s : LState) (h : (Named.runFrom envAt cond p passed known env s).1 ≠ .undecided) :
    Named.runFrom envAt cond p passed known env s = execFrom envAt p passed env s := by
  induction p generalizing passed known env s with
  | nil => rfl
  | leaf l rest ih =>
    simp only [Named.runFrom, execFrom] at h ⊢
    split
    · next hl =>
      rw [if_pos hl] at h
      cases hr : Named.leaf env l s with
      | ok s' => rw [hr] at h; exact ih _ known _ s' h
      | _ => rfl
    · next hl =>
      rw [if_neg hl] at h
      cases hr : Named.leaf env l s with
      | ok s' => rw [hr] at h; exact ih _ known _ s' h
      | _ => rfl
  | scriptIf i t e el en rest iht ihe ihr =>
    simp only [Named.runFrom, execFrom] at h ⊢
    split at h
    · next x top st hi hs =>
      split at h
      · next ha => rw [if_pos ha, if_pos ha]
      · next ha =>
        rw [if_neg ha, if_neg ha]
        split at h
        · exact absurd rfl h
        · next hc =>
          rw [if_neg hc]
          split at h
          · next ht =>
            rw [if_pos ht, if_pos ht]
            have hne : (Named.runFrom envAt cond t passed (known ++ [⟨x, true⟩]) env ⟨st, s.alt⟩).1 ≠ .undecided := by
              intro hu
              cases hr : Named.runFrom envAt cond t passed (known ++ [⟨x, true⟩]) env ⟨st, s.alt⟩ with
              | mk out env1 =>
              rw [hr] at h hu
              dsimp only at hu
              subst hu
              exact h rfl
            rw [← iht _ _ _ _ hne]
            cases hr : Named.runFrom envAt cond t passed (known ++ [⟨x, true⟩]) env ⟨st, s.alt⟩ with
            | mk out env1 =>
            rw [hr] at h
            cases out with
            | ok s' =>
              simp only [andThenIn] at h ⊢
              split at h
              · exact absurd rfl h
              · next hf => rw [if_neg hf]; exact ihr _ known _ _ h
            | _ => rfl
          · next ht =>
            rw [if_neg ht, if_neg ht]
            have hne : (Named.runFrom envAt cond el (passed + separators t) (known ++ [⟨x, false⟩]) env
                ⟨st, s.alt⟩).1 ≠ .undecided := by
              intro hu
              cases hr : Named.runFrom envAt cond el (passed + separators t) (known ++ [⟨x, false⟩]) env
                ⟨st, s.alt⟩ with
              | mk out env1 =>
              rw [hr] at h hu
              dsimp only at hu
              subst hu
              exact h rfl
            rw [← ihe _ _ _ _ hne]
            cases hr : Named.runFrom envAt cond el (passed + separators t) (known ++ [⟨x, false⟩]) env
              ⟨st, s.alt⟩ with
            | mk out env1 =>
            rw [hr] at h
            cases out with
            | ok s' =>
              simp only [andThenIn] at h ⊢
              exact ihr _ known _ _ h
            | _ => rfl
    · rfl
    · rfl

/-- Without separators, nothing changes. -/
theorem execFrom_exec (envAt : Nat → Vm.Env) (p : Prog) (hp : separators p = 0) (passed : Nat) (env : Vm.Env)
    (s : LState) : execFrom envAt p passed env s = (exec env p s, env) := by
  induction p generalizing passed env s with
  | nil => rfl
  | leaf l rest ih =>
    simp only [separators] at hp
    cases hl : isSeparator l with
    | true => rw [hl] at hp; simp at hp
    | false =>
      simp only [execFrom, exec, hl, Bool.false_eq_true, if_false]
      cases Named.leaf env l s with
      | ok s' => exact ih (by omega) _ _ _
      | _ => rfl
  | scriptIf i t e el en rest iht ihe ihr =>
    simp only [separators] at hp
    simp only [execFrom, exec]
    generalize i.inputNames = ns
    generalize s.stack = stack
    split
    · dsimp only
      split
      · rfl
      · split
        · rw [iht (by omega)]
          cases exec env t _ with
          | ok s' => exact ihr (by omega) _ _ _
          | _ => rfl
        · rw [ihe (by omega)]
          cases exec env el _ with
          | ok s' => exact ihr (by omega) _ _ _
          | _ => rfl
    · split
      · next hq => cases hq
      · rfl
      · next hq _ => exact absurd rfl hq
    · next h1 h2 =>
      split
      · exact (h2 _ _ _ rfl rfl).elim
      · exact absurd rfl h1
      · rfl

end GenProofs
end BCash
