import Verif.Props.Script
import Verif.Props.Destination
import Verif.Proofs.NumBytes
import Verif.Spec.Push

/-! # C58, C59: running serialised scripts -/

namespace BCash
open Spec

/-! ## Bytes determine tokens -/

namespace ExecProofs

theorem token_inj (t t' : Token) (r r' : Bytes) (hv : t.Valid) (hv' : t'.Valid)
    (h : t.encode ++ r = t'.encode ++ r') : t = t' ∧ r = r' := by
  have key : ∀ (k n n' : Nat) (d d' : Bytes), d.length < 256 ^ k → d'.length < 256 ^ k →
      leBytes k d.length ++ d ++ r = leBytes k d'.length ++ d' ++ r' → d = d' ∧ r = r' := by
    intro k n n' d d' h1 h2 h
    rw [List.append_assoc, List.append_assoc] at h
    obtain ⟨e1, e2⟩ := List.append_inj h (by simp)
    have hl := leBytes_inj h1 h2 e1
    exact List.append_inj e2 hl
  cases t with
  | op b =>
    cases t' with
    | op b' =>
      simp only [Token.encode, List.cons_append, List.nil_append, List.cons.injEq] at h
      exact ⟨by rw [h.1], h.2⟩
    | push f d =>
      exfalso
      cases f <;> simp only [Token.encode, List.cons_append, List.nil_append, List.cons.injEq] at h <;>
        simp only [Token.Valid] at hv hv'
      · have : b.toNat = d.length := by rw [h.1, ofNat_toNat_lt (by omega)]
        rcases hv with rfl | hv
        · simp at this; omega
        · omega
      all_goals
        rcases hv with rfl | hv
        · exact absurd h.1 (by decide)
        · rw [h.1] at hv; exact absurd hv (by decide)
  | push f d =>
    cases t' with
    | op b =>
      exfalso
      cases f <;> simp only [Token.encode, List.cons_append, List.nil_append, List.cons.injEq] at h <;>
        simp only [Token.Valid] at hv hv'
      · have : b.toNat = d.length := by rw [← h.1, ofNat_toNat_lt (by omega)]
        rcases hv' with rfl | hv'
        · simp at this; omega
        · omega
      all_goals
        rcases hv' with rfl | hv'
        · exact absurd h.1.symm (by decide)
        · rw [← h.1] at hv'; exact absurd hv' (by decide)
    | push f' d' =>
      have hdir : ∀ (d : Bytes) (b : UInt8), 1 ≤ d.length ∧ d.length ≤ 75 → 0x4c ≤ b.toNat →
          UInt8.ofNat d.length ≠ b := by
        intro d b h1 h2 h3
        have := congrArg UInt8.toNat h3
        rw [ofNat_toNat_lt (by omega)] at this
        omega
      cases f <;> cases f' <;>
        simp only [Token.encode, List.cons_append, List.cons.injEq] at h <;>
        simp only [Token.Valid] at hv hv'
      all_goals first
        | exact absurd h.1 (by decide)
        | exact absurd h.1 (hdir _ _ hv (by decide))
        | exact absurd h.1.symm (hdir _ _ hv' (by decide))
        | skip
      · have hl : d.length = d'.length := by
          have := congrArg UInt8.toNat h.1
          rwa [ofNat_toNat_lt (by omega), ofNat_toNat_lt (by omega)] at this
        obtain ⟨e1, e2⟩ := List.append_inj h.2 hl
        exact ⟨by rw [e1], e2⟩
      · obtain ⟨e1, e2⟩ := key 1 0 0 d d' hv hv' h.2
        exact ⟨by rw [e1], e2⟩
      · obtain ⟨e1, e2⟩ := key 2 0 0 d d' hv hv' h.2
        exact ⟨by rw [e1], e2⟩
      · obtain ⟨e1, e2⟩ := key 4 0 0 d d' hv hv' h.2
        exact ⟨by rw [e1], e2⟩

theorem encode_ne_nil (t : Token) : t.encode ≠ [] := by
  cases t with
  | op b => simp [Token.encode]
  | push f d => cases f <;> simp [Token.encode]

theorem tokens_unique (ts ts' : List Token) (hv : ∀ t ∈ ts, t.Valid) (hv' : ∀ t ∈ ts', t.Valid)
    (h : encodeTokens ts = encodeTokens ts') : ts = ts' := by
  induction ts generalizing ts' with
  | nil =>
    cases ts' with
    | nil => rfl
    | cons t' ts' =>
      simp only [encodeTokens, List.map_nil, List.flatten_nil, List.map_cons, List.flatten_cons] at h
      exact absurd (List.append_eq_nil_iff.mp h.symm).1 (encode_ne_nil t')
  | cons t ts ih =>
    cases ts' with
    | nil =>
      simp only [encodeTokens, List.map_nil, List.flatten_nil, List.map_cons, List.flatten_cons] at h
      exact absurd (List.append_eq_nil_iff.mp h).1 (encode_ne_nil t)
    | cons t' ts' =>
      simp only [encodeTokens, List.map_cons, List.flatten_cons] at h
      obtain ⟨rfl, h2⟩ := token_inj t t' _ _ (hv t (by simp)) (hv' t' (by simp)) h
      rw [ih ts' (fun t h => hv t (by simp [h])) (fun t h => hv' t (by simp [h])) h2]

end ExecProofs

/-- The result of running script bytes is unique. -/
theorem runs_unique (env : Vm.Env) (script : Bytes) (s : Vm.State) (r r' : Option Vm.State)
    (h : Vm.Runs env script s r) (h' : Vm.Runs env script s r') : r = r' := by
  obtain ⟨ts, hv, e, rfl⟩ := h
  obtain ⟨ts', hv', e', rfl⟩ := h'
  rw [ExecProofs.tokens_unique ts ts' hv hv' (by rw [← e, ← e'])]

/-! ## C58: pushes -/

namespace ExecProofs

theorem encodeInt_numBytes (i : Int) (h : InScriptRange i) : encodeInt i = .ok (Vm.numBytes i) := by
  obtain ⟨v, h1, h2, h3, _⟩ := encodeInt_spec i
    ⟨by unfold InScriptRange at h; omega, by unfold InScriptRange at h; omega⟩
  rw [h1, (NumProofs.numBytes_eq_iff i v).mpr ⟨h2, h3⟩]

/-- Integers are pushed as their minimal encoding. -/
theorem serializeOp_pushInteger (i : Int) (h : InScriptRange i) :
    serializeOp (.pushInteger i) = serializeOp (.pushByteArray (Vm.numBytes i) true) := by
  simp only [serializeOp]
  by_cases c1 : i = -1
  · rw [if_pos c1, c1]; rfl
  rw [if_neg c1]
  by_cases c2 : i = 0
  · rw [if_pos c2, c2]; rfl
  rw [if_neg c2]
  by_cases c3 : 1 ≤ i ∧ i ≤ 16
  · rw [if_pos c3]
    have : i = 1 ∨ i = 2 ∨ i = 3 ∨ i = 4 ∨ i = 5 ∨ i = 6 ∨ i = 7 ∨ i = 8 ∨ i = 9 ∨ i = 10 ∨
      i = 11 ∨ i = 12 ∨ i = 13 ∨ i = 14 ∨ i = 15 ∨ i = 16 := by omega
    rcases this with h | h | h | h | h | h | h | h | h | h | h | h | h | h | h | h <;>
      rw [h] <;> rfl
  rw [if_neg c3, encodeInt_numBytes i h]

theorem stackItem_pushToken (d : Bytes) (m : Bool) : (pushToken d m).stackItem = some d := by
  cases m with
  | true => exact (stackItem_pushToken_min d).1
  | false => unfold pushToken; simp only [Bool.false_and]; split <;> (try split) <;> simp_all [Token.stackItem]

theorem push_token (op : Op Bytes) (d : Bytes) (hw : op.WellFormed) (hd : Vm.item op = some d) :
    ∃ t : Token, t.Valid ∧ serializeOp op = .ok t.encode ∧ t.stackItem = some d := by
  cases op with
  | code c => cases hd
  | invalid b => cases hd
  | pushByteArray a m =>
    simp only [Vm.item, Option.some.injEq] at hd
    subst hd
    exact ⟨pushToken a m, pushToken_valid a m hw, serializePushBytes_token a m hw,
      stackItem_pushToken a m⟩
  | pushBoolean b =>
    cases hd
    cases b
    · exact ⟨.op 0, .inl rfl, rfl, rfl⟩
    · exact ⟨.op 0x51, .inr (by decide), rfl, rfl⟩
  | pushInteger i =>
    cases hd
    have hl : (Vm.numBytes i).length < 2 ^ 32 := by
      have := NumProofs.numBytes_length_le4 i ⟨by simp only [Op.WellFormed, InScriptRange] at hw; omega,
        by simp only [Op.WellFormed, InScriptRange] at hw; omega⟩
      omega
    refine ⟨pushToken (Vm.numBytes i) true, pushToken_valid _ _ hl, ?_, stackItem_pushToken _ _⟩
    rw [serializeOp_pushInteger i hw]
    exact serializePushBytes_token _ _ hl

set_option maxRecDepth 100000 in
/-- Constants are pushed by their opcodes. -/
theorem main_const (env : Vm.Env) : ∀ b : UInt8, ∀ st : List Bytes,
    (b = 0 ∨ b = 0x4f ∨ (0x51 ≤ b.toNat ∧ b.toNat ≤ 0x60)) →
    Vm.main env b st = (Token.stackItem (.op b)).map (· :: st) := by
  intro b st
  have : ∀ n : Fin 256, (n.val = 0 ∨ n.val = 0x4f ∨ (0x51 ≤ n.val ∧ n.val ≤ 0x60)) →
      Vm.main env (UInt8.ofNat n.val) st = (Token.stackItem (.op (UInt8.ofNat n.val))).map (· :: st) := by
    intro ⟨n, hn⟩ h
    simp only at h
    have : n = 0 ∨ n = 0x4f ∨ n = 0x51 ∨ n = 0x52 ∨ n = 0x53 ∨ n = 0x54 ∨ n = 0x55 ∨ n = 0x56 ∨
      n = 0x57 ∨ n = 0x58 ∨ n = 0x59 ∨ n = 0x5a ∨ n = 0x5b ∨ n = 0x5c ∨ n = 0x5d ∨ n = 0x5e ∨
      n = 0x5f ∨ n = 0x60 := by omega
    rcases this with h | h | h | h | h | h | h | h | h | h | h | h | h | h | h | h | h | h <;>
      subst h <;> rfl
  intro h
  have h2 := this ⟨b.toNat, b.toNat_lt⟩ (by
    rcases h with rfl | rfl | h
    · exact .inl rfl
    · exact .inr (.inl rfl)
    · exact .inr (.inr h))
  simpa using h2

/-- A token that pushes an item. -/
theorem run_push (env : Vm.Env) (t : Token) (d : Bytes) (hd : t.stackItem = some d) (ts : List Token)
    (exec : List Bool) (s : Vm.State) :
    Vm.run env (t :: ts) exec s =
      if exec.all id then Vm.run env ts exec ⟨d :: s.stack, s.alt⟩ else Vm.run env ts exec s := by
  cases t with
  | push f d' => cases hd; rfl
  | op b =>
    have hb : b = 0 ∨ b = 0x4f ∨ (0x51 ≤ b.toNat ∧ b.toNat ≤ 0x60) := by
      simp only [Token.stackItem] at hd
      split at hd
      · exact .inl (by assumption)
      split at hd
      · exact .inr (.inl (by assumption))
      split at hd
      · exact .inr (.inr (by assumption))
      · cases hd
    have hne : ∀ c : UInt8, 0x61 ≤ c.toNat → b ≠ c := by
      rintro c hc rfl
      rcases hb with rfl | rfl | h
      · exact absurd hc (by decide)
      · exact absurd hc (by decide)
      · omega
    have hstep : Vm.step env b s = some ⟨d :: s.stack, s.alt⟩ := by
      unfold Vm.step
      rw [if_neg (hne _ (by decide)), if_neg (hne _ (by decide)), main_const env b s.stack hb, hd]
      rfl
    have hcond : ¬ (b = 0x63 ∨ b = 0x64) := by
      rintro (h | h) <;> exact hne _ (by decide) h
    have hcond2 : ¬ (b = 0x65 ∨ b = 0x66) := by
      rintro (h | h) <;> exact hne _ (by decide) h
    rw [Vm.run.eq_def]
    dsimp only
    rw [if_neg hcond, if_neg (hne _ (by decide)), if_neg (hne _ (by decide)), if_neg hcond2, hstep]
    rfl

end ExecProofs
open ExecProofs

/-- **C58**: a script made of pushes leaves exactly the pushed values on the stack, the last one on top,
whatever was there before: byte strings as they are, truth values as 1 and empty, integers as their
minimal encoding. -/
theorem C58_pushes (env : Vm.Env) (ops : List (Op Bytes)) (items : List Bytes)
    (hw : ∀ op ∈ ops, op.WellFormed) (hi : ops.map Vm.item = items.map some) (s : Vm.State) :
    ∃ bs, serializeOps ops = .ok bs ∧ Vm.Runs env bs s (some ⟨items.reverse ++ s.stack, s.alt⟩) := by
  suffices h : ∃ ts : List Token, (∀ t ∈ ts, t.Valid) ∧ serializeOps ops = .ok (encodeTokens ts) ∧
      Vm.run env ts [] s = some ⟨items.reverse ++ s.stack, s.alt⟩ by
    obtain ⟨ts, h1, h2, h3⟩ := h
    exact ⟨_, h2, ts, h1, rfl, h3⟩
  induction ops generalizing items s with
  | nil =>
    cases items with
    | nil => exact ⟨[], by simp, rfl, rfl⟩
    | cons x xs => simp at hi
  | cons op ops ih =>
    cases items with
    | nil => simp at hi
    | cons x xs =>
      simp only [List.map_cons, List.cons.injEq] at hi
      obtain ⟨t, ht1, ht2, ht3⟩ := push_token op x (hw op (by simp)) hi.1
      obtain ⟨ts, h1, h2, h3⟩ := ih xs (fun o h => hw o (by simp [h])) hi.2 ⟨x :: s.stack, s.alt⟩
      refine ⟨t :: ts, by simpa using ⟨ht1, h1⟩, ?_, ?_⟩
      · simp [serializeOps, ht2, h2, encodeTokens]
      · rw [run_push env t x ht3]
        simp only [List.all_nil, if_true, h3, List.reverse_cons, List.append_assoc, List.singleton_append]

/-- Non-vacuity: -1, 300, true and two bytes. -/
example : serializeOps [.pushInteger (-1), .pushInteger 300, .pushBoolean true, .pushByteArray [7, 8] true] =
      .ok [0x4f, 2, 0x2c, 1, 0x51, 2, 7, 8] ∧
    [Op.pushInteger (-1), .pushInteger 300, .pushBoolean true, .pushByteArray [7, 8] true].map Vm.item =
      [[0x81], [0x2c, 1], [1], [7, 8]].map some := by decide

/-! ## C59: standard scripts -/

/-- **C59** (P2PKH): the unlocking script the P2PKH signatory builds from a signature satisfies the
locking script of an address exactly when the public key hashes to the address and the signature (with
its flag byte) is accepted. -/
theorem C59_p2pkh (env : Vm.Env) (a : Address) (s : P2PKHSignatory) (sig : Bytes)
    (ha : a.addrType = .P2PKH)
    (hs : sig.length + 1 < 2 ^ 32) :
    ∃ unlocking locking, serializeOps (s.buildScript sig) = .ok unlocking ∧
      serializeOps a.toScript = .ok locking ∧
      (Vm.Accepts env unlocking locking ↔
        env.hash160 s.pubkey.1 = a.hash.1 ∧
        env.checkSig (sig ++ [s.sigHashFlags.toUInt8]) s.pubkey.1 = some true) := by
  obtain ⟨ul, hul, rul⟩ := C58_pushes env (s.buildScript sig)
    [sig ++ [s.sigHashFlags.toUInt8], s.pubkey.1] (by
      intro op hop
      simp only [P2PKHSignatory.buildScript, List.mem_cons, List.not_mem_nil, or_false] at hop
      rcases hop with rfl | rfl
      · simpa [Op.WellFormed] using hs
      · simp only [Op.WellFormed]
        have := s.pubkey.2
        omega) rfl ⟨[], []⟩
  obtain ⟨t, tv, te, ti⟩ := push_token (.pushByteArray a.hash.1 true) a.hash.1 (by
    simp only [Op.WellFormed]
    have := a.hash.2
    omega) rfl
  have hl : serializeOps a.toScript =
      .ok (encodeTokens [.op 0x76, .op 0xa9, t, .op 0x88, .op 0xac]) := by
    simp only [Address.toScript, ha, p2pkhScript, serializeOps, te, Res.bind_ok, encodeTokens]
    rfl
  have rl : ∀ st, Vm.Runs env (encodeTokens [.op 0x76, .op 0xa9, t, .op 0x88, .op 0xac]) st
      (Vm.run env [.op 0x76, .op 0xa9, t, .op 0x88, .op 0xac] [] st) := fun st =>
    ⟨_, by
      intro t' h
      simp only [List.mem_cons, List.not_mem_nil, or_false] at h
      rcases h with rfl | rfl | rfl | rfl | rfl
      · exact .inr (by decide)
      · exact .inr (by decide)
      · exact tv
      · exact .inr (by decide)
      · exact .inr (by decide), rfl, rfl⟩
  have run1 : Vm.run env [.op 0x76, .op 0xa9, t, .op 0x88, .op 0xac] []
      ⟨[s.pubkey.1, sig ++ [s.sigHashFlags.toUInt8]], []⟩ =
      if env.hash160 s.pubkey.1 = a.hash.1 then
        (env.checkSig (sig ++ [s.sigHashFlags.toUInt8]) s.pubkey.1).map fun b => ⟨[Vm.boolBytes b], []⟩
      else none := by
    have e1 : Vm.run env [.op 0x76, .op 0xa9, t, .op 0x88, .op 0xac] []
        ⟨[s.pubkey.1, sig ++ [s.sigHashFlags.toUInt8]], []⟩ = Vm.run env [t, .op 0x88, .op 0xac] []
        ⟨[env.hash160 s.pubkey.1, s.pubkey.1, sig ++ [s.sigHashFlags.toUInt8]], []⟩ := rfl
    rw [e1, run_push env t a.hash.1 ti]
    simp only [List.all_nil, if_true]
    have e2 : ∀ x y st, Vm.run env [.op 0x88, .op 0xac] [] ⟨y :: x :: st, []⟩ =
        if x = y then Vm.run env [.op 0xac] [] ⟨st, []⟩ else none := by
      intro x y st
      by_cases hxy : x = y
      · subst hxy
        rw [if_pos rfl, Vm.run.eq_def]
        simp [Vm.step, Vm.main, Vm.bin, Vm.verify]
      · rw [if_neg hxy, Vm.run.eq_def]
        simp [Vm.step, Vm.main, Vm.bin, Vm.verify, hxy]
    rw [e2]
    congr 1
    rw [Vm.run.eq_def]
    simp only [Vm.step, Vm.main, Vm.bin]
    cases env.checkSig (sig ++ [s.sigHashFlags.toUInt8]) s.pubkey.1 <;> rfl
  refine ⟨_, _, hul, hl, ?_⟩
  constructor
  · rintro ⟨s1, s2, top, rest, h1, h2, h3, h4⟩
    have hs1 := runs_unique env _ _ _ _ h1 rul
    cases hs1
    have hs2 := runs_unique env _ _ _ _ h2 (rl _)
    simp only [List.reverse_cons, List.reverse_nil, List.nil_append, List.append_nil,
      List.singleton_append] at hs2
    rw [run1] at hs2
    split at hs2
    · next hh =>
      refine ⟨hh, ?_⟩
      cases hc : env.checkSig (sig ++ [s.sigHashFlags.toUInt8]) s.pubkey.1 with
      | none => rw [hc] at hs2; cases hs2
      | some b =>
        rw [hc] at hs2
        simp only [Option.map_some, Option.some.injEq] at hs2
        subst hs2
        simp only [List.cons.injEq] at h3
        cases b with
        | true => rfl
        | false => rw [← h3.1] at h4; exact absurd h4 (by decide)
    · cases hs2
  · rintro ⟨h1, h2⟩
    refine ⟨_, ⟨[Vm.boolBytes true], []⟩, _, _, rul, ?_, rfl, by decide⟩
    have := rl ⟨[s.pubkey.1, sig ++ [s.sigHashFlags.toUInt8]], []⟩
    rw [run1, if_pos h1, h2] at this
    exact this

/-- Non-vacuity: an accepting and a rejecting environment for some address and public key. -/
def exampleSpendEnv (ok : Option Bool) : Vm.Env where
  ripemd160 x := x
  sha1 x := x
  sha256 x := x
  hash160 x := x.take 20
  hash256 x := x
  checkSig _ _ := ok
  checkDataSig _ _ _ := none
  lockTimeOk _ := true
  sequenceOk _ := true

example (a : Address) (s : P2PKHSignatory) (h : s.pubkey.1.take 20 = a.hash.1)
    (ha : a.addrType = .P2PKH) :
    ∃ u l, serializeOps (s.buildScript [1, 2]) = .ok u ∧ serializeOps a.toScript = .ok l ∧
      Vm.Accepts (exampleSpendEnv (some true)) u l ∧ ¬ Vm.Accepts (exampleSpendEnv (some false)) u l ∧
      ¬ Vm.Accepts (exampleSpendEnv none) u l := by
  obtain ⟨u, l, h1, h2, h3⟩ := C59_p2pkh (exampleSpendEnv (some true)) a s [1, 2] ha (by decide)
  obtain ⟨u', l', h1', h2', h3'⟩ := C59_p2pkh (exampleSpendEnv (some false)) a s [1, 2] ha (by decide)
  obtain ⟨u2, l2, h12, h22, h32⟩ := C59_p2pkh (exampleSpendEnv none) a s [1, 2] ha (by decide)
  rw [h1] at h1' h12; rw [h2] at h2' h22
  cases h1'; cases h12; cases h2'; cases h22
  exact ⟨u, l, h1, h2, h3.mpr ⟨h, rfl⟩, fun h => absurd (h3'.mp h).2 (by simp [exampleSpendEnv]),
    fun h => absurd (h32.mp h).2 (by simp [exampleSpendEnv])⟩

/-- **C59** (P2SH): the locking script of a script-hash address takes the topmost item and leaves whether
it hashes to the address; the items below stay for the redeem script. -/
theorem C59_p2sh (env : Vm.Env) (a : Address) (ha : a.addrType = .P2SH) (redeem : Bytes)
    (rest : List Bytes) :
    ∃ locking, serializeOps a.toScript = .ok locking ∧
      Vm.Runs env locking ⟨redeem :: rest, []⟩
        (some ⟨Vm.boolBytes (decide (env.hash160 redeem = a.hash.1)) :: rest, []⟩) := by
  obtain ⟨t, tv, te, ti⟩ := push_token (.pushByteArray a.hash.1 true) a.hash.1 (by
    simp only [Op.WellFormed]
    have := a.hash.2
    omega) rfl
  refine ⟨encodeTokens [.op 0xa9, t, .op 0x87], ?_, [.op 0xa9, t, .op 0x87], ?_, rfl, ?_⟩
  · simp only [Address.toScript, ha, p2shScript, serializeOps, te, Res.bind_ok, encodeTokens]
    rfl
  · intro t' h
    simp only [List.mem_cons, List.not_mem_nil, or_false] at h
    rcases h with rfl | rfl | rfl
    · exact .inr (by decide)
    · exact tv
    · exact .inr (by decide)
  · have e1 : Vm.run env [.op 0xa9, t, .op 0x87] [] ⟨redeem :: rest, []⟩ =
        Vm.run env [t, .op 0x87] [] ⟨env.hash160 redeem :: rest, []⟩ := rfl
    rw [e1, run_push env t a.hash.1 ti]
    simp only [List.all_nil, if_true]
    have e2 : Vm.run env [.op 0x87] [] ⟨a.hash.1 :: env.hash160 redeem :: rest, []⟩ =
        some ⟨Vm.boolBytes (env.hash160 redeem == a.hash.1) :: rest, []⟩ := rfl
    rw [e2]
    by_cases h : env.hash160 redeem = a.hash.1
    · simp [h]
    · have hb : (env.hash160 redeem == a.hash.1) = false := by simpa using h
      rw [hb, decide_eq_false h]

end BCash
