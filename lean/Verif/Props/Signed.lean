import Verif.Props.Contract

/-! # C85: what is signed is what a contract checks -/

namespace BCash
variable {Dyn : Type}
open TxBuilder Spec Spec.Macro Spec.Named Macro GenProofs SpendProofs

/-! ## Specification -/

/-- OP_CHECKSIG and OP_CHECKSIGVERIFY. -/
def Spec.Named.isCheck : Leaf → Bool
  | .opcode ⟨.op .OP_CHECKSIG, _, _⟩ => true
  | .opcode ⟨.op .OP_CHECKSIGVERIFY, _, _⟩ => true
  | _ => false

/-- Statements without signature checks and code separators. -/
def Spec.Named.quiet : Prog → Bool
  | .nil => true
  | .leaf l rest => !isCheck l && !isSeparator l && quiet rest
  | .scriptIf _ thenStmts _ elseStmts _ rest => quiet thenStmts && quiet elseStmts && quiet rest

/-- Signatures are checked only after the one code separator of the script, which is not in a branch. -/
def Spec.Named.checksAfterSeparator : Prog → Bool
  | .nil => false
  | .leaf l rest => if isSeparator l then separators rest == 0 else !isCheck l && checksAfterSeparator rest
  | .scriptIf _ thenStmts _ elseStmts _ rest => quiet thenStmts && quiet elseStmts && checksAfterSeparator rest

/-- The script has no code separator, or all signature checks come after its only one. -/
def Spec.Named.checksOnce (p : Prog) : Bool := separators p == 0 || checksAfterSeparator p

/-! ## Proof -/

namespace SignedProofs

/-- Environments that differ in signature checks only. -/
def SameBut (a b : Vm.Env) : Prop := ∃ f, b = { a with checkSig := f }

theorem main_same {a b : Vm.Env} (h : SameBut a b) (o : Opcode) (h1 : o ≠ .OP_CHECKSIG)
    (h2 : o ≠ .OP_CHECKSIGVERIFY) (s : List Bytes) : Vm.main a o.toByte s = Vm.main b o.toByte s := by
  obtain ⟨f, rfl⟩ := h
  cases o <;> first | exact absurd rfl h1 | exact absurd rfl h2 | rfl

theorem leaf_same {a b : Vm.Env} (h : SameBut a b) (l : Leaf) (hl : isCheck l = false) (s : LState) :
    Named.leaf a l s = Named.leaf b l s := by
  cases l with
  | push op name => rfl
  | forLoop => rfl
  | rustIf => rfl
  | opcode stmt =>
    obtain ⟨hd, i, o⟩ := stmt
    cases hd with
    | op c =>
      by_cases h1 : c = .OP_CHECKSIG
      · subst h1; cases hl
      by_cases h2 : c = .OP_CHECKSIGVERIFY
      · subst h2; cases hl
      have hm := main_same h c h1 h2
      cases c <;> first
        | exact absurd rfl h1
        | exact absurd rfl h2
        | rfl
        | (simp only [Named.leaf, ordinary, hm])
    | _ => rcases i with _ | ⟨_ | ⟨x | ⟨t, n⟩, _ | ⟨y | ⟨t2, n2⟩, _ | ⟨z, zs⟩⟩⟩⟩ <;> rfl

theorem quiet_same {a b : Vm.Env} (h : SameBut a b) (p : Prog) (hp : quiet p = true) (s : LState) :
    exec a p s = exec b p s := by
  induction p generalizing s with
  | nil => rfl
  | leaf l rest ih =>
    simp only [quiet, Bool.and_eq_true, Bool.not_eq_true'] at hp
    simp only [exec]
    rw [leaf_same h l hp.1.1]
    cases Named.leaf b l s with
    | ok s' => exact ih hp.2 s'
    | _ => rfl
  | scriptIf i t e el en rest iht ihe ihr =>
    simp only [quiet, Bool.and_eq_true] at hp
    simp only [exec]
    rw [show exec a t = exec b t from funext (iht hp.1.1), show exec a el = exec b el from funext (ihe hp.1.2),
      show exec a rest = exec b rest from funext (ihr hp.2)]

theorem quiet_seps (p : Prog) (hp : quiet p = true) : separators p = 0 := by
  induction p with
  | nil => rfl
  | leaf l rest ih =>
    simp only [quiet, Bool.and_eq_true, Bool.not_eq_true'] at hp
    simp only [separators, hp.1.2, ih hp.2]
    rfl
  | scriptIf i t e el en rest iht ihe ihr =>
    simp only [quiet, Bool.and_eq_true] at hp
    simp only [separators, iht hp.1.1, ihe hp.1.2, ihr hp.2]

theorem once_exec (envAt : Nat → Vm.Env) (env : Vm.Env) (h : SameBut env (envAt 0)) (p : Prog)
    (hp : checksAfterSeparator p = true) (s : LState) :
    (execFrom envAt p 0 env s).1 = exec (envAt 0) p s := by
  induction p generalizing s with
  | nil => cases hp
  | leaf l rest ih =>
    simp only [checksAfterSeparator] at hp
    simp only [execFrom, exec]
    cases hl : isSeparator l with
    | true =>
      simp only [hl, if_true, beq_iff_eq] at hp ⊢
      have hc : isCheck l = false := by
        unfold isSeparator at hl
        split at hl
        · rfl
        · cases hl
      rw [leaf_same h l hc]
      cases Named.leaf (envAt 0) l s with
      | ok s' =>
        show (execFrom envAt rest 1 (envAt 0) s').1 = _
        rw [execFrom_exec _ _ hp]
        rfl
      | _ => rfl
    | false =>
      simp only [hl, Bool.false_eq_true, if_false, Bool.and_eq_true, Bool.not_eq_true'] at hp ⊢
      rw [leaf_same h l hp.1]
      cases Named.leaf (envAt 0) l s with
      | ok s' => exact ih hp.2 s'
      | _ => rfl
  | scriptIf i t e el en rest iht ihe ihr =>
    simp only [checksAfterSeparator, Bool.and_eq_true] at hp
    simp only [execFrom, exec]
    have st := quiet_seps t hp.1.1
    have se := quiet_seps el hp.1.2
    generalize i.inputNames = ns
    generalize s.stack = stack
    split
    · dsimp only
      split
      · rfl
      · split
        · rw [execFrom_exec _ _ st, quiet_same h t hp.1.1]
          cases exec (envAt 0) t _ with
          | ok s' => rw [st, se]; exact ihr hp.2 s'
          | _ => rfl
        · rw [execFrom_exec _ _ se, quiet_same h el hp.1.2]
          cases exec (envAt 0) el _ with
          | ok s' => rw [st, se]; exact ihr hp.2 s'
          | _ => rfl
    · split
      · next hq => cases hq
      · rfl
      · next hq _ => exact absurd rfl hq
    · next h1 h2 =>
      split
      · exact (h2 _ _ _ rfl rfl).elim
      · exact absurd rfl h1
      · rfl

theorem afterSeparator_code {ops code : Script} (h : IsScriptCode ops code)
    (hs : ∃ op ∈ ops, op = .code .OP_CODESEPARATOR) : afterSeparator 0 ops = code := by
  rcases h with ⟨hn, _⟩ | ⟨pre, rfl, hn⟩
  · obtain ⟨op, ho, rfl⟩ := hs
    exact absurd rfl (hn _ ho)
  · clear hs
    induction pre with
    | nil => simp [afterSeparator]
    | cons a as ih =>
      rw [List.cons_append, afterSeparator, if_neg (hn a (by simp))]
      exact ih fun op ho => hn op (by simp [ho])

theorem checksAfter_seps (p : Prog) (hp : checksAfterSeparator p = true) : separators p ≠ 0 := by
  induction p with
  | nil => cases hp
  | leaf l rest ih =>
    simp only [checksAfterSeparator] at hp
    simp only [separators]
    cases hl : isSeparator l with
    | true => simp
    | false =>
      simp only [hl, Bool.false_eq_true, if_false, Bool.and_eq_true] at hp
      have := ih hp.2
      simpa using this
  | scriptIf i t e el en rest iht ihe ihr =>
    simp only [checksAfterSeparator, Bool.and_eq_true] at hp
    have := ihr hp.2
    simp only [separators]
    omega

theorem serializeOps_suffix (pre code : List (Op Bytes)) (bs : Bytes) (h : serializeOps (pre ++ code) = .ok bs) :
    ∃ y, serializeOps code = .ok y ∧ y.length ≤ bs.length := by
  induction pre generalizing bs with
  | nil => exact ⟨bs, h, Nat.le_refl _⟩
  | cons op ops ih =>
    simp only [List.cons_append, serializeOps, Res.bind_eq_ok, Res.ok.injEq] at h
    obtain ⟨x, _, y, hy, rfl⟩ := h
    obtain ⟨z, hz, hl⟩ := ih y hy
    exact ⟨z, hz, by simp; omega⟩

theorem generated_seps (order : List (String × VState) → List (String × VState))
    (horder : ∀ l, (order l).Perm l) (d : Decl) (p : Prog) (e : List Emit) (g : Gen)
    (hgen : generate order d p = .ok (e, g)) (hd : declOk d) (hp : WellNested p) (hok : progOk false p = true) :
    (e.map Emit.op).countP (fun op => decide (op = .code .OP_CODESEPARATOR)) = separators p := by
  unfold generate at hgen
  obtain ⟨states, hinit, hrun⟩ := Res.bind_eq_ok.mp hgen
  have hstates := initial_spec d hd states hinit
  subst hstates
  have hperm := horder (canon (variantsOf d) (inputsOf d))
  obtain ⟨_, _, _, ts, code, n, _⟩ := prog_simFrom p none _ g e hp hok
    (canon_good d hd _ (fun q hq => hperm.mem_iff.mp hq))
    ((hperm.map Prod.fst).nodup_iff.mpr (canon_keys d hd)) (by simp) hrun
  rw [← n, toks_seps code.toks]

/-- Execution of such a script checks all signatures against its script code. -/
theorem execScript_once (c : Crypto) (t : WireTx) (idx : Nat) (i : WireInput) (value : Nat) (p : Prog)
    (ops code : Script) (hcount : ops.countP (fun op => decide (op = .code .OP_CODESEPARATOR)) = separators p)
    (honce : checksOnce p = true) (hcode : IsScriptCode ops code) (s : LState) :
    execScript (txEnv c t idx i value) p ops scriptBytes s =
      exec (txEnv c t idx i value (scriptBytes code)) p s := by
  unfold checksOnce at honce
  rcases Bool.or_eq_true _ _ |>.mp honce with h | h
  · have h : separators p = 0 := by simpa using h
    rw [C71_without_separators _ p h]
    have : code = ops := by
      rcases hcode with ⟨_, rfl⟩ | ⟨pre, rfl, _⟩
      · rfl
      · rw [h] at hcount
        simp at hcount
    rw [this]
  · have hex : ∃ op ∈ ops, op = .code .OP_CODESEPARATOR := by
      have hne := checksAfter_seps p h
      rw [← hcount] at hne
      obtain ⟨op, ho, hq⟩ := List.countP_pos_iff.mp (Nat.pos_of_ne_zero hne)
      exact ⟨op, ho, by simpa using hq⟩
    unfold execScript
    rw [once_exec _ _ ⟨_, rfl⟩ p h, afterSeparator_code hcode hex]

theorem afterSeparator_suffix (n : Nat) (ops : List (Op Bytes)) : ∃ pre, ops = pre ++ afterSeparator n ops := by
  induction ops generalizing n with
  | nil => cases n <;> exact ⟨[], rfl⟩
  | cons op ops ih =>
    cases n with
    | zero =>
      rw [afterSeparator]
      split
      · exact ⟨[op], rfl⟩
      · obtain ⟨pre, h⟩ := ih 0
        exact ⟨op :: pre, by rw [List.cons_append, ← h]⟩
    | succ n =>
      rw [afterSeparator]
      split
      · obtain ⟨pre, h⟩ := ih n
        exact ⟨op :: pre, by rw [List.cons_append, ← h]⟩
      · obtain ⟨pre, h⟩ := ih (n + 1)
        exact ⟨op :: pre, by rw [List.cons_append, ← h]⟩

theorem suffix_serialisable {ops pre code : Script} {rbytes : Bytes} (hr : Script.serOps ops = some rbytes)
    (hrl : rbytes.length < 2 ^ 32) (h : ops = pre ++ code) : code.Serialisable := by
  unfold Script.serOps at hr
  split at hr
  · next hb =>
    cases hr
    rw [h] at hb
    obtain ⟨y, hy, hl⟩ := serializeOps_suffix pre code rbytes hb
    exact ⟨y, by unfold Script.serOps; rw [hy], by omega⟩
  · cases hr

end SignedProofs
open SignedProofs

/-! ## C85 -/

/-- **C85** (partial: under the restrictions of `C71`, and for scripts that check signatures only after
their only code separator, if they have one; otherwise it is false, see below): take a contract written
with the macro, spent as in `C71`. The input of the completed transaction satisfies the output exactly
if the statements as written run to the end and leave one true item, when all their signature checks are
against the preimage that was handed to the signatory: a signature followed by a flag byte of the signatory
is accepted exactly if it verifies for the hash of the serialised preimage for these flags. -/
theorem C85_signed_is_checked_partial (c : Crypto) (sz : Layout) (H : Bytes → Hash256)
    (hH : ∀ x, (H x).1 = c.hash256 x)
    (h160 : Bytes → Hash160) (h160c : ∀ x, (h160 x).1 = c.hash160 x)
    -- the contract
    (order : List (String × VState) → List (String × VState)) (horder : ∀ l, (order l).Perm l)
    (d : Decl) (p : Prog) (e : List Emit) (g : Gen) (hgen : generate order d p = .ok (e, g))
    (hd : declOk d) (hp : WellNested p) (hok : progOk false p = true) (honce : checksOnce p = true)
    (rbytes : Bytes) (hr : Script.serOps (e.map Emit.op) = some rbytes) (hrl : rbytes.length < 2 ^ 32)
    (pre : Bytes) (a : Address) (ha : Address.fromRedeemScript h160 pre rbytes = some a)
    -- the variant and the values of its fields
    (v : String) (cond : Predicate) (hv : (v, cond) ∈ variantsOf d)
    (fields : String → Op Bytes) (values : String → Bytes)
    (hf : ∀ x ∈ inputsOf d v, (fields x).WellFormed ∧ (∀ data, fields x ≠ .pushByteArray data false) ∧
      Vm.item (fields x) = some (values x))
    -- the transaction
    (b : TxBuilder Dyn) (u : UnsignedTx Dyn) (cs : List (SignCall Dyn)) (tx : UnhashedTx)
    (h : Completed sz H b u cs tx) (idx : Nat) (input : UnsignedTxInput)
    (s : Signatory Dyn) (hs : s.isP2sh = true) (hadd : InputAdded b idx input (e.map Emit.op) s) (sigs : s.Sigs)
    (hcs : ∀ call ∈ cs, call.idx = idx → call = .signatory idx s sigs ∨
      ∃ d, call = .dyn idx d ∧ s.downcast d = some sigs)
    (ps : List TxPreimage) (hps : u.txPreimages[idx]? = some ps)
    (hops : signatoryOps s ps u.estimatedSize sigs (e.map Emit.op) u.outputs =
      some ((inputNames d v).map fields))
    (hdec : ∀ i, tx.wire.inputs[idx]? = some i →
      runScript (txEnv c tx.wire idx i input.value.toNat) cond p (e.map Emit.op) scriptBytes
        (start (inputsOf d v) ((inputsOf d v).map values)) ≠ .undecided)
    -- one of the flag sets of the signatory
    (k : Nat) (f : SigHashFlags) (hk : s.sigHashFlagsVec[k]? = some f) (hf8 : f.toNat < 256) :
    ∃ i preimage bytes env, tx.wire.inputs[idx]? = some i ∧ ps[k]? = some preimage ∧
      Codec.txPreimage.ser preimage = some bytes ∧
      (∀ sig pubkey, env.checkSig (sig ++ [f.toUInt8]) pubkey = some true ↔
        f.toNat / 64 % 2 = 1 ∧ c.verify pubkey (c.hash256 bytes) sig = true) ∧
      (∃ code, env = txEnv c tx.wire idx i input.value.toNat code) ∧
      (SpendOk c tx.wire idx input.value.toNat (scriptBytes a.toScript) ↔
        ∃ top alt, exec env p (start (inputsOf d v) ((inputsOf d v).map values)) = .ok ⟨[top], alt⟩ ∧
          Vm.truthy top.value = true) := by
  obtain ⟨i, hi, _, hiff⟩ := C71_contract_partial c sz H h160 h160c order horder d p e g hgen hd hp hok rbytes hr
    hrl pre a ha v cond hv fields values hf b u cs tx h idx input s hs hadd sigs hcs ps hps hops hdec
  have hcodeSer : ∀ code, IsScriptCode (e.map Emit.op) code → code.Serialisable := by
    intro code hcode
    unfold Script.serOps at hr
    split at hr
    · next hb =>
      cases hr
      rcases hcode with ⟨_, rfl⟩ | ⟨pre, hpre, _⟩
      · exact ⟨rbytes, by unfold Script.serOps; rw [hb], by omega⟩
      · rw [hpre] at hb
        obtain ⟨y, hy, hl⟩ := serializeOps_suffix (pre ++ [.code .OP_CODESEPARATOR]) code rbytes (by simpa using hb)
        exact ⟨y, by unfold Script.serOps; rw [hy], by omega⟩
    · cases hr
  obtain ⟨pr, bytes, i', hpr, hser, hcode, hi', hchk⟩ := C63_preimages_are_checked c sz H hH b u cs tx h idx k _ f
    (added_get hadd) hk hf8 hcodeSer
  rw [hi] at hi'
  cases hi'
  refine ⟨i, pr, bytes, txEnv c tx.wire idx i input.value.toNat (scriptBytes pr.scriptCode), hi, ?_, hser, hchk,
    ⟨_, rfl⟩, ?_⟩
  · simpa [preimageAt, hps] using hpr
  · rw [hiff]
    have := execScript_once c tx.wire idx i input.value.toNat p (e.map Emit.op) pr.scriptCode
      (generated_seps order horder d p e g hgen hd hp hok) honce hcode
    rw [this]

/-- **C85** (every check; partial: under the restrictions of `C71` only, separators and checks may be
anywhere): take a contract written with the macro, spent as in `C71`. The preimage handed to the signatory has
the code after the first separator written in the script (the whole script if there is none). Put the code
after any other separator into it and it is what signatures are checked against from that separator on, and
with the whole script what they are checked against before any separator was executed. -/
theorem C85_every_check_partial (c : Crypto) (sz : Layout) (H : Bytes → Hash256)
    (hH : ∀ x, (H x).1 = c.hash256 x)
    (h160 : Bytes → Hash160) (h160c : ∀ x, (h160 x).1 = c.hash160 x)
    -- the contract
    (order : List (String × VState) → List (String × VState)) (horder : ∀ l, (order l).Perm l)
    (d : Decl) (p : Prog) (e : List Emit) (g : Gen) (hgen : generate order d p = .ok (e, g))
    (hd : declOk d) (hp : WellNested p) (hok : progOk false p = true)
    (rbytes : Bytes) (hr : Script.serOps (e.map Emit.op) = some rbytes) (hrl : rbytes.length < 2 ^ 32)
    (pre : Bytes) (a : Address) (ha : Address.fromRedeemScript h160 pre rbytes = some a)
    -- the variant and the values of its fields
    (v : String) (cond : Predicate) (hv : (v, cond) ∈ variantsOf d)
    (fields : String → Op Bytes) (values : String → Bytes)
    (hf : ∀ x ∈ inputsOf d v, (fields x).WellFormed ∧ (∀ data, fields x ≠ .pushByteArray data false) ∧
      Vm.item (fields x) = some (values x))
    -- the transaction
    (b : TxBuilder Dyn) (u : UnsignedTx Dyn) (cs : List (SignCall Dyn)) (tx : UnhashedTx)
    (h : Completed sz H b u cs tx) (idx : Nat) (input : UnsignedTxInput)
    (s : Signatory Dyn) (hs : s.isP2sh = true) (hadd : InputAdded b idx input (e.map Emit.op) s) (sigs : s.Sigs)
    (hcs : ∀ call ∈ cs, call.idx = idx → call = .signatory idx s sigs ∨
      ∃ d, call = .dyn idx d ∧ s.downcast d = some sigs)
    (ps : List TxPreimage) (hps : u.txPreimages[idx]? = some ps)
    (hops : signatoryOps s ps u.estimatedSize sigs (e.map Emit.op) u.outputs =
      some ((inputNames d v).map fields))
    (hdec : ∀ i, tx.wire.inputs[idx]? = some i →
      runScript (txEnv c tx.wire idx i input.value.toNat) cond p (e.map Emit.op) scriptBytes
        (start (inputsOf d v) ((inputsOf d v).map values)) ≠ .undecided)
    -- one of the flag sets of the signatory
    (k : Nat) (f : SigHashFlags) (hk : s.sigHashFlagsVec[k]? = some f) (hf8 : f.toNat < 256) :
    ∃ i preimage, tx.wire.inputs[idx]? = some i ∧ ps[k]? = some preimage ∧
      preimage.scriptCode = (if separators p = 0 then e.map Emit.op else afterSeparator 0 (e.map Emit.op)) ∧
      (∀ code, code = e.map Emit.op ∨ (∃ n, code = afterSeparator n (e.map Emit.op)) →
        ∃ bytes, Codec.txPreimage.ser { preimage with scriptCode := code } = some bytes ∧
          ∀ sig pubkey,
            (txEnv c tx.wire idx i input.value.toNat (scriptBytes code)).checkSig (sig ++ [f.toUInt8]) pubkey =
              some true ↔
            f.toNat / 64 % 2 = 1 ∧ c.verify pubkey (c.hash256 bytes) sig = true) ∧
      (SpendOk c tx.wire idx input.value.toNat (scriptBytes a.toScript) ↔
        ∃ top alt, execScript (txEnv c tx.wire idx i input.value.toNat) p (e.map Emit.op) scriptBytes
          (start (inputsOf d v) ((inputsOf d v).map values)) = .ok ⟨[top], alt⟩ ∧
          Vm.truthy top.value = true) := by
  obtain ⟨i, hi, _, hiff⟩ := C71_contract_partial c sz H h160 h160c order horder d p e g hgen hd hp hok rbytes hr
    hrl pre a ha v cond hv fields values hf b u cs tx h idx input s hs hadd sigs hcs ps hps hops hdec
  obtain ⟨pr, i', hpr, hcode, hi', hchk⟩ := C63_other_script_codes c sz H hH b u cs tx h idx k _ f
    (added_get hadd) hk hf8
  rw [hi] at hi'
  cases hi'
  have hcount := generated_seps order horder d p e g hgen hd hp hok
  refine ⟨i, pr, hi, by simpa [preimageAt, hps] using hpr, ?_, ?_, hiff⟩
  · split
    · next h0 =>
      rcases hcode with ⟨_, he⟩ | ⟨pre, he, _⟩
      · exact he
      · rw [show e.map Emit.op = pre ++ .code .OP_CODESEPARATOR :: pr.scriptCode from he, h0] at hcount
        simp at hcount
    · next h0 =>
      rw [← hcount] at h0
      obtain ⟨op, ho, hq⟩ := List.countP_pos_iff.mp (Nat.pos_of_ne_zero h0)
      exact (afterSeparator_code hcode ⟨op, ho, by simpa using hq⟩).symm
  · rintro code (rfl | ⟨n, rfl⟩)
    · exact hchk _ (suffix_serialisable (pre := []) hr hrl rfl)
    · obtain ⟨pre, hpre⟩ := afterSeparator_suffix n (e.map Emit.op)
      exact hchk _ (suffix_serialisable hr hrl hpre)

/-- **C85** without variants (partial: under the restrictions of `C60_without_variants_partial`): the same for a
contract with one way of writing its inputs, whose branches leave the same names; every spend is covered, whichever
branches it takes and wherever it checks signatures. -/
theorem C85_without_variants_partial (c : Crypto) (sz : Layout) (H : Bytes → Hash256)
    (hH : ∀ x, (H x).1 = c.hash256 x)
    (h160 : Bytes → Hash160) (h160c : ∀ x, (h160 x).1 = c.hash160 x)
    -- the contract
    (order : List (String × VState) → List (String × VState)) (horder : ∀ l, (order l).Perm l)
    (d : Decl) (p : Prog) (e : List Emit) (g : Gen) (hgen : generate order d p = .ok (e, g))
    (hd : declOk d) (hp : WellNested p) (hok : progOk false p = true)
    (hnone : d.variants = []) (hbal : Balanced d d.inputStruct [] p)
    (rbytes : Bytes) (hr : Script.serOps (e.map Emit.op) = some rbytes) (hrl : rbytes.length < 2 ^ 32)
    (pre : Bytes) (a : Address) (ha : Address.fromRedeemScript h160 pre rbytes = some a)
    -- the values of its fields
    (fields : String → Op Bytes) (values : String → Bytes)
    (hf : ∀ x ∈ inputsOf d d.inputStruct, (fields x).WellFormed ∧ (∀ data, fields x ≠ .pushByteArray data false) ∧
      Vm.item (fields x) = some (values x))
    -- the transaction
    (b : TxBuilder Dyn) (u : UnsignedTx Dyn) (cs : List (SignCall Dyn)) (tx : UnhashedTx)
    (h : Completed sz H b u cs tx) (idx : Nat) (input : UnsignedTxInput)
    (s : Signatory Dyn) (hs : s.isP2sh = true) (hadd : InputAdded b idx input (e.map Emit.op) s) (sigs : s.Sigs)
    (hcs : ∀ call ∈ cs, call.idx = idx → call = .signatory idx s sigs ∨
      ∃ d, call = .dyn idx d ∧ s.downcast d = some sigs)
    (ps : List TxPreimage) (hps : u.txPreimages[idx]? = some ps)
    (hops : signatoryOps s ps u.estimatedSize sigs (e.map Emit.op) u.outputs =
      some ((inputNames d d.inputStruct).map fields))
    -- one of the flag sets of the signatory
    (k : Nat) (f : SigHashFlags) (hk : s.sigHashFlagsVec[k]? = some f) (hf8 : f.toNat < 256) :
    ∃ i preimage, tx.wire.inputs[idx]? = some i ∧ ps[k]? = some preimage ∧
      preimage.scriptCode = (if separators p = 0 then e.map Emit.op else afterSeparator 0 (e.map Emit.op)) ∧
      (∀ code, code = e.map Emit.op ∨ (∃ n, code = afterSeparator n (e.map Emit.op)) →
        ∃ bytes, Codec.txPreimage.ser { preimage with scriptCode := code } = some bytes ∧
          ∀ sig pubkey,
            (txEnv c tx.wire idx i input.value.toNat (scriptBytes code)).checkSig (sig ++ [f.toUInt8]) pubkey =
              some true ↔
            f.toNat / 64 % 2 = 1 ∧ c.verify pubkey (c.hash256 bytes) sig = true) ∧
      (SpendOk c tx.wire idx input.value.toNat (scriptBytes a.toScript) ↔
        ∃ top alt, execScript (txEnv c tx.wire idx i input.value.toNat) p (e.map Emit.op) scriptBytes
          (start (inputsOf d d.inputStruct) ((inputsOf d d.inputStruct).map values)) = .ok ⟨[top], alt⟩ ∧
          Vm.truthy top.value = true) :=
  C85_every_check_partial c sz H hH h160 h160c order horder d p e g hgen hd hp hok rbytes hr hrl pre a ha
    d.inputStruct [] (by simp [variantsOf, hnone]) fields values hf b u cs tx h idx input s hs hadd sigs hcs ps hps
    hops (fun _ _ => C71_decided _ d p d.inputStruct hbal _ (by simp) _ _) k f hk hf8

/-- The hypotheses about the contract, for one that checks a signature in each branch, on both sides of a
separator. -/
def checkedDecl : Decl := ⟨"Inputs", [], [⟨"sig", none⟩, ⟨"late", none⟩]⟩

def checkedProg : Prog :=
  .scriptIf ⟨.op .OP_IF, some [.ident "late"], none⟩
    (.leaf (.push (.pushByteArray [9, 9] true) (some "pubkey"))
      (.leaf (.opcode ⟨.op .OP_CHECKSIG, some [.ident "sig", .ident "pubkey"], some ["valid"]⟩) .nil))
    (some ⟨.op .OP_ELSE, none, none⟩)
    (.leaf (.opcode ⟨.op .OP_CODESEPARATOR, none, none⟩)
      (.leaf (.push (.pushByteArray [8, 8] true) (some "other"))
        (.leaf (.opcode ⟨.op .OP_CHECKSIG, some [.ident "sig", .ident "other"], some ["valid"]⟩) .nil)))
    ⟨.op .OP_ENDIF, none, none⟩
    (.leaf (.opcode ⟨.op .OP_VERIFY, some [.ident "valid"], none⟩)
      (.leaf (.push (.pushBoolean true) none) .nil))

example : (∃ e g, generate id checkedDecl checkedProg = .ok (e, g)) ∧ declOk checkedDecl ∧ WellNested checkedProg ∧
    progOk false checkedProg = true ∧ checkedDecl.variants = [] ∧
    Balanced checkedDecl checkedDecl.inputStruct [] checkedProg ∧ checksOnce checkedProg = false := by
  refine ⟨⟨_, _, rfl⟩, ⟨by decide, ?_, ?_⟩, by simp [checkedProg, WellNested, opens, isElse, closes],
    by decide +kernel, rfl, by decide +kernel, by decide +kernel⟩
  · intro i hi
    simp only [checkedDecl, List.mem_cons, List.not_mem_nil, or_false] at hi
    rcases hi with rfl | rfl <;> decide +kernel
  · intro i hi vs hvs
    simp only [checkedDecl, List.mem_cons, List.not_mem_nil, or_false] at hi
    rcases hi with rfl | rfl <;> cases hvs

/-! ## Examples -/

set_option maxRecDepth 100000 in
/-- The claim with a signature that verifies for the preimage handed out spends the address. -/
example (u : UnsignedTx Bytes) (tx : UnhashedTx) (h : contractRun [1, 2] = some (u, tx)) (a : Address)
    (ha : Address.fromRedeemScript (fun _ => ⟨List.replicate 20 7, rfl⟩) [] (scriptBytes contractScript) = some a) :
    ∃ ps preimage bytes, u.txPreimages[0]? = some ps ∧ ps[0]? = some preimage ∧
      Codec.txPreimage.ser preimage = some bytes ∧
      (exampleCrypto.verify [9, 9] (exampleCrypto.hash256 bytes) [1, 2] = true →
        SpendOk exampleCrypto tx.wire 0 10000 (scriptBytes a.toScript)) := by
  have hc := contract_completed _ _ _ h
  obtain ⟨t, ps, _, hps, hus⟩ := SpendProofs.completed_script hc (idx := 0) (input := exampleSpendInput 0)
    (lock := contractScript) (s := contractSignatory) ⟨newSimple, rfl, ⟨[], rfl⟩⟩ (sigs := ([1, 2] : Bytes)) (by
      intro call hcall hidx
      simp only [List.mem_cons, List.not_mem_nil, or_false] at hcall
      subst hcall
      exact .inr ⟨_, rfl, rfl⟩)
  obtain ⟨e, g, hgen, he⟩ : ∃ e g, generate id exampleDecl contractProg = .ok (e, g) ∧
      e.map Emit.op = contractScript := ⟨_, _, rfl, rfl⟩
  obtain ⟨i, preimage, bytes, env, hi, hpre, hser, hchk, ⟨code, hcode⟩, hiff⟩ :=
    C85_signed_is_checked_partial exampleCrypto ⟨1, 1⟩ exampleHash (fun _ => rfl)
    (fun _ => ⟨List.replicate 20 7, rfl⟩) (fun _ => rfl)
    id (fun _ => List.Perm.refl _) exampleDecl contractProg e g hgen
    ⟨by decide, by
      intro i hi
      simp only [exampleDecl, List.mem_cons, List.not_mem_nil, or_false] at hi
      rcases hi with rfl | rfl | rfl <;> decide +kernel, by
      intro i hi vs hvs
      simp only [exampleDecl, List.mem_cons, List.not_mem_nil, or_false] at hi
      rcases hi with rfl | rfl | rfl <;> cases hvs <;> simp [exampleDecl]⟩
    (by simp [contractProg, WellNested, opens, isElse, closes]) (by decide +kernel) (by decide +kernel)
    (scriptBytes contractScript) (by rw [he]; rfl) (by decide +kernel) [] a ha
    "Claim" [[⟨"claim", true⟩]] (by decide) (contractFields [1, 2]) (contractValues [1, 2])
    (by
      intro x hx
      have : x = "sig" ∨ x = "secret" ∨ x = "claim" := by
        simpa [inputsOf, exampleDecl] using hx
      rcases this with rfl | rfl | rfl
      · exact ⟨(by decide : (_ : Nat) < 2 ^ 32), by intro d; simp [contractFields], rfl⟩
      · exact ⟨(by decide : (_ : Nat) < 2 ^ 32), by intro d; simp [contractFields], rfl⟩
      · exact ⟨trivial, by intro d; simp [contractFields], rfl⟩)
    contractBuilder u _ tx hc 0 (exampleSpendInput 0) contractSignatory rfl
    (by rw [he]; exact ⟨newSimple, rfl, ⟨[], rfl⟩⟩) ([1, 2] : Bytes) (by
      intro call hcall hidx
      simp only [List.mem_cons, List.not_mem_nil, or_false] at hcall
      subst hcall
      exact .inr ⟨_, rfl, rfl⟩) ps hps
    (by
      rw [he]
      cases ps with
      | nil => cases hus
      | cons p ps => rfl)
    (by
      intro i _ hc
      have : runScript (txEnv exampleCrypto tx.wire 0 i (exampleSpendInput 0).value.toNat)
        [[⟨"claim", true⟩]] contractProg (e.map Emit.op) scriptBytes (start (inputsOf exampleDecl "Claim")
          ((inputsOf exampleDecl "Claim").map (contractValues [1, 2]))) = .ok ⟨[⟨[1], none⟩], []⟩ := rfl
      rw [this] at hc
      cases hc) 0 0x41 rfl (by decide)
  refine ⟨ps, preimage, bytes, hps, hpre, hser, fun hv => hiff.mpr ⟨⟨[1], none⟩, [], ?_, rfl⟩⟩
  have hsig : env.checkSig [1, 2, 0x41] [9, 9] = some true := (hchk [1, 2] [9, 9]).mpr ⟨by decide, hv⟩
  subst hcode
  have key : exec (txEnv exampleCrypto tx.wire 0 i (exampleSpendInput 0).value.toNat code) contractProg
      (start (inputsOf exampleDecl "Claim") ((inputsOf exampleDecl "Claim").map (contractValues [1, 2]))) =
      match (txEnv exampleCrypto tx.wire 0 i (exampleSpendInput 0).value.toNat code).checkSig [1, 2, 0x41] [9, 9] with
      | some b => .ok ⟨[⟨Vm.boolBytes b, none⟩], []⟩
      | none => .fail := by
    rfl
  rw [key, hsig]
  rfl


/-! ## Why the restriction -/

/-- Inputs: a signature and a selector. -/
def signedDecl : Decl := ⟨"Inputs", [], [⟨"sig", none⟩, ⟨"sel", none⟩]⟩

/-- A signature is checked before the separator. -/
def checkFirst : Prog :=
  .leaf (.opcode ⟨.op .OP_DROP, some [.ident "sel"], none⟩)
    (.leaf (.push (.pushByteArray [9, 9] true) (some "pubkey"))
      (.leaf (.opcode ⟨.op .OP_CHECKSIGVERIFY, some [.ident "sig", .ident "pubkey"], none⟩)
        (.leaf (.opcode ⟨.op .OP_CODESEPARATOR, none, none⟩)
          (.leaf (.push (.pushBoolean true) (some "ok")) .nil))))

/-- A signature is checked after the second separator. -/
def twoSeparators : Prog :=
  .leaf (.opcode ⟨.op .OP_DROP, some [.ident "sel"], none⟩)
    (.leaf (.opcode ⟨.op .OP_CODESEPARATOR, none, none⟩)
      (.leaf (.push (.pushByteArray [9, 9] true) (some "pubkey"))
        (.leaf (.opcode ⟨.op .OP_CODESEPARATOR, none, none⟩)
          (.leaf (.opcode ⟨.op .OP_CHECKSIG, some [.ident "sig", .ident "pubkey"], none⟩) .nil))))

/-- The separator is in a branch. -/
def separatorInBranch : Prog :=
  .scriptIf ⟨.op .OP_IF, some [.ident "sel"], none⟩
    (.leaf (.opcode ⟨.op .OP_CODESEPARATOR, none, none⟩) .nil) none .nil ⟨.op .OP_ENDIF, none, none⟩
    (.leaf (.push (.pushByteArray [9, 9] true) (some "pubkey"))
      (.leaf (.opcode ⟨.op .OP_CHECKSIG, some [.ident "sig", .ident "pubkey"], none⟩) .nil))

/-- Spec: the generated script of a contract fails with a signature for the script code that is handed out
for signing (selector false), although it succeeds with a signature for some other code. -/
def Spec.SignsWrongCode (p : Prog) : Prop :=
  ∃ e g code other L, generate id signedDecl p = .ok (e, g) ∧ IsScriptCode (e.map Emit.op) code ∧
    execScript codeEnv p (e.map Emit.op) scriptBytes (start ["sig", "sel"] [scriptBytes code, []]) = .fail ∧
    execScript codeEnv p (e.map Emit.op) scriptBytes (start ["sig", "sel"] [other, []]) = .ok L

/-- **C85** fails: a contract that checks a signature before a separator, after a second one, or after one
in a branch that is not taken cannot be satisfied with signatures of the preimage handed out. -/
theorem C85_other_separators_fails :
    SignsWrongCode checkFirst ∧ SignsWrongCode twoSeparators ∧ SignsWrongCode separatorInBranch := by
  refine ⟨⟨_, _, [.pushBoolean true], [0x75, 2, 9, 9, 0xad, 0xab, 0x51], _, rfl, ?_, rfl, rfl⟩,
    ⟨_, _, [.pushByteArray [9, 9] true, .code .OP_CODESEPARATOR, .code .OP_CHECKSIG], [0xac], _, rfl, ?_, rfl, rfl⟩,
    ⟨_, _, [.code .OP_ENDIF, .pushByteArray [9, 9] true, .code .OP_CHECKSIG],
      [0x63, 0xab, 0x68, 2, 9, 9, 0xac], _, rfl, ?_, rfl, rfl⟩⟩
  · exact .inr ⟨[.code .OP_DROP, .pushByteArray [9, 9] true, .code .OP_CHECKSIGVERIFY], rfl, by decide⟩
  · exact .inr ⟨[.code .OP_DROP], rfl, by decide⟩
  · exact .inr ⟨[.code .OP_IF], rfl, by decide⟩

/-- A script `C85_every_check_partial` applies to and `C85_signed_is_checked_partial` does not: its signature has
to be made with the code after the second separator, the lone OP_CHECKSIG. (The other hypotheses are met as
in the example above.) -/
example : progOk false twoSeparators = true ∧ checksOnce twoSeparators = false ∧ separators twoSeparators = 2 ∧
    ∃ e g, generate id signedDecl twoSeparators = .ok (e, g) ∧
      afterSeparator 0 (e.map Emit.op) =
        [.pushByteArray [9, 9] true, .code .OP_CODESEPARATOR, .code .OP_CHECKSIG] ∧
      afterSeparator 1 (e.map Emit.op) = [.code .OP_CHECKSIG] :=
  ⟨by decide +kernel, by decide +kernel, rfl, _, _, rfl, rfl, rfl⟩

end BCash
