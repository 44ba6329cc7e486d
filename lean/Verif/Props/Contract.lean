import Verif.Props.MacroGen
import Verif.Props.Spend
import Verif.Proofs.MacroSep

/-! # C71: contracts written with the macro, spent with the transaction builder -/

namespace BCash
variable {Dyn : Type}
open TxBuilder Spec Spec.Macro Spec.Named Macro GenProofs SpendProofs

/-! ## Proof -/

theorem scriptBytes_ok (ops : List (Op Bytes)) (bs : Bytes) (h : serializeOps ops = .ok bs) :
    scriptBytes ops = bs := by
  unfold scriptBytes Script.serOps
  rw [h]
  rfl

/-- A generated script, run with any kind of environment. -/
theorem generated_runsFrom (envOf : Bytes → Vm.Env)
    (order : List (String × VState) → List (String × VState))
    (horder : ∀ l, (order l).Perm l) (d : Decl) (p : Prog) (e : List Emit) (g : Gen)
    (hgen : generate order d p = .ok (e, g))
    (hd : declOk d) (hp : WellNested p) (hok : progOk false p = true)
    (v : String) (cond : Predicate) (hv : (v, cond) ∈ variantsOf d)
    (values : List Bytes) (hlen : values.length = (inputsOf d v).length)
    (script : Bytes) (hs : serializeOps (e.map Emit.op) = .ok script)
    (hdec : runScript envOf cond p (e.map Emit.op) scriptBytes (start (inputsOf d v) values) ≠ .undecided) :
    (∀ L, execScript envOf p (e.map Emit.op) scriptBytes (start (inputsOf d v) values) = .ok L →
      Vm.RunsFrom envOf script (start (inputsOf d v) values).erase (some L.erase)) ∧
    (execScript envOf p (e.map Emit.op) scriptBytes (start (inputsOf d v) values) = .fail →
      Vm.RunsFrom envOf script (start (inputsOf d v) values).erase none) ∧
    execScript envOf p (e.map Emit.op) scriptBytes (start (inputsOf d v) values) ≠ .mismatch ∧
    execScript envOf p (e.map Emit.op) scriptBytes (start (inputsOf d v) values) ≠ .undecided := by
  unfold generate at hgen
  obtain ⟨states, hinit, hrun⟩ := Res.bind_eq_ok.mp hgen
  have hstates := initial_spec d hd states hinit
  subst hstates
  have hperm := horder (canon (variantsOf d) (inputsOf d))
  obtain ⟨_, _, _, ts, code, _, sim⟩ := prog_simFrom p none _ g e hp hok
    (canon_good d hd _ (fun q hq => hperm.mem_iff.mp hq))
    ((hperm.map Prod.fst).nodup_iff.mpr (canon_keys d hd)) (by simp) hrun
  have hb := toks_bytes code.toks
  rw [hs] at hb
  have hb : script = encodeTokens ts := by injection hb
  have hcond : cond.holds [] = true := by
    cases cond with
    | nil => rfl
    | cons c cs => simp [Predicate.holds]
  have henvs := envsAt_all envOf scriptBytes scriptBytes_ok (e.map Emit.op) ts code.toks 0
    (fun n => envOf (scriptBytes (afterSeparator n (e.map Emit.op)))) (fun k => by rw [Nat.zero_add])
  have hsim := sim envOf _ (envOf (scriptBytes (e.map Emit.op))) 0 v cond (start (inputsOf d v) values) [] [] henvs
    (canon_tracks d v cond hv values hlen _ (fun q hq => hperm.mem_iff.mpr hq)) hcond (by simp) rfl
  dsimp only at hsim
  unfold runScript at hdec
  unfold execScript
  rw [List.append_nil, runFrom_execFrom _ cond p 0 [] _ _ hdec] at hsim
  rw [runFrom_execFrom _ cond p 0 [] _ _ hdec] at hdec
  have hfin : Vm.runFrom envOf (envOf script) ts [] (start (inputsOf d v) values).erase =
      Vm.runFrom envOf (envOf (scriptBytes (e.map Emit.op))) ts [] (start (inputsOf d v) values).erase := by
    rw [scriptBytes_ok _ _ hs]
  generalize execFrom (fun n => envOf (scriptBytes (afterSeparator n (e.map Emit.op)))) p 0
    (envOf (scriptBytes (e.map Emit.op))) (start (inputsOf d v) values) = out at hsim hdec ⊢
  obtain ⟨out, env'⟩ := out
  cases out with
  | ok L =>
    refine ⟨?_, by simp, by simp, by simp⟩
    intro L' he
    cases he
    exact ⟨ts, toks_valid code.toks, hb, by rw [hfin, hsim.2]; rfl⟩
  | fail =>
    refine ⟨by simp, ?_, by simp, by simp⟩
    intro _
    exact ⟨ts, toks_valid code.toks, hb, by rw [hfin]; exact hsim⟩
  | mismatch => exact hsim.elim
  | undecided => exact absurd rfl hdec

/-! ## C71 -/

/-- **C71** (partial: under the restrictions of `C60_names_partial`): take a contract written with the macro and the script-hash address of its generated script. An
input that spends an output locked to that address, added with the generated script and a P2SH signatory
which unlocks it with the generated inputs of one of the variants, satisfies the output in the completed
transaction exactly if the statements as written, executed with the field values under their declared
names against that transaction (signatures for the part of the script after the last executed
OP_CODESEPARATOR), run to the end and leave exactly one true item. In particular no name in the
contract is ever the wrong one. -/
theorem C71_contract_partial (c : Crypto) (sz : Layout) (H : Bytes → Hash256)
    (h160 : Bytes → Hash160) (h160c : ∀ x, (h160 x).1 = c.hash160 x)
    -- the contract
    (order : List (String × VState) → List (String × VState)) (horder : ∀ l, (order l).Perm l)
    (d : Decl) (p : Prog) (e : List Emit) (g : Gen) (hgen : generate order d p = .ok (e, g))
    (hd : declOk d) (hp : WellNested p) (hok : progOk false p = true)
    (rbytes : Bytes) (hr : Script.serOps (e.map Emit.op) = some rbytes) (hrl : rbytes.length < 2 ^ 32)
    (pre : Bytes) (a : Address) (ha : Address.fromRedeemScript h160 pre rbytes = some a)
    -- the variant and the values of its fields
    (v : String) (cond : Predicate) (hv : (v, cond) ∈ variantsOf d)
    (fields : String → Op Bytes) (values : String → Bytes)
    (hf : ∀ x ∈ inputsOf d v, (fields x).WellFormed ∧ (∀ data, fields x ≠ .pushByteArray data false) ∧
      Vm.item (fields x) = some (values x))
    -- the transaction
    (b : TxBuilder Dyn) (u : UnsignedTx Dyn) (cs : List (SignCall Dyn)) (tx : UnhashedTx)
    (h : Completed sz H b u cs tx) (idx : Nat) (input : UnsignedTxInput)
    (s : Signatory Dyn) (hs : s.isP2sh = true) (hadd : InputAdded b idx input (e.map Emit.op) s) (sigs : s.Sigs)
    (hcs : ∀ call ∈ cs, call.idx = idx → call = .signatory idx s sigs ∨
      ∃ d, call = .dyn idx d ∧ s.downcast d = some sigs)
    (ps : List TxPreimage) (hps : u.txPreimages[idx]? = some ps)
    (hops : signatoryOps s ps u.estimatedSize sigs (e.map Emit.op) u.outputs =
      some ((inputNames d v).map fields))
    (hdec : ∀ i, tx.wire.inputs[idx]? = some i →
      runScript (txEnv c tx.wire idx i input.value.toNat) cond p (e.map Emit.op) scriptBytes
        (start (inputsOf d v) ((inputsOf d v).map values)) ≠ .undecided) :
    ∃ i, tx.wire.inputs[idx]? = some i ∧
      execScript (txEnv c tx.wire idx i input.value.toNat) p (e.map Emit.op) scriptBytes
        (start (inputsOf d v) ((inputsOf d v).map values)) ≠ .mismatch ∧
      (SpendOk c tx.wire idx input.value.toNat (scriptBytes a.toScript) ↔
        ∃ top alt, execScript (txEnv c tx.wire idx i input.value.toNat) p (e.map Emit.op) scriptBytes
            (start (inputsOf d v) ((inputsOf d v).map values)) = .ok ⟨[top], alt⟩ ∧
          Vm.truthy top.value = true) := by
  rw [inputNames_eq d hd v] at hops
  have hser : serializeOps (e.map Emit.op) = .ok rbytes := by
    unfold Script.serOps at hr
    split at hr
    · next bs hb => cases hr; exact hb
    · cases hr
  obtain ⟨i, hi, hiff⟩ := C63_p2sh_own_script c sz H h160 h160c b u cs tx h idx input (e.map Emit.op) rbytes hr hrl
    pre a ha s hs hadd sigs hcs ps hps ((inputsOf d v).map fields) ((inputsOf d v).map values) hops (by
      intro op hop
      obtain ⟨x, hx, rfl⟩ := List.mem_map.mp hop
      exact ⟨(hf x hx).1, (hf x hx).2.1⟩) (by
      rw [List.map_map, List.map_map]
      exact List.map_congr_left fun x hx => (hf x hx).2.2)
  have hdec := hdec i hi
  obtain ⟨hrok, hrfail, hmis, hundec⟩ := generated_runsFrom (txEnv c tx.wire idx i input.value.toNat) order horder d p e g
    hgen hd hp hok v cond hv ((inputsOf d v).map values) (by simp) rbytes hser hdec
  have hst : (start (inputsOf d v) ((inputsOf d v).map values)).erase =
      ⟨((inputsOf d v).map values).reverse, []⟩ := start_erase _ _ (by simp)
  rw [hst] at hrok hrfail
  refine ⟨i, hi, hmis, hiff.trans ⟨?_, ?_⟩⟩
  · rintro ⟨r, hrun, top, alt, hre, ht⟩
    cases hx : execScript (txEnv c tx.wire idx i input.value.toNat) p (e.map Emit.op) scriptBytes
        (start (inputsOf d v) ((inputsOf d v).map values)) with
    | ok L =>
      have := runsFrom_unique hrun (hrok L hx)
      rw [hre] at this
      injection this with this
      obtain ⟨stack, lalt⟩ := L
      simp only [LState.erase, Vm.State.mk.injEq] at this
      cases stack with
      | nil => simp at this
      | cons t ts =>
        cases ts with
        | nil =>
          simp only [List.map_cons, List.map_nil, List.cons.injEq, and_true] at this
          exact ⟨t, lalt, rfl, by rw [← this.1]; exact ht⟩
        | cons t2 ts => simp at this
    | fail =>
      have := runsFrom_unique hrun (hrfail hx)
      rw [hre] at this
      cases this
    | mismatch => exact absurd hx hmis
    | undecided => exact absurd hx hundec
  · rintro ⟨top, alt, hx, ht⟩
    exact ⟨_, hrok _ hx, top.value, alt.map LItem.value, rfl, ht⟩

/-- **C71**, scripts without OP_CODESEPARATOR: executing the statements as written is the execution with
names of `C60`, with signatures for the whole script. -/
theorem C71_without_separators (envOf : Bytes → Vm.Env) (p : Prog) (hp : separators p = 0)
    (ops : List (Op Bytes)) (bytes : List (Op Bytes) → Bytes) (s : LState) :
    execScript envOf p ops bytes s = exec (envOf (bytes ops)) p s := by
  unfold execScript
  rw [execFrom_exec _ p hp]

/-- **C71**, scripts whose conditionals leave the same names on both branches where the condition of the variant
allows both: a run that takes only branches which the condition allows is never undecided. -/
theorem C71_obeying (envOf : Bytes → Vm.Env) (d : Decl) (p : Prog) (v : String) (cond : Predicate)
    (hbal : Balanced d v cond p) (values : List Bytes) (hlen : values.length = (inputsOf d v).length)
    (ops : List (Op Bytes)) (bytes : List (Op Bytes) → Bytes)
    (hob : ObeysScript envOf cond p ops bytes (start (inputsOf d v) values)) :
    runScript envOf cond p ops bytes (start (inputsOf d v) values) ≠ .undecided := by
  obtain ⟨N', hN⟩ := Option.isSome_iff_exists.mp hbal
  have hnames : (start (inputsOf d v) values).names = ⟨((inputsOf d v).map some).reverse, []⟩ := by
    simp only [start, LState.names, List.map_reverse, List.map_nil, Names.mk.injEq, and_true, List.reverse_inj]
    generalize inputsOf d v = ns at hlen
    clear hN hob
    induction ns generalizing values with
    | nil => cases values <;> simp at hlen ⊢
    | cons n ns ih =>
      cases values with
      | nil => simp at hlen
      | cons x xs => simp [ih xs (by simpa using hlen)]
  exact (balanced_obeys _ cond p 0 [] none _ _ N' (by simp) (by rw [hnames]; exact hN) hob).1

/-- **C71**, scripts without variants whose conditionals leave the same names on both branches: whatever the
values of the fields are and whatever the environment is, a run is never undecided. -/
theorem C71_decided (envOf : Bytes → Vm.Env) (d : Decl) (p : Prog) (v : String) (hbal : Balanced d v [] p)
    (values : List Bytes) (hlen : values.length = (inputsOf d v).length)
    (ops : List (Op Bytes)) (bytes : List (Op Bytes) → Bytes) :
    runScript envOf [] p ops bytes (start (inputsOf d v) values) ≠ .undecided :=
  C71_obeying envOf d p v [] hbal values hlen ops bytes (obeysFrom_nil _ p 0 [] _ _)

/-- **C71** without variants (partial: under the restrictions of `C60_without_variants_partial`): the same for
a contract with one way of writing its inputs; every spend is covered, whichever branches it takes. -/
theorem C71_without_variants_partial (c : Crypto) (sz : Layout) (H : Bytes → Hash256)
    (h160 : Bytes → Hash160) (h160c : ∀ x, (h160 x).1 = c.hash160 x)
    -- the contract
    (order : List (String × VState) → List (String × VState)) (horder : ∀ l, (order l).Perm l)
    (d : Decl) (p : Prog) (e : List Emit) (g : Gen) (hgen : generate order d p = .ok (e, g))
    (hd : declOk d) (hp : WellNested p) (hok : progOk false p = true)
    (hnone : d.variants = []) (hbal : Balanced d d.inputStruct [] p)
    (rbytes : Bytes) (hr : Script.serOps (e.map Emit.op) = some rbytes) (hrl : rbytes.length < 2 ^ 32)
    (pre : Bytes) (a : Address) (ha : Address.fromRedeemScript h160 pre rbytes = some a)
    -- the values of its fields
    (fields : String → Op Bytes) (values : String → Bytes)
    (hf : ∀ x ∈ inputsOf d d.inputStruct, (fields x).WellFormed ∧
      (∀ data, fields x ≠ .pushByteArray data false) ∧ Vm.item (fields x) = some (values x))
    -- the transaction
    (b : TxBuilder Dyn) (u : UnsignedTx Dyn) (cs : List (SignCall Dyn)) (tx : UnhashedTx)
    (h : Completed sz H b u cs tx) (idx : Nat) (input : UnsignedTxInput)
    (s : Signatory Dyn) (hs : s.isP2sh = true) (hadd : InputAdded b idx input (e.map Emit.op) s) (sigs : s.Sigs)
    (hcs : ∀ call ∈ cs, call.idx = idx → call = .signatory idx s sigs ∨
      ∃ d, call = .dyn idx d ∧ s.downcast d = some sigs)
    (ps : List TxPreimage) (hps : u.txPreimages[idx]? = some ps)
    (hops : signatoryOps s ps u.estimatedSize sigs (e.map Emit.op) u.outputs =
      some ((inputNames d d.inputStruct).map fields)) :
    ∃ i, tx.wire.inputs[idx]? = some i ∧
      execScript (txEnv c tx.wire idx i input.value.toNat) p (e.map Emit.op) scriptBytes
        (start (inputsOf d d.inputStruct) ((inputsOf d d.inputStruct).map values)) ≠ .mismatch ∧
      (SpendOk c tx.wire idx input.value.toNat (scriptBytes a.toScript) ↔
        ∃ top alt, execScript (txEnv c tx.wire idx i input.value.toNat) p (e.map Emit.op) scriptBytes
            (start (inputsOf d d.inputStruct) ((inputsOf d d.inputStruct).map values)) = .ok ⟨[top], alt⟩ ∧
          Vm.truthy top.value = true) :=
  C71_contract_partial c sz H h160 h160c order horder d p e g hgen hd hp hok rbytes hr hrl pre a ha
    d.inputStruct [] (by simp [variantsOf, hnone]) fields values hf b u cs tx h idx input s hs hadd sigs hcs ps hps
    hops (fun _ _ => C71_decided _ d p d.inputStruct hbal _ (by simp) _ _)

/-- **C71** with variants (partial: under the restrictions of `C60_balanced_partial`): if wherever the condition of
the variant allows both branches of a conditional these leave the same names, every spend that takes only branches
which the condition allows is covered. Without `ObeysScript` it is false (`C60_disallowed_fails`). -/
theorem C71_balanced_partial (c : Crypto) (sz : Layout) (H : Bytes → Hash256)
    (h160 : Bytes → Hash160) (h160c : ∀ x, (h160 x).1 = c.hash160 x)
    -- the contract
    (order : List (String × VState) → List (String × VState)) (horder : ∀ l, (order l).Perm l)
    (d : Decl) (p : Prog) (e : List Emit) (g : Gen) (hgen : generate order d p = .ok (e, g))
    (hd : declOk d) (hp : WellNested p) (hok : progOk false p = true)
    (rbytes : Bytes) (hr : Script.serOps (e.map Emit.op) = some rbytes) (hrl : rbytes.length < 2 ^ 32)
    (pre : Bytes) (a : Address) (ha : Address.fromRedeemScript h160 pre rbytes = some a)
    -- the variant and the values of its fields
    (v : String) (cond : Predicate) (hv : (v, cond) ∈ variantsOf d)
    (hbal : Balanced d v cond p)
    (fields : String → Op Bytes) (values : String → Bytes)
    (hf : ∀ x ∈ inputsOf d v, (fields x).WellFormed ∧ (∀ data, fields x ≠ .pushByteArray data false) ∧
      Vm.item (fields x) = some (values x))
    -- the transaction
    (b : TxBuilder Dyn) (u : UnsignedTx Dyn) (cs : List (SignCall Dyn)) (tx : UnhashedTx)
    (h : Completed sz H b u cs tx) (idx : Nat) (input : UnsignedTxInput)
    (s : Signatory Dyn) (hs : s.isP2sh = true) (hadd : InputAdded b idx input (e.map Emit.op) s) (sigs : s.Sigs)
    (hcs : ∀ call ∈ cs, call.idx = idx → call = .signatory idx s sigs ∨
      ∃ d, call = .dyn idx d ∧ s.downcast d = some sigs)
    (ps : List TxPreimage) (hps : u.txPreimages[idx]? = some ps)
    (hops : signatoryOps s ps u.estimatedSize sigs (e.map Emit.op) u.outputs =
      some ((inputNames d v).map fields))
    (hob : ∀ i, tx.wire.inputs[idx]? = some i →
      ObeysScript (txEnv c tx.wire idx i input.value.toNat) cond p (e.map Emit.op) scriptBytes
        (start (inputsOf d v) ((inputsOf d v).map values))) :
    ∃ i, tx.wire.inputs[idx]? = some i ∧
      execScript (txEnv c tx.wire idx i input.value.toNat) p (e.map Emit.op) scriptBytes
        (start (inputsOf d v) ((inputsOf d v).map values)) ≠ .mismatch ∧
      (SpendOk c tx.wire idx input.value.toNat (scriptBytes a.toScript) ↔
        ∃ top alt, execScript (txEnv c tx.wire idx i input.value.toNat) p (e.map Emit.op) scriptBytes
            (start (inputsOf d v) ((inputsOf d v).map values)) = .ok ⟨[top], alt⟩ ∧
          Vm.truthy top.value = true) :=
  C71_contract_partial c sz H h160 h160c order horder d p e g hgen hd hp hok rbytes hr hrl pre a ha
    v cond hv fields values hf b u cs tx h idx input s hs hadd sigs hcs ps hps
    hops (fun i hi => C71_obeying _ d p v cond hbal _ (by simp) _ _ (hob i hi))

/-- Non-vacuity of `C71_decided`: the balanced script of `C60`, also after a code separator. A full spend is at the
end of this file. -/
example : balancedDecl.variants = [] ∧ Balanced balancedDecl balancedDecl.inputStruct [] balancedProg ∧
    Balanced balancedDecl balancedDecl.inputStruct []
      (.leaf (.opcode ⟨.op .OP_CODESEPARATOR, none, none⟩) balancedProg) := by
  refine ⟨rfl, by decide +kernel, by decide +kernel⟩

/-! ## Example -/

/-- A contract with two ways of spending: with a secret or after a time; the signature is for the part
after the code separator. -/
def contractProg : Prog :=
  .scriptIf ⟨.op .OP_IF, some [.ident "claim"], none⟩
    (.leaf (.opcode ⟨.op .OP_SHA256, some [.ident "secret"], some ["digest"]⟩)
      (.leaf (.push (.pushByteArray (List.replicate 32 7) true) (some "expected"))
        (.leaf (.opcode ⟨.op .OP_EQUALVERIFY, some [.ident "digest", .ident "expected"], none⟩) .nil)))
    (some ⟨.op .OP_ELSE, none, none⟩)
    (.leaf (.push (.pushInteger 500) none)
      (.leaf (.opcode ⟨.op .OP_CHECKLOCKTIMEVERIFY, none, none⟩)
        (.leaf (.opcode ⟨.op .OP_DROP, none, none⟩) .nil)))
    ⟨.op .OP_ENDIF, none, none⟩
    (.leaf (.opcode ⟨.op .OP_CODESEPARATOR, none, none⟩)
      (.leaf (.push (.pushByteArray [9, 9] true) (some "pubkey"))
        (.leaf (.opcode ⟨.op .OP_CHECKSIG, some [.ident "sig", .ident "pubkey"], none⟩) .nil)))

/-- The generated script. -/
def contractScript : Script :=
  [.code .OP_IF, .code .OP_SHA256, .pushByteArray (List.replicate 32 7) true, .code .OP_EQUALVERIFY,
   .code .OP_ELSE, .pushInteger 500, .code .OP_CHECKLOCKTIMEVERIFY, .code .OP_DROP, .code .OP_ENDIF,
   .code .OP_CODESEPARATOR, .pushByteArray [9, 9] true, .code .OP_CHECKSIG]

/-- An environment in which the only valid signature is the script code. -/
def codeEnv (code : Bytes) : Vm.Env :=
  { GenProofs.emptyEnv with checkSig := fun sig _ => if sig = code then some true else none }

/-- The signature in the contract is checked against what follows the separator, not the whole script. -/
example : let st sig := start ["sig", "secret", "claim"] [sig, List.replicate 32 7, [1]]
    (∃ L, execScript codeEnv contractProg contractScript scriptBytes (st [2, 9, 9, 0xac]) = .ok L) ∧
    execScript codeEnv contractProg contractScript scriptBytes (st (scriptBytes contractScript)) = .fail :=
  ⟨⟨_, rfl⟩, rfl⟩

/-- Field values of the claim, for a signature. -/
def contractFields (sig : Bytes) (x : String) : Op Bytes :=
  if x = "sig" then .pushByteArray (sig ++ [0x41]) true
  else if x = "secret" then .pushByteArray [5, 6] true else .pushBoolean true

def contractValues (sig : Bytes) (x : String) : Bytes :=
  if x = "sig" then sig ++ [0x41] else if x = "secret" then [5, 6] else [1]

/-- A signatory that unlocks with the generated inputs of the claim. -/
def contractSignatory : Signatory Bytes where
  Sigs := Bytes
  downcast d := some d
  kind := .one 0x41 fun _ _ sig _ _ => some ((inputNames exampleDecl "Claim").map (contractFields sig))
  placeholderSignatures := []
  isP2sh := true

def contractBuilder : TxBuilder Bytes :=
  ((newSimple : TxBuilder Bytes).addInput (exampleSpendInput 0) contractScript contractSignatory).1.addOutput
    ⟨5000, exampleKeyAddress.toScript⟩

def contractRun (sig : Bytes) : Option (UnsignedTx Bytes × UnhashedTx) :=
  match contractBuilder.build ⟨1, 1⟩ exampleHash with
  | .ok u => (signAll u [.dyn 0 sig]).bind fun u' => u'.completeTx.map fun tx => (u, tx)
  | _ => none

set_option maxRecDepth 100000 in
example : (contractRun [1, 2]).map (fun r => r.2.inputs.map (·.script.length)) = some [4] := by
  decide +kernel


theorem contract_completed (sig : Bytes) (u : UnsignedTx Bytes) (tx : UnhashedTx)
    (h : contractRun sig = some (u, tx)) :
    Completed ⟨1, 1⟩ exampleHash contractBuilder u [.dyn 0 sig] tx := by
  unfold contractRun at h
  split at h
  · next u0 hb =>
    obtain ⟨u', h1, h2⟩ := Option.bind_eq_some_iff.mp h
    obtain ⟨tx', h2, h3⟩ := Option.map_eq_some_iff.mp h2
    cases h3
    refine ⟨.addOutput _ (.addInput _ _ _ .newSimple), .inl hb, ⟨u', h1, h2⟩, ?_⟩
    have hall : (match contractBuilder.build ⟨1, 1⟩ exampleHash with
        | .ok r => r.outputs.all fun o => (o.script.serOps.map List.length).any (· < 2 ^ 64)
        | _ => false) = true := by decide +kernel
    rw [hb] at hall
    dsimp only at hall
    rw [List.all_eq_true] at hall
    intro o ho
    have := hall o ho
    cases hs : o.script.serOps with
    | none => rw [hs] at this; cases this
    | some bs =>
      rw [hs] at this
      simp only [Option.map_some, Option.any_some, decide_eq_true_eq] at this
      exact ⟨bs, hs, this⟩
  · cases h

/-- Non-vacuity of `C71_obeying` and `C71_balanced_partial`: both variants are balanced, and every claim with a true
`claim` takes only the branch of its variant, whatever the other values are and whatever signatures are valid. -/
example : Balanced exampleDecl "Claim" [[⟨"claim", true⟩]] contractProg ∧
    Balanced exampleDecl "Refund" [[⟨"claim", false⟩]] contractProg ∧
    ∀ (envOf : Bytes → Vm.Env) (sig secret claim : Bytes), Vm.truthy claim = true →
      ObeysScript envOf [[⟨"claim", true⟩]] contractProg contractScript scriptBytes
        (start (inputsOf exampleDecl "Claim") [sig, secret, claim]) := by
  refine ⟨by decide +kernel, by decide +kernel, ?_⟩
  intro envOf sig secret claim hclaim x top st hx hs _
  have hs : [LItem.mk claim (some "claim"), ⟨secret, some "secret"⟩, ⟨sig, some "sig"⟩] = top :: st := hs
  cases hs
  cases hx
  rw [hclaim]
  refine ⟨rfl, ?_⟩
  rw [if_pos rfl]
  exact ⟨fun _ _ _ _ _ _ => trivial, fun _ _ _ _ _ _ _ _ _ => trivial⟩

set_option maxRecDepth 100000 in
/-- The address of the contract is spent by the claim with the valid signature. -/
example (u : UnsignedTx Bytes) (tx : UnhashedTx) (h : contractRun [1, 2] = some (u, tx)) (a : Address)
    (ha : Address.fromRedeemScript (fun _ => ⟨List.replicate 20 7, rfl⟩) [] (scriptBytes contractScript) = some a) :
    SpendOk exampleCrypto tx.wire 0 10000 (scriptBytes a.toScript) := by
  have hc := contract_completed _ _ _ h
  obtain ⟨t, ps, _, hps, hus⟩ := SpendProofs.completed_script hc (idx := 0) (input := exampleSpendInput 0)
    (lock := contractScript) (s := contractSignatory) ⟨newSimple, rfl, ⟨[], rfl⟩⟩ (sigs := ([1, 2] : Bytes)) (by
      intro call hcall hidx
      simp only [List.mem_cons, List.not_mem_nil, or_false] at hcall
      subst hcall
      exact .inr ⟨_, rfl, rfl⟩)
  obtain ⟨e, g, hgen, he⟩ : ∃ e g, generate id exampleDecl contractProg = .ok (e, g) ∧
      e.map Emit.op = contractScript := ⟨_, _, rfl, rfl⟩
  obtain ⟨i, hi, hm, hiff⟩ := C71_contract_partial exampleCrypto ⟨1, 1⟩ exampleHash
    (fun _ => ⟨List.replicate 20 7, rfl⟩) (fun _ => rfl)
    id (fun _ => List.Perm.refl _) exampleDecl contractProg e g hgen
    ⟨by decide, by
      intro i hi
      simp only [exampleDecl, List.mem_cons, List.not_mem_nil, or_false] at hi
      rcases hi with rfl | rfl | rfl <;> decide +kernel, by
      intro i hi vs hvs
      simp only [exampleDecl, List.mem_cons, List.not_mem_nil, or_false] at hi
      rcases hi with rfl | rfl | rfl <;> cases hvs <;> simp [exampleDecl]⟩
    (by simp [contractProg, WellNested, opens, isElse, closes]) (by decide +kernel)
    (scriptBytes contractScript) (by rw [he]; rfl) (by decide +kernel) [] a ha
    "Claim" [[⟨"claim", true⟩]] (by decide) (contractFields [1, 2]) (contractValues [1, 2])
    (by
      intro x hx
      have : x = "sig" ∨ x = "secret" ∨ x = "claim" := by
        simpa [inputsOf, exampleDecl] using hx
      rcases this with rfl | rfl | rfl
      · exact ⟨(by decide : (_ : Nat) < 2 ^ 32), by intro d; simp [contractFields], rfl⟩
      · exact ⟨(by decide : (_ : Nat) < 2 ^ 32), by intro d; simp [contractFields], rfl⟩
      · exact ⟨trivial, by intro d; simp [contractFields], rfl⟩)
    contractBuilder u _ tx hc 0 (exampleSpendInput 0) contractSignatory rfl
    (by rw [he]; exact ⟨newSimple, rfl, ⟨[], rfl⟩⟩) ([1, 2] : Bytes) (by
      intro call hcall hidx
      simp only [List.mem_cons, List.not_mem_nil, or_false] at hcall
      subst hcall
      exact .inr ⟨_, rfl, rfl⟩) ps hps
    (by
      rw [he]
      cases ps with
      | nil => cases hus
      | cons p ps => rfl)
    (by
      intro i _ hc
      have : runScript (txEnv exampleCrypto tx.wire 0 i (exampleSpendInput 0).value.toNat)
        [[⟨"claim", true⟩]] contractProg (e.map Emit.op) scriptBytes (start (inputsOf exampleDecl "Claim")
          ((inputsOf exampleDecl "Claim").map (contractValues [1, 2]))) = .ok ⟨[⟨[1], none⟩], []⟩ := rfl
      rw [this] at hc
      cases hc)
  exact hiff.mpr ⟨⟨[1], none⟩, [], rfl, rfl⟩

/-! ### A contract without variants -/

def balancedScript : Script :=
  [.code .OP_IF, .code .OP_SHA1, .code .OP_ELSE, .code .OP_SHA256, .code .OP_SHA256, .code .OP_ENDIF,
   .pushByteArray [7, 7] true, .code .OP_EQUAL]

def balancedFields (old : Bool) (x : String) : Op Bytes :=
  if x = "secret" then .pushByteArray [7, 7] true else .pushBoolean old

def balancedValues (old : Bool) (x : String) : Bytes :=
  if x = "secret" then [7, 7] else if old then [1] else []

/-- A signatory that unlocks with the generated inputs, with a signature that the script does not use. -/
def balancedSignatory (old : Bool) : Signatory Bytes where
  Sigs := Bytes
  downcast d := some d
  kind := .one 0x41 fun _ _ _ _ _ => some ((inputNames balancedDecl "Inputs").map (balancedFields old))
  placeholderSignatures := []
  isP2sh := true

def balancedBuilder (old : Bool) : TxBuilder Bytes :=
  ((newSimple : TxBuilder Bytes).addInput (exampleSpendInput 0) balancedScript (balancedSignatory old)).1.addOutput
    ⟨5000, exampleKeyAddress.toScript⟩

def balancedRun (old : Bool) : Option (UnsignedTx Bytes × UnhashedTx) :=
  match (balancedBuilder old).build ⟨1, 1⟩ exampleHash with
  | .ok u => (signAll u [.dyn 0 [1, 2]]).bind fun u' => u'.completeTx.map fun tx => (u, tx)
  | _ => none

set_option maxRecDepth 100000 in
example (old : Bool) : (balancedRun old).map (fun r => r.2.inputs.map (·.script.length)) = some [3] := by
  cases old <;> decide +kernel

theorem balanced_completed (old : Bool) (u : UnsignedTx Bytes) (tx : UnhashedTx)
    (h : balancedRun old = some (u, tx)) :
    Completed ⟨1, 1⟩ exampleHash (balancedBuilder old) u [.dyn 0 [1, 2]] tx := by
  unfold balancedRun at h
  split at h
  · next u0 hb =>
    obtain ⟨u', h1, h2⟩ := Option.bind_eq_some_iff.mp h
    obtain ⟨tx', h2, h3⟩ := Option.map_eq_some_iff.mp h2
    cases h3
    refine ⟨.addOutput _ (.addInput _ _ _ .newSimple), .inl hb, ⟨u', h1, h2⟩, ?_⟩
    have hall : (match (balancedBuilder old).build ⟨1, 1⟩ exampleHash with
        | .ok r => r.outputs.all fun o => (o.script.serOps.map List.length).any (· < 2 ^ 64)
        | _ => false) = true := by cases old <;> decide +kernel
    rw [hb] at hall
    dsimp only at hall
    rw [List.all_eq_true] at hall
    intro o ho
    have := hall o ho
    cases hs : o.script.serOps with
    | none => rw [hs] at this; cases this
    | some bs =>
      rw [hs] at this
      simp only [Option.map_some, Option.any_some, decide_eq_true_eq] at this
      exact ⟨bs, hs, this⟩
  · cases h

set_option maxRecDepth 100000 in
/-- Both branches at once: the address is spent with the digest of the first branch, and the second does not spend it. -/
example (old : Bool) (u : UnsignedTx Bytes) (tx : UnhashedTx) (h : balancedRun old = some (u, tx)) (a : Address)
    (ha : Address.fromRedeemScript (fun _ => ⟨List.replicate 20 7, rfl⟩) [] (scriptBytes balancedScript) = some a) :
    SpendOk exampleCrypto tx.wire 0 10000 (scriptBytes a.toScript) ↔ old = true := by
  have hc := balanced_completed _ _ _ h
  obtain ⟨t, ps, _, hps, hus⟩ := SpendProofs.completed_script hc (idx := 0) (input := exampleSpendInput 0)
    (lock := balancedScript) (s := balancedSignatory old) ⟨newSimple, rfl, ⟨[], rfl⟩⟩ (sigs := ([1, 2] : Bytes)) (by
      intro call hcall hidx
      simp only [List.mem_cons, List.not_mem_nil, or_false] at hcall
      subst hcall
      exact .inr ⟨_, rfl, rfl⟩)
  obtain ⟨e, g, hgen, he⟩ : ∃ e g, generate id balancedDecl balancedProg = .ok (e, g) ∧
      e.map Emit.op = balancedScript := ⟨_, _, rfl, rfl⟩
  obtain ⟨i, hi, hm, hiff⟩ := C71_without_variants_partial exampleCrypto ⟨1, 1⟩ exampleHash
    (fun _ => ⟨List.replicate 20 7, rfl⟩) (fun _ => rfl)
    id (fun _ => List.Perm.refl _) balancedDecl balancedProg e g hgen
    ⟨by decide, by
      intro i hi
      simp only [balancedDecl, List.mem_cons, List.not_mem_nil, or_false] at hi
      rcases hi with rfl | rfl <;> decide +kernel, by
      intro i hi vs hvs
      simp only [balancedDecl, List.mem_cons, List.not_mem_nil, or_false] at hi
      rcases hi with rfl | rfl <;> cases hvs⟩
    (by simp [balancedProg, WellNested, opens, isElse, closes]) (by decide +kernel) rfl (by decide +kernel)
    (scriptBytes balancedScript) (by rw [he]; rfl) (by decide +kernel) [] a ha
    (balancedFields old) (balancedValues old)
    (by
      intro x hx
      have : x = "secret" ∨ x = "old" := by
        simpa [inputsOf, balancedDecl] using hx
      rcases this with rfl | rfl
      · exact ⟨(by decide : (_ : Nat) < 2 ^ 32), by intro d; simp [balancedFields], rfl⟩
      · exact ⟨trivial, by intro d; simp [balancedFields], by cases old <;> rfl⟩)
    (balancedBuilder old) u _ tx hc 0 (exampleSpendInput 0) (balancedSignatory old) rfl
    (by rw [he]; exact ⟨newSimple, rfl, ⟨[], rfl⟩⟩) ([1, 2] : Bytes) (by
      intro call hcall hidx
      simp only [List.mem_cons, List.not_mem_nil, or_false] at hcall
      subst hcall
      exact .inr ⟨_, rfl, rfl⟩) ps hps
    (by
      rw [he]
      cases ps with
      | nil => cases hus
      | cons p ps => rfl)
  refine hiff.trans ?_
  cases old with
  | true => exact ⟨fun _ => rfl, fun _ => ⟨⟨[1], none⟩, [], rfl, rfl⟩⟩
  | false =>
    refine ⟨?_, by simp⟩
    rintro ⟨top, alt, hx, ht⟩
    have hrun : execScript (txEnv exampleCrypto tx.wire 0 i (exampleSpendInput 0).value.toNat) balancedProg
        (e.map Emit.op) scriptBytes (start (inputsOf balancedDecl balancedDecl.inputStruct)
          ((inputsOf balancedDecl balancedDecl.inputStruct).map (balancedValues false))) =
        .ok ⟨[⟨[], none⟩], []⟩ := rfl
    rw [hrun] at hx
    cases hx
    cases ht

end BCash
