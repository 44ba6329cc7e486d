import Verif.Proofs.Fields
import Verif.Props.ItemsTyped
import Verif.Props.Signed
import Verif.Props.Spending
import Verif.Props.Recorded

/-! # Contracts with variants: what their users need to know

The theorems about scripts with variants ask for runs that are not `undecided`, or that obey the condition of the
variant. Here both follow from what can be read off the source and the field values: the branches of conditionals
leave the same names (`Balanced`), the names in the conditions of variants are those of fields and given to nothing else
(`stable`), and the values of the fields make the condition of their variant true (`Satisfied`). -/

namespace BCash
open Spec Spec.Macro Spec.Named Spec.Source Spec.Items Macro GenProofs TxBuilder
variable {Dyn : Type}

/-- Field values that make the condition true: the run takes only branches which the condition allows. -/
theorem fields_obey (env : Vm.Env) (cond : Predicate) (p : Prog) (names : List String) (values : List Bytes)
    (hst : stable cond p = true) (hsat : Satisfied cond names values) :
    Obeys env cond p [] (start names values) := by
  rcases hsat with rfl | ⟨c, hc, h⟩
  · exact obeys_nil env p [] _
  · exact obeys_of_truthful hc (fun k hk => by cases hk) (stable_conj hst hc) (start_truthful h)

/-- The same with code separators. -/
theorem fields_obey_script (envOf : Bytes → Vm.Env) (cond : Predicate) (p : Prog) (names : List String)
    (values : List Bytes) (ops : List (Op Bytes)) (bytes : List (Op Bytes) → Bytes)
    (hst : stable cond p = true) (hsat : Satisfied cond names values) :
    ObeysScript envOf cond p ops bytes (start names values) := by
  rcases hsat with rfl | ⟨c, hc, h⟩
  · exact obeysFrom_nil _ p 0 [] _ _
  · exact obeysFrom_of_truthful hc (fun k hk => by cases hk) (stable_conj hst hc) (start_truthful h)

/-- **C60** with variants (partial): take a script in which the branches of conditionals leave the same names where
the condition of the variant allows both, and in which no statement gives a name of the condition to anything else. For
all field values that make the condition true it does what is written.

Missing: `declOk`, `progOk`, `Balanced`, `stable` (each is needed in some form: see the `C60_*_fails` theorems and
`C60_unstable_fails`). -/
theorem C60_fields_partial (env : Vm.Env) (order : List (String × VState) → List (String × VState))
    (horder : ∀ l, (order l).Perm l) (d : Decl) (p : Prog) (e : List Emit) (g : Gen)
    (hgen : generate order d p = .ok (e, g))
    (hd : declOk d) (hp : WellNested p) (hok : progOk false p = true)
    (v : String) (cond : Predicate) (hv : (v, cond) ∈ variantsOf d) (hbal : Balanced d v cond p)
    (values : List Bytes) (hlen : values.length = (inputsOf d v).length)
    (hst : stable cond p = true) (hsat : Satisfied cond (inputsOf d v) values) :
    ∃ script, serializeOps (e.map Emit.op) = .ok script ∧
      Faithful env p (start (inputsOf d v) values) script :=
  C60_balanced_partial env order horder d p e g hgen hd hp hok v cond hv hbal values hlen
    (fields_obey env cond p _ _ hst hsat)

/-- **C67** with variants (partial: under the restrictions of `C60_fields_partial`): the recorded names are right for all
field values that make the condition of their variant true. -/
theorem C67_fields_partial (env : Vm.Env) (order : List (String × VState) → List (String × VState))
    (horder : ∀ l, (order l).Perm l) (d : Decl) (p : Prog) (e : List Emit) (g : Gen)
    (hgen : generate order d p = .ok (e, g))
    (hd : declOk d) (hp : WellNested p) (hok : progOk false p = true)
    (v : String) (cond : Predicate) (hv : (v, cond) ∈ variantsOf d)
    (values : List Bytes) (hlen : values.length = (inputsOf d v).length)
    (hbal : Balanced d v cond p) (hst : stable cond p = true) (hsat : Satisfied cond (inputsOf d v) values) :
    RecordsOk env p e (start (inputsOf d v) values) :=
  C67_recorded_partial env order horder d p e g hgen hd hp hok v cond hv values hlen
    (balanced_decided env order horder d p e g hgen hd hp hok v cond hv hbal values hlen
      (fields_obey env cond p _ _ hst hsat))

/-- **C61** with variants: the generated inputs with the generated script, for all field values that make the
condition of their variant true. -/
theorem C61_fields (env : Vm.Env) (order : List (String × VState) → List (String × VState))
    (horder : ∀ l, (order l).Perm l) (d : Decl) (p : Prog) (e : List Emit) (g : Gen)
    (hgen : generate order d p = .ok (e, g))
    (hd : declOk d) (hp : WellNested p) (hok : progOk false p = true)
    (v : String) (cond : Predicate) (hv : (v, cond) ∈ variantsOf d)
    (fields : String → Op Bytes) (values : String → Bytes)
    (hf : ∀ x ∈ inputsOf d v, (fields x).WellFormed ∧ Vm.item (fields x) = some (values x))
    (hbal : Balanced d v cond p) (hst : stable cond p = true)
    (hsat : Satisfied cond (inputsOf d v) ((inputsOf d v).map values)) :
    ∃ unlocking locking, serializeOps ((inputNames d v).map fields) = .ok unlocking ∧
      serializeOps (e.map Emit.op) = .ok locking ∧
      (Vm.Accepts env unlocking locking ↔
        ∃ top rest alt, exec env p (start (inputsOf d v) ((inputsOf d v).map values)) =
          .ok ⟨top :: rest, alt⟩ ∧ Vm.truthy top.value = true) :=
  C61_spend env order horder d p e g hgen hd hp hok v cond hv fields values hf
    (balanced_decided env order horder d p e g hgen hd hp hok v cond hv hbal _ (by simp)
      (fields_obey env cond p _ _ hst hsat))

/-- **C71** with variants (partial: under the restrictions of `C60_fields_partial`): every spend whose field values
make the condition of their variant true. -/
theorem C71_fields_partial (c : Crypto) (sz : Layout) (H : Bytes → Hash256)
    (h160 : Bytes → Hash160) (h160c : ∀ x, (h160 x).1 = c.hash160 x)
    -- the contract
    (order : List (String × VState) → List (String × VState)) (horder : ∀ l, (order l).Perm l)
    (d : Decl) (p : Prog) (e : List Emit) (g : Gen) (hgen : generate order d p = .ok (e, g))
    (hd : declOk d) (hp : WellNested p) (hok : progOk false p = true)
    (rbytes : Bytes) (hr : Script.serOps (e.map Emit.op) = some rbytes) (hrl : rbytes.length < 2 ^ 32)
    (pre : Bytes) (a : Address) (ha : Address.fromRedeemScript h160 pre rbytes = some a)
    -- the variant and the values of its fields
    (v : String) (cond : Predicate) (hv : (v, cond) ∈ variantsOf d)
    (hbal : Balanced d v cond p)
    (fields : String → Op Bytes) (values : String → Bytes)
    (hf : ∀ x ∈ inputsOf d v, (fields x).WellFormed ∧ (∀ data, fields x ≠ .pushByteArray data false) ∧
      Vm.item (fields x) = some (values x))
    -- the transaction
    (b : TxBuilder Dyn) (u : UnsignedTx Dyn) (cs : List (SignCall Dyn)) (tx : UnhashedTx)
    (h : Completed sz H b u cs tx) (idx : Nat) (input : UnsignedTxInput)
    (s : Signatory Dyn) (hs : s.isP2sh = true) (hadd : InputAdded b idx input (e.map Emit.op) s) (sigs : s.Sigs)
    (hcs : ∀ call ∈ cs, call.idx = idx → call = .signatory idx s sigs ∨
      ∃ d, call = .dyn idx d ∧ s.downcast d = some sigs)
    (ps : List TxPreimage) (hps : u.txPreimages[idx]? = some ps)
    (hops : signatoryOps s ps u.estimatedSize sigs (e.map Emit.op) u.outputs =
      some ((inputNames d v).map fields))
    (hst : stable cond p = true) (hsat : Satisfied cond (inputsOf d v) ((inputsOf d v).map values)) :
    ∃ i, tx.wire.inputs[idx]? = some i ∧
      execScript (txEnv c tx.wire idx i input.value.toNat) p (e.map Emit.op) scriptBytes
        (start (inputsOf d v) ((inputsOf d v).map values)) ≠ .mismatch ∧
      (SpendOk c tx.wire idx input.value.toNat (scriptBytes a.toScript) ↔
        ∃ top alt, execScript (txEnv c tx.wire idx i input.value.toNat) p (e.map Emit.op) scriptBytes
            (start (inputsOf d v) ((inputsOf d v).map values)) = .ok ⟨[top], alt⟩ ∧
          Vm.truthy top.value = true) :=
  C71_balanced_partial c sz H h160 h160c order horder d p e g hgen hd hp hok rbytes hr hrl pre a ha
    v cond hv hbal fields values hf b u cs tx h idx input s hs hadd sigs hcs ps hps
    hops (fun _ _ => fields_obey_script _ cond p _ _ _ _ hst hsat)

/-- **C85** with variants (partial: under the restrictions of `C60_fields_partial`): every spend whose field values
make the condition of their variant true, wherever it checks signatures. -/
theorem C85_fields_partial (c : Crypto) (sz : Layout) (H : Bytes → Hash256)
    (hH : ∀ x, (H x).1 = c.hash256 x)
    (h160 : Bytes → Hash160) (h160c : ∀ x, (h160 x).1 = c.hash160 x)
    -- the contract
    (order : List (String × VState) → List (String × VState)) (horder : ∀ l, (order l).Perm l)
    (d : Decl) (p : Prog) (e : List Emit) (g : Gen) (hgen : generate order d p = .ok (e, g))
    (hd : declOk d) (hp : WellNested p) (hok : progOk false p = true)
    (rbytes : Bytes) (hr : Script.serOps (e.map Emit.op) = some rbytes) (hrl : rbytes.length < 2 ^ 32)
    (pre : Bytes) (a : Address) (ha : Address.fromRedeemScript h160 pre rbytes = some a)
    -- the variant and the values of its fields
    (v : String) (cond : Predicate) (hv : (v, cond) ∈ variantsOf d)
    (fields : String → Op Bytes) (values : String → Bytes)
    (hf : ∀ x ∈ inputsOf d v, (fields x).WellFormed ∧ (∀ data, fields x ≠ .pushByteArray data false) ∧
      Vm.item (fields x) = some (values x))
    -- the transaction
    (b : TxBuilder Dyn) (u : UnsignedTx Dyn) (cs : List (SignCall Dyn)) (tx : UnhashedTx)
    (h : Completed sz H b u cs tx) (idx : Nat) (input : UnsignedTxInput)
    (s : Signatory Dyn) (hs : s.isP2sh = true) (hadd : InputAdded b idx input (e.map Emit.op) s) (sigs : s.Sigs)
    (hcs : ∀ call ∈ cs, call.idx = idx → call = .signatory idx s sigs ∨
      ∃ d, call = .dyn idx d ∧ s.downcast d = some sigs)
    (ps : List TxPreimage) (hps : u.txPreimages[idx]? = some ps)
    (hops : signatoryOps s ps u.estimatedSize sigs (e.map Emit.op) u.outputs =
      some ((inputNames d v).map fields))
    (hbal : Balanced d v cond p)
    (hst : stable cond p = true) (hsat : Satisfied cond (inputsOf d v) ((inputsOf d v).map values))
    -- one of the flag sets of the signatory
    (k : Nat) (f : SigHashFlags) (hk : s.sigHashFlagsVec[k]? = some f) (hf8 : f.toNat < 256) :
    ∃ i preimage, tx.wire.inputs[idx]? = some i ∧ ps[k]? = some preimage ∧
      preimage.scriptCode = (if separators p = 0 then e.map Emit.op else afterSeparator 0 (e.map Emit.op)) ∧
      (∀ code, code = e.map Emit.op ∨ (∃ n, code = afterSeparator n (e.map Emit.op)) →
        ∃ bytes, Codec.txPreimage.ser { preimage with scriptCode := code } = some bytes ∧
          ∀ sig pubkey,
            (txEnv c tx.wire idx i input.value.toNat (scriptBytes code)).checkSig (sig ++ [f.toUInt8]) pubkey =
              some true ↔
            f.toNat / 64 % 2 = 1 ∧ c.verify pubkey (c.hash256 bytes) sig = true) ∧
      (SpendOk c tx.wire idx input.value.toNat (scriptBytes a.toScript) ↔
        ∃ top alt, execScript (txEnv c tx.wire idx i input.value.toNat) p (e.map Emit.op) scriptBytes
          (start (inputsOf d v) ((inputsOf d v).map values)) = .ok ⟨[top], alt⟩ ∧
          Vm.truthy top.value = true) :=
  C85_every_check_partial c sz H hH h160 h160c order horder d p e g hgen hd hp hok rbytes hr hrl pre a ha
    v cond hv fields values hf b u cs tx h idx input s hs hadd sigs hcs ps hps
    hops (fun _ _ => C71_obeying _ d p v cond hbal _ (by simp) _ _ (fields_obey_script _ cond p _ _ _ _ hst hsat))
    k f hk hf8

/-- **C88** with variants (partial: under the restrictions of `C60_fields_partial`): from the source of a function the
macro accepts to its spends, for all field values that make the condition of their variant true. -/
theorem C88_fields_partial (env : Vm.Env) (lx : Lex) (hl : LexOk lx)
    (order : List (String × VState) → List (String × VState)) (horder : ∀ l, (order l).Perm l)
    (args : List NestedMeta) (f : ItemFn) (d : Decl) (t : Prog)
    (hdecl : Declares lx args f d) (hs : Says f.body (blocks t)) (hw : WellNested t)
    (hd : declOk d) (hok : progOk false t = true)
    (s : Macro.Script) (e : List Emit) (g : Gen) (h : scriptMacro lx order args f = .ok (s, e, g))
    (v : String) (cond : Predicate) (hv : (v, cond) ∈ variantsOf d)
    (fields : String → Op Bytes) (values : String → Bytes)
    (hf : ∀ x ∈ inputsOf d v, (fields x).WellFormed ∧ Vm.item (fields x) = some (values x))
    (hbal : Balanced d v cond t)
    (hst : stable cond t = true) (hsat : Satisfied cond (inputsOf d v) ((inputsOf d v).map values)) :
    ∃ unlocking locking, serializeOps ((inputNames d v).map fields) = .ok unlocking ∧
      serializeOps (e.map Emit.op) = .ok locking ∧
      (Vm.Accepts env unlocking locking ↔
        ∃ top rest alt, exec env t (start (inputsOf d v) ((inputsOf d v).map values)) =
          .ok ⟨top :: rest, alt⟩ ∧ Vm.truthy top.value = true) :=
  C88_spend_partial env lx hl order horder args f d t hdecl hs hw hd hok s e g h v cond hv fields values hf
    (balanced_decided env order horder d t e g
      ((C88_generates lx hl order args f d t hdecl hs hw e g).mp ⟨s, h⟩).1 hd hw hok v cond hv hbal _ (by simp)
      (fields_obey env cond t _ _ hst hsat))

/-- **C69** with variants (partial: under the restrictions of `C69_balanced_partial`): all field values of the declared
types that make the condition of their variant true. -/
theorem C69_fields_partial (env : Vm.Env) (order : List (String × VState) → List (String × VState))
    (horder : ∀ l, (order l).Perm l) (d : Decl) (p : Prog) (e : List Emit) (g : Gen)
    (hgen : generate order d p = .ok (e, g))
    (hd : declOk d) (hp : WellNested p) (hok : progOk false p = true)
    (tyOf : String → Option FTy) (types : List FTy) (hty : types.length = d.inputs.length)
    (code : List RustStmt) (hcode : generateRust tyOf order d types p = some code)
    (Γ : Scope) (hcheck : checkRust [] code = some Γ) (hone : OneType Γ) (hsame : SameInVariants Γ code)
    (v : String) (cond : Predicate) (hv : (v, cond) ∈ variantsOf d) (hbal : BalancedTypes d types v cond p)
    (values : List Bytes) (hvals : List.Forall₂ Is (inputTypesOf d types v) values)
    (hst : stable cond p = true) (hsat : Satisfied cond (inputsOf d v) values) :
    TypesOk env p (start (inputsOf d v) values) :=
  C69_balanced_partial env order horder d p e g hgen hd hp hok tyOf types hty code hcode Γ hcheck hone hsame v cond hv
    hbal values hvals (fields_obey env cond p _ _ hst hsat)

/-- **C96** (types, with variants, partial: under the restrictions of `C69_balanced_partial`): every value of the
generated type whose fields make the condition of their variant true makes a well-typed execution. -/
theorem C96_typed_fields_partial (env : Vm.Env) (lx : Lex) (hl : LexOk lx)
    (order : List (String × VState) → List (String × VState)) (horder : ∀ l, (order l).Perm l)
    (args : List NestedMeta) (f : ItemFn) (d : Decl) (t : Prog)
    (hdecl : Declares lx args f d) (hsays : Says f.body (blocks t)) (hw : WellNested t)
    (hd : declOk d) (hok : progOk false t = true)
    (sc : Macro.Script) (e : List Emit) (g : Gen) (hacc : scriptMacro lx order args f = .ok (sc, e, g))
    -- the types as written, and the generated code
    (tyOf : String → Option FTy) (types : List FTy)
    (hty : sc.inputs.map (fun i => tyOf i.ty) = types.map some)
    (code : List RustStmt) (hcode : generateRust tyOf order d types t = some code)
    (Γ : Scope) (hcheck : checkRust [] code = some Γ) (hone : OneType Γ) (hsame : SameInVariants Γ code)
    -- a value of the generated type
    (hvalid : Valid sc.inputsItem) (v : InputsValue) (hv : WellTyped tyOf sc.inputsItem v)
    (items : List Bytes) (hitems : List.Forall₂ (fun x item => ItemOf x.2 item) v.fields items)
    (cond : Predicate) (hcond : (v.case, cond) ∈ variantsOf d)
    (hbal : BalancedTypes d types v.case cond t) (hst : stable cond t = true)
    (hsat : Satisfied cond (v.fields.map Prod.fst) items) :
    TypesOk env t (start (v.fields.map Prod.fst) items) :=
  C96_typed_balanced_partial env lx hl order horder args f d t hdecl hsays hw hd hok sc e g hacc tyOf types hty code hcode
    Γ hcheck hone hsame hvalid v hv items hitems cond hcond hbal (fields_obey env cond t _ _ hst hsat)

/-- **C96** (the contract and what is signed, with variants, partial: under the restrictions of `C60_fields_partial`):
every value of the generated type whose fields make the condition of their variant true. -/
theorem C96_fields_partial (c : Crypto) (sz : Layout) (H : Bytes → Hash256)
    (hH : ∀ x, (H x).1 = c.hash256 x)
    (h160 : Bytes → Hash160) (h160c : ∀ x, (h160 x).1 = c.hash160 x)
    -- the source
    (lx : Lex) (hl : LexOk lx)
    (order : List (String × VState) → List (String × VState)) (horder : ∀ l, (order l).Perm l)
    (args : List NestedMeta) (f : ItemFn) (d : Decl) (t : Prog)
    (hdecl : Declares lx args f d) (hsays : Says f.body (blocks t)) (hw : WellNested t)
    (hd : declOk d) (hok : progOk false t = true)
    (sc : Macro.Script) (e : List Emit) (g : Gen) (hacc : scriptMacro lx order args f = .ok (sc, e, g))
    -- the address
    (rbytes : Bytes) (hr : Script.serOps (e.map Emit.op) = some rbytes) (hrl : rbytes.length < 2 ^ 32)
    (pre : Bytes) (a : Address) (ha : Address.fromRedeemScript h160 pre rbytes = some a)
    -- a value of the generated type
    (hvalid : Valid sc.inputsItem) (v : InputsValue) (hv : Inhabits sc.inputsItem v)
    (he : ∀ x ∈ v.fields, Exists x.2) (items : List Bytes)
    (hitems : List.Forall₂ (fun x item => ItemOf x.2 item) v.fields items)
    (cond : Predicate) (hcond : (v.case, cond) ∈ variantsOf d)
    (text : ScriptInput → String) (ops : List Tagged) (hops : sc.inputOps text v = .ok ops)
    -- the transaction
    (b : TxBuilder Dyn) (u : UnsignedTx Dyn) (cs : List (SignCall Dyn)) (tx : UnhashedTx)
    (h : Completed sz H b u cs tx) (idx : Nat) (input : UnsignedTxInput)
    (s : Signatory Dyn) (hs : s.isP2sh = true) (hadd : InputAdded b idx input (e.map Emit.op) s) (sigs : s.Sigs)
    (hcs : ∀ call ∈ cs, call.idx = idx → call = .signatory idx s sigs ∨
      ∃ d, call = .dyn idx d ∧ s.downcast d = some sigs)
    (ps : List TxPreimage) (hps : u.txPreimages[idx]? = some ps)
    (hunlock : signatoryOps s ps u.estimatedSize sigs (e.map Emit.op) u.outputs = some (ops.map Tagged.op))
    (hbal : Balanced d v.case cond t)
    (hst : stable cond t = true) (hsat : Satisfied cond (v.fields.map Prod.fst) items)
    -- one of the flag sets of the signatory
    (k : Nat) (fl : SigHashFlags) (hk : s.sigHashFlagsVec[k]? = some fl) (hf8 : fl.toNat < 256) :
    ∃ i preimage, tx.wire.inputs[idx]? = some i ∧ ps[k]? = some preimage ∧
      preimage.scriptCode = (if separators t = 0 then e.map Emit.op else afterSeparator 0 (e.map Emit.op)) ∧
      (∀ code, code = e.map Emit.op ∨ (∃ n, code = afterSeparator n (e.map Emit.op)) →
        ∃ bytes, Codec.txPreimage.ser { preimage with scriptCode := code } = some bytes ∧
          ∀ sig pubkey,
            (txEnv c tx.wire idx i input.value.toNat (scriptBytes code)).checkSig (sig ++ [fl.toUInt8]) pubkey =
              some true ↔
            fl.toNat / 64 % 2 = 1 ∧ c.verify pubkey (c.hash256 bytes) sig = true) ∧
      (SpendOk c tx.wire idx input.value.toNat (scriptBytes a.toScript) ↔
        ∃ top alt, execScript (txEnv c tx.wire idx i input.value.toNat) t (e.map Emit.op) scriptBytes
            (start (v.fields.map Prod.fst) items) = .ok ⟨[top], alt⟩ ∧
          Vm.truthy top.value = true) := by
  have hde := ItemsProofs.decl_eq lx hl order args f d hdecl sc e g hacc
  have hnames := ItemsProofs.names_of_item sc (by rw [hde]; exact hd) hvalid v hv
  rw [hde] at hnames
  refine C96_signed_partial c sz H hH h160 h160c lx hl order horder args f d t hdecl hsays hw hd hok sc e g hacc rbytes hr
    hrl pre a ha hvalid v hv he items hitems cond hcond text ops hops b u cs tx h idx input s hs hadd sigs hcs ps hps
    hunlock (fun i _ => ?_) k fl hk hf8
  have hob := fields_obey_script (txEnv c tx.wire idx i input.value.toNat) cond t _ _ (e.map Emit.op) scriptBytes hst hsat
  rw [hnames] at hob ⊢
  exact C71_obeying _ d t v.case cond hbal items
    (by rw [← hnames, List.length_map]; exact hitems.length_eq.symm) _ _ hob

/-- **C100** (contracts with variants, partial: under the restrictions of `C60_fields_partial`): a coin locked to a
contract, spent with values of the generated type whose fields make the condition of their variant true. -/
theorem C100_fields_partial (c : Crypto) (sz : Layout) (H : Bytes → Hash256)
    (hH : ∀ x, (H x).1 = c.hash256 x) (h20 : ∀ x, (c.hash160 x).length = 20)
    -- the source
    (lx : Lex) (hl : LexOk lx)
    (order : List (String × VState) → List (String × VState)) (horder : ∀ l, (order l).Perm l)
    (args : List NestedMeta) (f : ItemFn) (d : Decl) (t : Prog)
    (hdecl : Declares lx args f d) (hsays : Says f.body (blocks t)) (hn : WellNested t)
    (hd : declOk d) (hok : progOk false t = true)
    (sc : Macro.Script) (e : List Emit) (g : Gen) (hacc : scriptMacro lx order args f = .ok (sc, e, g))
    (hvalid : Valid sc.inputsItem)
    -- the coins and the outputs
    (version : Int32) (lockTime : UInt32) (fee : UInt64)
    (jobs : List (Job Dyn)) (outs : List TxBuilderOutput) (hw : ∀ job ∈ jobs, job.Works)
    (hin : (jobs.map (·.input.value.toNat)).sum < 2 ^ 64)
    (hfix : outputSum (fixedOf outs) ≤ (jobs.map (·.input.value.toNat)).sum)
    (hs : ∀ o ∈ outs, o.script.Serialisable)
    (hfee : spendBound jobs (outs.map (·.script)) * max 1 fee.toNat < 2 ^ 64)
    -- the coin locked to the contract
    (idx : Nat) (job : Job Dyn) (hj : jobs[idx]? = some job)
    (name : String) (cond : Predicate) (hcond : (name, cond) ∈ variantsOf d)
    (hbal : Balanced d name cond t) (hst : stable cond t = true) (text : ScriptInput → String)
    (v : List TxPreimage → InputsValue) (items : List TxPreimage → List Bytes)
    (hjob : SpendsContract sc (e.map Emit.op) name text job v items)
    (hsat : ∀ ps, job.Handed ps → Satisfied cond ((v ps).fields.map Prod.fst) (items ps))
    (k : Nat) (fl : SigHashFlags) (hk : job.signatory.sigHashFlagsVec[k]? = some fl) (hf8 : fl.toNat < 256) :
    ∃ (u : UnsignedTx Dyn) (tx : UnhashedTx) (ps : List TxPreimage) (i : WireInput),
      (spendBuilder version lockTime fee jobs outs).build sz H = .ok u ∧
      spend sz H version lockTime fee jobs outs = .ok tx ∧
      u.txPreimages[idx]? = some ps ∧ job.Handed ps ∧ tx.wire.inputs[idx]? = some i ∧
      ∃ p, ps[k]? = some p ∧
      p.scriptCode = (if separators t = 0 then e.map Emit.op else afterSeparator 0 (e.map Emit.op)) ∧
      (∀ code, code = e.map Emit.op ∨ (∃ n, code = afterSeparator n (e.map Emit.op)) →
        ∃ bytes, Codec.txPreimage.ser { p with scriptCode := code } = some bytes ∧
          ∀ sig pubkey,
            (txEnv c tx.wire idx i job.input.value.toNat (scriptBytes code)).checkSig (sig ++ [fl.toUInt8]) pubkey =
              some true ↔
            fl.toNat / 64 % 2 = 1 ∧ c.verify pubkey (c.hash256 bytes) sig = true) ∧
      (SpendOk c tx.wire idx job.input.value.toNat (p2shLock c (scriptBytes (e.map Emit.op))) ↔
        ∃ top alt, execScript (txEnv c tx.wire idx i job.input.value.toNat) t (e.map Emit.op) scriptBytes
            (start ((v ps).fields.map Prod.fst) (items ps)) = .ok ⟨[top], alt⟩ ∧
          Vm.truthy top.value = true) := by
  obtain ⟨u, tx, ps, i, h1, h2, h3, h4, h5, h6⟩ := C100_contract_partial c sz H hH h20 lx hl order horder args f d t
    hdecl hsays hn hd hok sc e g hacc hvalid version lockTime fee jobs outs hw hin hfix hs hfee idx job hj
    name cond hcond text v items hjob k fl hk hf8
  refine ⟨u, tx, ps, i, h1, h2, h3, h4, h5, h6 ?_⟩
  obtain ⟨v1, v2, _, v4⟩ := hjob.value ps h4
  have hde := ItemsProofs.decl_eq lx hl order args f d hdecl sc e g hacc
  have hnames := ItemsProofs.names_of_item sc (by rw [hde]; exact hd) hvalid (v ps) v2
  rw [hde, v1] at hnames
  have hob := fields_obey_script (txEnv c tx.wire idx i job.input.value.toNat) cond t _ _ (e.map Emit.op) scriptBytes hst
    (hsat ps h4)
  rw [hnames] at hob ⊢
  exact C71_obeying _ d t name cond hbal _ (by rw [← hnames, List.length_map]; exact v4.length_eq.symm) _ _ hob

/-! ## Examples -/

/-- A true `claim` satisfies the condition of the first variant. -/
theorem claim_satisfied (sig secret claim : Bytes) (h : Vm.truthy claim = true) :
    Satisfied [[⟨"claim", true⟩]] (inputsOf exampleDecl "Claim") [sig, secret, claim] := by
  refine .inr ⟨_, List.mem_singleton_self _, fun a ha field hf hn => ?_⟩
  rw [List.mem_singleton] at ha
  subst ha
  have hf : field ∈ [("sig", sig), ("secret", secret), ("claim", claim)] := hf
  simp only [List.mem_cons, List.not_mem_nil, or_false] at hf
  rcases hf with rfl | rfl | rfl
  · exact absurd (show _ = _ from hn) (by simp)
  · exact absurd (show _ = _ from hn) (by simp)
  · exact h

/-- The contract of the examples (two variants, in `Props/Contract.lean`) and the one with PICK and ROLL (in
`Props/MacroGen.lean`) have no other use for the name in their conditions, are balanced, and a true `claim` satisfies
the condition of the first variant, a false one that of the second, whatever the other values are. -/
example : stable [[⟨"claim", true⟩]] contractProg = true ∧ stable [[⟨"claim", false⟩]] contractProg = true ∧
    stable [[⟨"claim", true⟩]] exampleProg = true ∧ Balanced exampleDecl "Claim" [[⟨"claim", true⟩]] exampleProg ∧
    Balanced exampleDecl "Claim" [[⟨"claim", true⟩]] contractProg ∧
    (∀ sig secret claim, Vm.truthy claim = true →
      Satisfied [[⟨"claim", true⟩]] (inputsOf exampleDecl "Claim") [sig, secret, claim]) ∧
    (∀ sig claim, Vm.truthy claim = false →
      Satisfied [[⟨"claim", false⟩]] (inputsOf exampleDecl "Refund") [sig, claim]) := by
  refine ⟨by decide +kernel, by decide +kernel, by decide +kernel, by decide +kernel, by decide +kernel, ?_, ?_⟩
  · exact claim_satisfied
  · intro sig claim h
    refine .inr ⟨_, List.mem_singleton_self _, fun a ha field hf hn => ?_⟩
    rw [List.mem_singleton] at ha
    subst ha
    have hf : field ∈ [("sig", sig), ("claim", claim)] := hf
    simp only [List.mem_cons, List.not_mem_nil, or_false] at hf
    rcases hf with rfl | rfl
    · exact absurd (show _ = _ from hn) (by simp)
    · exact h

/-- A contract in which the names of conditions are moved about under their names: still `stable`. -/
example : stable [[⟨"claim", true⟩]]
    (.leaf (.opcode ⟨.op .OP_SWAP, some [.ident "claim", .ident "sig"], some ["sig", "claim"]⟩)
      (.leaf (.opcode ⟨.op .OP_TOALTSTACK, some [.ident "claim"], some ["claim"]⟩)
        (.leaf (.opcode ⟨.op .OP_FROMALTSTACK, some [.ident "claim"], some ["claim"]⟩) .nil))) = true ∧
    stable [[⟨"claim", true⟩]]
      (.leaf (.opcode ⟨.op .OP_SWAP, some [.ident "claim", .ident "sig"], some ["claim", "claim"]⟩) .nil) = false := by
  decide +kernel

/-- All claims of the example with a true `claim` do what is written, for every signature, every secret, and every
environment. -/
example (env : Vm.Env) (sig secret claim : Bytes) (h : Vm.truthy claim = true) :
    ∃ script, Faithful env contractProg (start ["sig", "secret", "claim"] [sig, secret, claim]) script := by
  obtain ⟨e, g, hgen⟩ : ∃ e g, generate id exampleDecl contractProg = .ok (e, g) := ⟨_, _, rfl⟩
  obtain ⟨script, _, hs⟩ := C60_fields_partial env id (fun _ => List.Perm.refl _) exampleDecl contractProg e g hgen
    ⟨by decide, by
      intro i hi
      simp only [exampleDecl, List.mem_cons, List.not_mem_nil, or_false] at hi
      rcases hi with rfl | rfl | rfl <;> decide +kernel, by
      intro i hi vs hvs
      simp only [exampleDecl, List.mem_cons, List.not_mem_nil, or_false] at hi
      rcases hi with rfl | rfl | rfl <;> cases hvs <;> simp [exampleDecl]⟩
    (by simp [contractProg, WellNested, opens, isElse, closes]) (by decide +kernel)
    "Claim" [[⟨"claim", true⟩]] (by decide) (by decide +kernel) [sig, secret, claim] rfl (by decide +kernel)
    (claim_satisfied sig secret claim h)
  exact ⟨script, hs⟩

set_option maxRecDepth 100000 in
/-- The address of the contract is spent by the claim with the valid signature: by `C71_fields_partial`. -/
example (u : UnsignedTx Bytes) (tx : UnhashedTx) (h : contractRun [1, 2] = some (u, tx)) (a : Address)
    (ha : Address.fromRedeemScript (fun _ => ⟨List.replicate 20 7, rfl⟩) [] (scriptBytes contractScript) = some a) :
    SpendOk exampleCrypto tx.wire 0 10000 (scriptBytes a.toScript) := by
  have hc := contract_completed _ _ _ h
  obtain ⟨t, ps, _, hps, hus⟩ := SpendProofs.completed_script hc (idx := 0) (input := exampleSpendInput 0)
    (lock := contractScript) (s := contractSignatory) ⟨newSimple, rfl, ⟨[], rfl⟩⟩ (sigs := ([1, 2] : Bytes)) (by
      intro call hcall hidx
      simp only [List.mem_cons, List.not_mem_nil, or_false] at hcall
      subst hcall
      exact .inr ⟨_, rfl, rfl⟩)
  obtain ⟨e, g, hgen, he⟩ : ∃ e g, generate id exampleDecl contractProg = .ok (e, g) ∧
      e.map Emit.op = contractScript := ⟨_, _, rfl, rfl⟩
  obtain ⟨i, hi, hm, hiff⟩ := C71_fields_partial exampleCrypto ⟨1, 1⟩ exampleHash
    (fun _ => ⟨List.replicate 20 7, rfl⟩) (fun _ => rfl)
    id (fun _ => List.Perm.refl _) exampleDecl contractProg e g hgen
    ⟨by decide, by
      intro i hi
      simp only [exampleDecl, List.mem_cons, List.not_mem_nil, or_false] at hi
      rcases hi with rfl | rfl | rfl <;> decide +kernel, by
      intro i hi vs hvs
      simp only [exampleDecl, List.mem_cons, List.not_mem_nil, or_false] at hi
      rcases hi with rfl | rfl | rfl <;> cases hvs <;> simp [exampleDecl]⟩
    (by simp [contractProg, WellNested, opens, isElse, closes]) (by decide +kernel)
    (scriptBytes contractScript) (by rw [he]; rfl) (by decide +kernel) [] a ha
    "Claim" [[⟨"claim", true⟩]] (by decide) (by decide +kernel) (contractFields [1, 2]) (contractValues [1, 2])
    (by
      intro x hx
      have : x = "sig" ∨ x = "secret" ∨ x = "claim" := by
        simpa [inputsOf, exampleDecl] using hx
      rcases this with rfl | rfl | rfl
      · exact ⟨(by decide : (_ : Nat) < 2 ^ 32), by intro d; simp [contractFields], rfl⟩
      · exact ⟨(by decide : (_ : Nat) < 2 ^ 32), by intro d; simp [contractFields], rfl⟩
      · exact ⟨trivial, by intro d; simp [contractFields], rfl⟩)
    contractBuilder u _ tx hc 0 (exampleSpendInput 0) contractSignatory rfl
    (by rw [he]; exact ⟨newSimple, rfl, ⟨[], rfl⟩⟩) ([1, 2] : Bytes) (by
      intro call hcall hidx
      simp only [List.mem_cons, List.not_mem_nil, or_false] at hcall
      subst hcall
      exact .inr ⟨_, rfl, rfl⟩) ps hps
    (by
      rw [he]
      cases ps with
      | nil => cases hus
      | cons p ps => rfl)
    (by decide +kernel) (claim_satisfied _ _ _ rfl)
  exact hiff.mpr ⟨⟨[1], none⟩, [], rfl, rfl⟩

/-! ## Why `stable` -/

/-- A flag of the variant's condition that is given to another item. -/
def unstableDecl : Decl := ⟨"Inputs", [("A", [[⟨"c", true⟩]])], [⟨"a", none⟩, ⟨"c", none⟩]⟩

def unstableProg : Prog :=
  .leaf (.push (.pushBoolean false) (some "c"))
    (.scriptIf ⟨.op .OP_IF, some [.ident "c"], none⟩ .nil (some ⟨.op .OP_ELSE, none, none⟩)
      (.leaf (.push (.pushInteger 5) (some "x")) .nil) ⟨.op .OP_ENDIF, none, none⟩
      (.leaf (.opcode ⟨.op .OP_DROP, some [.ident "c"], none⟩) .nil))

/-- **C60** fails for inputs that make the condition of their variant true, if the script gives a name of the condition
to another item: the macro takes its branch for one the condition does not allow. -/
theorem C60_unstable_fails :
    (∃ e g, generate id unstableDecl unstableProg = .ok (e, g)) ∧ declOk unstableDecl ∧ WellNested unstableProg ∧
    progOk false unstableProg = true ∧ ("A", [[⟨"c", true⟩]]) ∈ variantsOf unstableDecl ∧
    Balanced unstableDecl "A" [[⟨"c", true⟩]] unstableProg ∧
    Satisfied [[⟨"c", true⟩]] (inputsOf unstableDecl "A") [[1], [1]] ∧
    ∀ env script, ¬ Faithful env unstableProg (start (inputsOf unstableDecl "A") [[1], [1]]) script := by
  refine ⟨⟨_, _, rfl⟩, ⟨by decide, ?_, ?_⟩, by simp [unstableProg, WellNested, opens, isElse, closes],
    by decide +kernel, by decide, by decide +kernel, ?_, ?_⟩
  · intro i hi
    simp only [unstableDecl, List.mem_cons, List.not_mem_nil, or_false] at hi
    rcases hi with rfl | rfl <;> decide +kernel
  · intro i hi vs hvs
    simp only [unstableDecl, List.mem_cons, List.not_mem_nil, or_false] at hi
    rcases hi with rfl | rfl <;> cases hvs
  · refine .inr ⟨_, List.mem_singleton_self _, fun a ha field hf hn => ?_⟩
    rw [List.mem_singleton] at ha
    subst ha
    have hf : field ∈ [("a", [(1 : UInt8)]), ("c", [1])] := hf
    simp only [List.mem_cons, List.not_mem_nil, or_false] at hf
    rcases hf with rfl | rfl
    · exact absurd (show _ = _ from hn) (by simp)
    · rfl
  · intro env script h
    have : exec env unstableProg (start (inputsOf unstableDecl "A") [[1], [1]]) = .mismatch := rfl
    unfold Faithful at h
    rw [this] at h
    exact h

end BCash
