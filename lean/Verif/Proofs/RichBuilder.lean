import Verif.Spec.Rich
import Verif.Props.PreimageP
import Mathlib.Data.List.Forall2

/-! # Debugging information does not change what the builder does -/

namespace BCash.RichProofs
open Spec
variable {Dyn : Type}

/-! ## Contents -/

theorem contents_eq_erase (s : TaggedScript) : TaggedScript.contents s = ScriptP.erase s.ops := by
  simp [TaggedScript.contents, ScriptP.erase, TaggedScript.ops]

theorem outputs_erase (o : RichOutput) : o.untag.erase = o.contents := by
  simp [RichOutput.untag, TxOutputP.erase, RichOutput.contents, contents_eq_erase]

theorem input_erase (i : RichInput) : i.untag.erase = i.contents := by
  simp only [RichInput.untag, TxInputP.erase, RichInput.contents, contents_eq_erase, TxOutpointP.erase,
    Option.map_map]
  congr 1
  cases i.lockScript <;> simp [contents_eq_erase]

theorem tx_erase (t : RichTx) : t.untag.erase = t.contents := by
  simp only [RichTx.untag, UnhashedTxP.erase, RichTx.contents, List.map_map]
  congr 1
  · apply List.map_congr_left; intro i _; exact input_erase i
  · apply List.map_congr_left; intro i _; exact outputs_erase i

theorem tx_size (opName : Opcode → String) (sz : Layout) (t : RichTx) :
    ((CodecP.unhashedTx opName sz).ser t.untag).map (fun b => b.data.length) =
      ((Codec.unhashedTx sz).ser t.contents).map List.length := by
  have h := (Refines.unhashedTx opName sz).ser t.untag
  rw [tx_erase] at h
  rw [← h, Option.map_map]
  rfl

theorem serOps_contents (opName : Opcode → String) (s : TaggedScript) :
    (s.serOps opName).map ByteArray.data = (TaggedScript.contents s).serOps := by
  have h := (C13_serialise_congruence opName s.ops s.ops rfl).2
  unfold TaggedScript.serOps Script.serOps
  rw [contents_eq_erase]
  unfold ScriptP.erase
  rw [← h]
  cases serializeOpsBA opName s.ops <;> rfl

theorem codeFirst_contents (s : TaggedScript) :
    TaggedScript.contents s.toScriptCodeFirst = (TaggedScript.contents s).toScriptCodeFirst := by
  unfold TaggedScript.toScriptCodeFirst Script.toScriptCodeFirst TaggedScript.contents
  rw [List.findIdx?_map]
  have : ((fun op : Op Bytes => op.beq (.code .OP_CODESEPARATOR)) ∘ fun t : TaggedOp => t.op.map ByteArray.data) =
    fun t => (t.op.map ByteArray.data).beq (.code .OP_CODESEPARATOR) := rfl
  rw [this]
  cases List.findIdx? (fun t : TaggedOp => (t.op.map ByteArray.data).beq (.code .OP_CODESEPARATOR)) s with
  | none => rfl
  | some idx => simp

theorem codeFirst_ops (s : TaggedScript) :
    TaggedScript.ops s.toScriptCodeFirst = ScriptP.toScriptCodeFirst s.ops := by
  unfold TaggedScript.toScriptCodeFirst ScriptP.toScriptCodeFirst TaggedScript.ops
  rw [List.findIdx?_map]
  have : ((fun op : Op ByteArray => (op.map ByteArray.data).beq (.code .OP_CODESEPARATOR)) ∘
      fun t : TaggedOp => t.op) =
    fun t => (t.op.map ByteArray.data).beq (.code .OP_CODESEPARATOR) := rfl
  rw [this]
  cases List.findIdx? (fun t : TaggedOp => (t.op.map ByteArray.data).beq (.code .OP_CODESEPARATOR)) s with
  | none => rfl
  | some idx => simp

theorem named_data {n : Nat} (h : FixedP n) (name : String) : (h.named name).contents = h.contents := by
  obtain ⟨⟨d, m, f, p⟩, hl⟩ := h
  rfl

theorem empty_contents (s : TaggedScript) :
    (RichPreimage.emptyWithScript s).contents = TxPreimage.emptyWithScript (TaggedScript.contents s) := by
  simp only [RichPreimage.emptyWithScript, RichPreimage.contents, TxPreimage.emptyWithScript, codeFirst_contents,
    named_data]
  rfl

/-! ## Lists -/

theorem mapM_rel {α β γ δ : Type} {R : α → γ → Prop} {f : α → Option β} {g : γ → Option δ} {e : β → δ}
    {xs : List α} {ys : List γ} (h : List.Forall₂ R xs ys) (hf : ∀ x y, R x y → (f x).map e = g y) :
    (xs.mapM f).map (List.map e) = ys.mapM g := by
  induction h with
  | nil => rfl
  | @cons x y xs ys h1 _ ih =>
    rw [List.mapM_cons, List.mapM_cons, ← hf x y h1, ← ih]
    cases f x with
    | none => rfl
    | some y => cases xs.mapM f <;> rfl

theorem map_rel {α β γ : Type} {R : α → γ → Prop} {f : α → β} {g : γ → β} {xs : List α} {ys : List γ}
    (h : List.Forall₂ R xs ys) (hf : ∀ x y, R x y → f x = g y) : xs.map f = ys.map g := by
  induction h with
  | nil => rfl
  | cons h1 _ ih => rw [List.map_cons, List.map_cons, hf _ _ h1, ih]

theorem get_rel {α γ : Type} {R : α → γ → Prop} {xs : List α} {ys : List γ}
    (h : List.Forall₂ R xs ys) (i : Nat) : Option.Rel R xs[i]? ys[i]? := by
  induction h generalizing i with
  | nil => simpa using Option.Rel.none
  | cons h1 _ ih =>
    cases i with
    | zero => simpa using Option.Rel.some h1
    | succ i => simpa using ih i

/-! ## Scripts -/

theorem unlock_contents (opName : Opcode → String) (s : RichSignatory Dyn) (kind : SignatoryKind s.Sigs)
    (hk : KindContents s.kind kind) (ps : List RichPreimage) (n : Option Nat) (sigs : s.Sigs) (lock : TaggedScript)
    (outs : List RichOutput) :
    (s.unlockScript opName ps n sigs lock outs).map TaggedScript.contents =
      (plainSignatory s kind).unlockScript (ps.map RichPreimage.contents) n sigs (TaggedScript.contents lock)
        (outs.map RichOutput.contents) := by
  obtain ⟨Sigs, dc, k, pl, p2sh⟩ := s
  unfold RichSignatory.unlockScript Signatory.unlockScript plainSignatory RichSignatory.builtOps
  dsimp only at kind hk sigs ⊢
  have tail : ∀ x : Option TaggedScript, ∀ y : Option Script, x.map TaggedScript.contents = y →
      (x.bind fun ops => if p2sh then (lock.serOps opName).bind fun bytes =>
        some (ops ++ [TaggedOp.fromOp (.pushByteArray bytes true)]) else some ops).map TaggedScript.contents =
      y.bind fun ops => if p2sh then (TaggedScript.contents lock).serOps.bind fun bytes =>
        some (ops ++ [.pushByteArray bytes true]) else some ops := by
    rintro x y rfl
    cases x with
    | none => rfl
    | some ops =>
      cases p2sh with
      | false => rfl
      | true =>
        simp only [Option.bind_some, if_true, Option.map_some, ← serOps_contents opName lock]
        cases lock.serOps opName with
        | none => rfl
        | some b => simp [TaggedScript.contents, TaggedOp.fromOp, Op.map]
  cases k with
  | one f build' =>
    cases kind with
    | multiple => exact hk.elim
    | one g build =>
      obtain ⟨_, h⟩ := hk
      apply tail
      cases ps with
      | nil => rfl
      | cons p ps => exact h p n sigs lock outs
  | multiple f build' =>
    cases kind with
    | one => exact hk.elim
    | multiple g build =>
      obtain ⟨_, h⟩ := hk
      exact tail _ _ (h ps n sigs lock outs)

theorem flags_contents (s : RichSignatory Dyn) (kind : SignatoryKind s.Sigs) (hk : KindContents s.kind kind) :
    s.sigHashFlagsVec = (plainSignatory s kind).sigHashFlagsVec := by
  obtain ⟨Sigs, dc, k, pl, p2sh⟩ := s
  unfold RichSignatory.sigHashFlagsVec Signatory.sigHashFlagsVec plainSignatory
  dsimp only at kind hk ⊢
  cases k <;> cases kind <;> simp only [KindContents] at hk <;> simp [hk.1]

theorem func_contents (opName : Opcode → String) (s : RichSignatory Dyn) (kind : SignatoryKind s.Sigs)
    (hk : KindContents s.kind kind) : FuncContents (s.funcScript opName) (plainSignatory s kind).funcScript := by
  intro ps n sigs lock outs
  unfold RichSignatory.funcScript Signatory.funcScript
  cases sigs with
  | none => exact unlock_contents opName s kind hk ps n _ lock outs
  | some d =>
    show ((s.downcast d).bind _).map _ = (s.downcast d).bind _
    cases s.downcast d with
    | none => rfl
    | some x => exact unlock_contents opName s kind hk ps n x lock outs

/-! ## The builder -/

theorem placeholder_contents {i' : RichBuilderInput Dyn} {i : TxBuilderInput Dyn} (h : InputContents i' i)
    (outs : List RichOutput) :
    (RichBuilder.placeholderInput i' outs).map RichInput.contents =
      TxBuilder.placeholderInput i (outs.map RichOutput.contents) := by
  have hi := h.input
  have key : ∀ ps lock, ((i'.funcScript ps none none lock outs).map fun script =>
        (⟨i'.input.prevHash, i'.input.prevVout, script, i'.input.sequence, none, none, none, none⟩ : RichInput)).map
          RichInput.contents =
      (i.funcScript (ps.map RichPreimage.contents) none none (TaggedScript.contents lock)
        (outs.map RichOutput.contents)).map fun script =>
          (⟨i.input.prevOut, script, i.input.sequence, none, none, none, none⟩ : TxInput) := by
    intro ps lock
    rw [← h.func, ← hi]
    cases i'.funcScript ps none none lock outs <;> rfl
  unfold RichBuilder.placeholderInput TxBuilder.placeholderInput
  rw [← h.lock, ← h.flags]
  cases i'.lockScript with
  | none => exact key [] []
  | some lock =>
    have := key (List.replicate i'.sigHashFlags.length (RichPreimage.emptyWithScript lock)) lock
    rw [List.map_replicate, empty_contents] at this
    exact this

theorem estimate_contents (opName : Opcode → String) (sz : Layout) {b' : RichBuilder Dyn} {b : TxBuilder Dyn}
    (h : BuilderContents b' b) (outs : List RichOutput) :
    b'.estimateSize opName sz outs = b.estimateSize sz (outs.map RichOutput.contents) := by
  unfold RichBuilder.estimateSize TxBuilder.estimateSize
  have hm := mapM_rel (f := fun i => RichBuilder.placeholderInput i outs)
    (g := fun i => TxBuilder.placeholderInput i (outs.map RichOutput.contents)) h.inputs
    (fun _ _ hx => placeholder_contents hx outs)
  rw [← hm]
  cases b'.inputs.mapM fun i => RichBuilder.placeholderInput i outs with
  | none => rfl
  | some ins =>
    simp only [Option.bind_some, Option.map_some]
    rw [tx_size]
    unfold RichTx.contents
    rw [h.version, h.lockTime]

theorem makeOutputs_contents (amounts : Nat → Option Nat) (n : Nat) (outs : List RichBuilderOutput) :
    (RichBuilder.makeOutputsFrom amounts n outs).map RichOutput.contents =
      TxBuilder.makeOutputsFrom amounts n (outs.map RichBuilderOutput.contents) := by
  induction outs generalizing n with
  | nil => rfl
  | cons o outs ih =>
    cases o with
    | knownValue o =>
      simp only [RichBuilder.makeOutputsFrom, List.map_cons, RichBuilderOutput.contents, TxBuilder.makeOutputsFrom, ih]
    | leftover lo hi p s =>
      simp only [RichBuilder.makeOutputsFrom, List.map_cons, RichBuilderOutput.contents, TxBuilder.makeOutputsFrom]
      cases amounts n with
      | none => exact ih _
      | some v => simp only [List.map_cons, ih]; rfl

theorem leftovers_contents (n : Nat) (outs : List RichBuilderOutput) :
    RichBuilder.leftoverIndices n outs = TxBuilder.leftoverIndices n (outs.map RichBuilderOutput.contents) := by
  induction outs generalizing n with
  | nil => rfl
  | cons o outs ih =>
    cases o <;> simp only [RichBuilder.leftoverIndices, List.map_cons, RichBuilderOutput.contents,
      TxBuilder.leftoverIndices, ih]

theorem value_contents (o : RichBuilderOutput) : o.getValue = o.contents.getValue := by cases o <;> rfl

theorem step_contents (opName : Opcode → String) (sz : Layout) {b' : RichBuilder Dyn} {b : TxBuilder Dyn}
    (h : BuilderContents b' b) (st : TxBuilder.BuildState) (idx : Nat) :
    b'.buildStep opName sz st idx = b.buildStep sz st idx := by
  unfold RichBuilder.buildStep TxBuilder.buildStep
  have e : ∀ amounts, b'.estimateSize opName sz (b'.makeOutputs amounts) = b.estimateSize sz (b.makeOutputs amounts) := by
    intro amounts
    rw [estimate_contents opName sz h]
    unfold RichBuilder.makeOutputs TxBuilder.makeOutputs
    rw [makeOutputs_contents, h.outputs]
  rw [← h.outputs, List.getElem?_map]
  cases b'.outputs[idx]? with
  | none => rfl
  | some o =>
    cases o with
    | knownValue o => rfl
    | leftover lo hi p s =>
      simp only [Option.map_some, RichBuilderOutput.contents, e, h.fee]

theorem loop_contents (opName : Opcode → String) (sz : Layout) {b' : RichBuilder Dyn} {b : TxBuilder Dyn}
    (h : BuilderContents b' b) (l : List (Nat × Int)) (st : TxBuilder.BuildState) :
    b'.buildLoop opName sz st l = b.buildLoop sz st l := by
  induction l generalizing st with
  | nil => rfl
  | cons x l ih =>
    obtain ⟨idx, k⟩ := x
    unfold RichBuilder.buildLoop TxBuilder.buildLoop
    rw [step_contents opName sz h]
    congr 1
    funext st
    exact ih st

/-- The preimages without tags. -/
def untagPreimage (p : RichPreimage) : TxPreimageP :=
  ⟨p.version, p.hashPrevouts, p.hashSequence, p.outpoint, TaggedScript.ops p.scriptCode, p.value, p.sequence,
   p.hashOutputs, p.lockTime, p.sigHashType⟩

theorem untag_erase (p : RichPreimage) : (untagPreimage p).erase = p.contents := by
  simp only [untagPreimage, TxPreimageP.erase, RichPreimage.contents, contents_eq_erase, TxOutpointP.erase]
  rfl

theorem built_code {P : HashPrims} {opName : Opcode → String} {tx : PreimageTxP} {idx : Nat} {i : PreimageInputP}
    {f : SigHashFlags} {hp hs ho : FixedP 32} {p : TxPreimageP}
    (h : buildPreimageP P opName tx idx i f hp hs ho = some p) :
    ∃ l, i.lockScript = some l ∧ p.scriptCode = l.toScriptCodeFirst := by
  unfold buildPreimageP at h
  dsimp only at h
  obtain ⟨x, _, h⟩ := Option.bind_eq_some_iff.mp h
  obtain ⟨l, hl, h⟩ := Option.bind_eq_some_iff.mp h
  obtain ⟨v, _, h⟩ := Option.bind_eq_some_iff.mp h
  cases h
  exact ⟨l, hl, rfl⟩

theorem preimages_untag (P : HashPrims) (opName : Opcode → String) (b : RichBuilder Dyn) (outs : List RichOutput) :
    (b.preimages P opName outs).map (List.map (List.map untagPreimage)) =
      buildPreimagesP P opName (b.toPreimageTx outs) := by
  unfold RichBuilder.preimages buildPreimagesP
  simp only [bind]
  cases hashAllPrevoutsP P (b.toPreimageTx outs) with
  | none => rfl
  | some hp =>
    cases hashAllSequencesP P (b.toPreimageTx outs) with
    | none => rfl
    | some hs =>
      cases hashAllOutputsP P opName (b.toPreimageTx outs) with
      | none => rfl
      | some ho =>
        simp only [Option.bind_some]
        have hz : (b.toPreimageTx outs).inputs.zipIdx = b.inputs.zipIdx.map (fun x => (x.1.toPreimageInput, x.2)) := by
          simp [RichBuilder.toPreimageTx, List.zipIdx_map]
        rw [hz]
        refine mapM_map _ _ _ _ _ ?_
        rintro ⟨i, idx⟩ _
        dsimp only
        have hf : i.toPreimageInput.sigHashFlags = i.sigHashFlags.map id := by
          simp [RichBuilderInput.toPreimageInput]
        rw [hf]
        refine mapM_map _ _ _ _ _ ?_
        intro f _
        cases hb : buildPreimageP P opName (b.toPreimageTx outs) idx i.toPreimageInput f hp hs ho with
        | none => simp [hb]
        | some p =>
          obtain ⟨l, hl, hc⟩ := built_code hb
          simp only [RichBuilderInput.toPreimageInput, Option.some.injEq] at hl
          subst hl
          simp only [id, hb, Option.map_some, Option.some.injEq]
          unfold untagPreimage TxPreimageP.withCode
          rw [codeFirst_ops, ← hc]

theorem toPreimageTx_contents {b' : RichBuilder Dyn} {b : TxBuilder Dyn} (h : BuilderContents b' b)
    (outs : List RichOutput) :
    (b'.toPreimageTx outs).erase = b.toPreimageTx (outs.map RichOutput.contents) := by
  unfold RichBuilder.toPreimageTx TxBuilder.toPreimageTx PreimageTxP.erase
  simp only [List.map_map]
  rw [h.version, h.lockTime]
  congr 1
  · apply map_rel h.inputs
    intro i' i hi
    simp only [Function.comp_apply, RichBuilderInput.toPreimageInput, PreimageInputP.erase, Option.map_some]
    rw [← hi.input, ← hi.flags, ← hi.lock]
    cases i'.lockScript with
    | none => rfl
    | some l => simp only [Option.map_some, Option.getD_some, contents_eq_erase]; rfl
  · apply List.map_congr_left
    intro o _
    exact outputs_erase o

theorem preimages_contents (P : HashPrims) (opName : Opcode → String) {b' : RichBuilder Dyn} {b : TxBuilder Dyn}
    (h : BuilderContents b' b) (outs : List RichOutput) :
    (b'.preimages P opName outs).map (List.map (List.map RichPreimage.contents)) =
      buildPreimages (sha256d P) (b.toPreimageTx (outs.map RichOutput.contents)) := by
  rw [← toPreimageTx_contents h, ← C77_contents P opName, ← preimages_untag P opName, Option.map_map]
  congr 1
  funext pss
  simp only [Function.comp_apply, List.map_map]
  apply List.map_congr_left
  intro ps _
  simp only [Function.comp_apply, List.map_map]
  apply List.map_congr_left
  intro p _
  exact (untag_erase p).symm

theorem prefilled_contents {b' : RichBuilder Dyn} {b : TxBuilder Dyn} (h : BuilderContents b' b) :
    b'.prefilled.map (Option.map RichInput.contents) = b.prefilled := by
  unfold RichBuilder.prefilled TxBuilder.prefilled
  rw [List.map_map]
  apply map_rel h.inputs
  intro i' i hi
  rw [← hi.signed]
  simp only [Function.comp_apply]
  cases i'.signedInput with
  | none => rfl
  | some t =>
    obtain ⟨a, b, script, c, d, e, f, g⟩ := t
    cases script with
    | nil => rfl
    | cons x xs => simp [RichInput.contents, TaggedScript.contents]

theorem ofOption_rel {ε α β : Type} {x : Option α} {y : Option β} {f : α → β} (h : x.map f = y) :
    Agree (ε := ε) (fun a b => f a = b) (Res.ofOption x) (Res.ofOption y) := by
  subst h
  cases x with
  | none => exact .panic
  | some a => exact .ok rfl

theorem build_contents (opName : Opcode → String) (sz : Layout) (P : HashPrims) {b' : RichBuilder Dyn}
    {b : TxBuilder Dyn} (h : BuilderContents b' b) :
    Agree UnsignedContents (b'.build opName sz P) (b.build sz (sha256d P)) := by
  unfold RichBuilder.build TxBuilder.build
  have h1 : b'.knownOutputSum = b.knownOutputSum := by
    unfold RichBuilder.knownOutputSum TxBuilder.knownOutputSum
    rw [← h.outputs, List.map_map]
    congr 1
    apply List.map_congr_left
    intro o _; exact value_contents o
  have h2 : b'.inputSum = b.inputSum := by
    unfold RichBuilder.inputSum TxBuilder.inputSum
    congr 1
    apply map_rel h.inputs
    intro i' i hi
    rw [← hi.input]
    rfl
  rw [h1, h2]
  cases b.knownOutputSum with
  | none => exact .panic
  | some known =>
    cases b.inputSum with
    | none => exact .panic
    | some ins =>
      simp only [Res.ofOption, Res.bind]
      split
      · exact .err _
      · rw [loop_contents opName sz h, leftovers_contents, h.outputs]
        cases b.buildLoop sz ⟨ins - known, fun _ => none, none⟩
            (TxBuilder.sortByKey (TxBuilder.leftoverIndices 0 b.outputs)) with
        | none => exact .panic
        | some st =>
          have ho : (b'.makeOutputs st.amounts).map RichOutput.contents = b.makeOutputs st.amounts := by
            unfold RichBuilder.makeOutputs TxBuilder.makeOutputs
            rw [makeOutputs_contents, h.outputs]
          simp only
          rw [estimate_contents opName sz h, ho]
          have fin : ∀ n, Agree UnsignedContents
              ((Res.ofOption (b'.preimages P opName (b'.makeOutputs st.amounts))).bind fun preimages =>
                .ok ⟨b', b'.makeOutputs st.amounts, preimages, b'.prefilled, n⟩)
              ((Res.ofOption (ε := Error) (buildPreimages (sha256d P) (b.toPreimageTx (b.makeOutputs st.amounts)))).bind
                fun preimages => .ok ⟨b, b.makeOutputs st.amounts, preimages, b.prefilled, n⟩) := by
            intro n
            have hp := preimages_contents P opName h (b'.makeOutputs st.amounts)
            rw [ho] at hp
            rw [← hp]
            cases hpp : b'.preimages P opName (b'.makeOutputs st.amounts) with
            | none => exact .panic
            | some ps => exact .ok ⟨h, ho, rfl, prefilled_contents h, rfl⟩
          cases st.estimated with
          | some n => exact fin n
          | none =>
            cases b.estimateSize sz (b.makeOutputs st.amounts) with
            | none => exact .panic
            | some n => exact fin n

theorem known_contents (outs : List RichBuilderOutput) :
    (outs.mapM RichBuilderOutput.known?).map (List.map RichOutput.contents) =
      (outs.map RichBuilderOutput.contents).mapM TxBuilderOutput.known? := by
  apply mapM_map
  intro o _
  cases o <;> rfl

theorem buildWithout_contents (opName : Opcode → String) (sz : Layout) (P : HashPrims) {b' : RichBuilder Dyn}
    {b : TxBuilder Dyn} (h : BuilderContents b' b) :
    Agree UnsignedContents (b'.buildWithoutEstimation opName sz P) (b.buildWithoutEstimation sz (sha256d P)) := by
  unfold RichBuilder.buildWithoutEstimation TxBuilder.buildWithoutEstimation
  rw [← h.outputs, ← known_contents]
  cases b'.outputs.mapM RichBuilderOutput.known? with
  | none => exact .err _
  | some outs =>
    simp only [Option.map_some]
    rw [estimate_contents opName sz h]
    cases b.estimateSize sz (outs.map RichOutput.contents) with
    | none => exact .panic
    | some n =>
      simp only [Res.ofOption, Res.bind]
      rw [← preimages_contents P opName h outs]
      cases b'.preimages P opName outs with
      | none => exact .panic
      | some ps => exact .ok ⟨h, rfl, rfl, prefilled_contents h, rfl⟩

/-! ## Signing -/

/-- Results of signing calls with the same contents. -/
inductive SignRel : Option (RichUnsigned Dyn × Except Error Unit) → Option (UnsignedTx Dyn × Except Error Unit) → Prop
  | none : SignRel none none
  | some {u' u r} : UnsignedContents u' u → SignRel (some (u', r)) (some (u, r))

theorem signed_contents {i' : RichBuilderInput Dyn} {i : TxBuilderInput Dyn} (h : InputContents i' i)
    (s : TaggedScript) :
    (RichUnsigned.signedInputOf i' s).contents = UnsignedTx.signedInputOf i (TaggedScript.contents s) := by
  unfold RichUnsigned.signedInputOf UnsignedTx.signedInputOf RichInput.contents
  rw [← h.input, ← h.lock, ← h.p2sh, ← h.flags]
  rfl

theorem signWith_contents {u' : RichUnsigned Dyn} {u : UnsignedTx Dyn} (h : UnsignedContents u' u) (idx : Nat)
    (c' : List RichPreimage → TaggedScript → Option TaggedScript) (c : List TxPreimage → Script → Option Script)
    (hc : ∀ ps lock, (c' ps lock).map TaggedScript.contents =
      c (ps.map RichPreimage.contents) (TaggedScript.contents lock)) :
    SignRel (u'.signWith idx c') (u.signWith idx c) := by
  unfold RichUnsigned.signWith UnsignedTx.signWith
  rw [← h.inputs, ← h.preimages, List.getElem?_map, List.getElem?_map]
  cases u'.inputs[idx]? with
  | none => exact .none
  | some o =>
    cases o with
    | some t => exact .some h
    | none =>
      simp only [Option.map_some, Option.map_none]
      have hg := get_rel h.builder.inputs idx
      revert hg
      cases u'.builder.inputs[idx]? with
      | none =>
        intro hg
        cases hx : u.builder.inputs[idx]? with
        | none => exact .none
        | some _ => rw [hx] at hg; cases hg
      | some i' =>
        intro hg
        cases hx : u.builder.inputs[idx]? with
        | none => rw [hx] at hg; cases hg
        | some i =>
          rw [hx] at hg
          cases hg with
          | some hi =>
            cases u'.txPreimages[idx]? with
            | none => exact .none
            | some ps =>
              simp only [Option.map_some]
              have hl : i.lockScript.getD [] = TaggedScript.contents (i'.lockScript.getD []) := by
                rw [← hi.lock]
                cases i'.lockScript <;> rfl
              rw [hl, ← hc]
              cases c' ps (i'.lockScript.getD []) with
              | none => exact .none
              | some s =>
                refine .some ⟨h.builder, h.outputs, rfl, ?_, h.size⟩
                simp only [List.map_set, Option.map_some, signed_contents hi]

theorem signDyn_contents {u' : RichUnsigned Dyn} {u : UnsignedTx Dyn} (h : UnsignedContents u' u) (idx : Nat) (d : Dyn) :
    SignRel (u'.signInputDyn idx d) (u.signInputDyn idx d) := by
  apply signWith_contents h
  intro ps lock
  have hg := get_rel h.builder.inputs idx
  revert hg
  cases u'.builder.inputs[idx]? with
  | none =>
    intro hg
    cases hx : u.builder.inputs[idx]? with
    | none => rfl
    | some _ => rw [hx] at hg; cases hg
  | some i' =>
    intro hg
    cases hx : u.builder.inputs[idx]? with
    | none => rw [hx] at hg; cases hg
    | some i =>
      rw [hx] at hg
      cases hg with
      | some hi =>
        simp only [Option.bind_some]
        rw [hi.func, h.outputs, h.size]

theorem signSignatory_contents (opName : Opcode → String) {u' : RichUnsigned Dyn} {u : UnsignedTx Dyn}
    (h : UnsignedContents u' u) (idx : Nat) (s : RichSignatory Dyn) (kind : SignatoryKind s.Sigs)
    (hk : KindContents s.kind kind) (sigs : s.Sigs) :
    SignRel (u'.signInputSignatory opName idx s sigs) (u.signInputSignatory idx (plainSignatory s kind) sigs) := by
  apply signWith_contents h
  intro ps lock
  rw [unlock_contents opName s kind hk, h.outputs, h.size]

theorem complete_contents {u' : RichUnsigned Dyn} {u : UnsignedTx Dyn} (h : UnsignedContents u' u) :
    u'.completeTx.map RichTx.contents = u.completeTx := by
  unfold RichUnsigned.completeTx UnsignedTx.completeTx
  rw [← h.inputs]
  have := mapM_map (id : Option RichInput → Option RichInput) (id : Option TxInput → Option TxInput)
    (Option.map RichInput.contents) RichInput.contents u'.inputs (fun _ _ => rfl)
  rw [← this]
  cases u'.inputs.mapM id with
  | none => rfl
  | some ins =>
    simp only [Option.map_some, RichTx.contents]
    rw [h.outputs, h.builder.version, h.builder.lockTime]

theorem partial_contents {u' : RichUnsigned Dyn} {u : UnsignedTx Dyn} (h : UnsignedContents u' u) :
    u'.partialTx.contents = u.partialTx := by
  unfold RichUnsigned.partialTx UnsignedTx.partialTx RichTx.contents
  simp only
  rw [h.outputs, h.builder.version, h.builder.lockTime, ← h.inputs]
  congr 1
  have key : ∀ (l : List (Option RichInput)) {bs' : List (RichBuilderInput Dyn)} {bs : List (TxBuilderInput Dyn)},
      List.Forall₂ InputContents bs' bs →
      ((l.zip bs').map fun (x : Option RichInput × RichBuilderInput Dyn) => match x with
        | (input, i) => match input with
          | some input => input
          | none => RichUnsigned.signedInputOf i []).map RichInput.contents =
      ((l.map (Option.map RichInput.contents)).zip bs).map fun (x : Option TxInput × TxBuilderInput Dyn) => match x with
        | (input, i) => match input with
          | some input => input
          | none => UnsignedTx.signedInputOf i [] := by
    intro l
    induction l with
    | nil => intros; rfl
    | cons o l ih =>
      intro bs' bs hb
      cases hb with
      | nil => rfl
      | cons h1 h2 =>
        simp only [List.zip_cons_cons, List.map_cons, ih h2, List.cons.injEq, and_true]
        cases o with
        | none => exact signed_contents h1 []
        | some t => rfl
  exact key u'.inputs h.builder.inputs

theorem fromTx_contents (tx : RichTx) :
    BuilderContents (RichBuilder.fromTx tx : RichBuilder Dyn) (TxBuilder.fromTx tx.contents) := by
  refine ⟨rfl, ?_, ?_, rfl, rfl⟩
  · show List.Forall₂ InputContents (tx.inputs.map _) ((tx.inputs.map RichInput.contents).map _)
    induction tx.inputs with
    | nil => exact .nil
    | cons i is ih =>
      refine .cons ⟨rfl, fun _ _ _ _ _ => rfl, rfl, rfl, rfl, rfl⟩ ih
  · show (tx.outputs.map RichBuilderOutput.knownValue).map RichBuilderOutput.contents =
      (tx.outputs.map RichOutput.contents).map TxBuilderOutput.knownValue
    simp only [List.map_map]
    rfl

theorem addInput_contents (opName : Opcode → String) {b' : RichBuilder Dyn} {b : TxBuilder Dyn}
    (h : BuilderContents b' b) (input : RichUnsignedInput) (lock : TaggedScript) (s : RichSignatory Dyn)
    (kind : SignatoryKind s.Sigs) (hk : KindContents s.kind kind) :
    BuilderContents (b'.addInput opName input lock s).1
      (b.addInput input.contents (TaggedScript.contents lock) (plainSignatory s kind)).1 ∧
    (b'.addInput opName input lock s).2 =
      (b.addInput input.contents (TaggedScript.contents lock) (plainSignatory s kind)).2 := by
  refine ⟨⟨h.version, ?_, h.outputs, h.lockTime, h.fee⟩, h.inputs.length_eq⟩
  refine List.rel_append h.inputs (.cons ?_ .nil)
  exact ⟨rfl, func_contents opName s kind hk, flags_contents s kind hk, rfl, rfl, rfl⟩

end BCash.RichProofs
