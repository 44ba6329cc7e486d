import Verif.Proofs.RichBuilder

/-! # Handing over a partly signed transaction -/

namespace BCash.RelayProofs
open Spec
variable {Dyn : Type}

/-- What the preimages of an input are made from, with tags. -/
def key (i : RichBuilderInput Dyn) : PreimageInputP × TaggedScript := (i.toPreimageInput, i.lockScript.getD [])

/-- The same for an input that carries its metadata. -/
def keyOf (t : RichInput) : PreimageInputP × TaggedScript :=
  (⟨⟨t.prevHash, t.prevVout⟩, t.sequence, t.sigHashFlags.getD [], some (TaggedScript.ops (t.lockScript.getD [])),
    some (t.value.getD 0)⟩, t.lockScript.getD [])

theorem key_signed (i : RichBuilderInput Dyn) (s : TaggedScript) : keyOf (RichUnsigned.signedInputOf i s) = key i := rfl

theorem keys_fromTx (tx : RichTx) :
    ((RichBuilder.fromTx tx : RichBuilder Dyn).inputs).map key = tx.inputs.map keyOf := by
  simp [RichBuilder.fromTx, key, keyOf, RichBuilderInput.toPreimageInput]

/-- The preimages depend on the keys only. -/
theorem preimages_keys (P : HashPrims) (opName : Opcode → String) (b : RichBuilder Dyn) (outs : List RichOutput) :
    b.preimages P opName outs =
      (hashAllPrevoutsP P ⟨b.version, (b.inputs.map key).map Prod.fst, outs.map RichOutput.untag, b.lockTime⟩).bind fun hp =>
      (hashAllSequencesP P ⟨b.version, (b.inputs.map key).map Prod.fst, outs.map RichOutput.untag, b.lockTime⟩).bind fun hs =>
      (hashAllOutputsP P opName ⟨b.version, (b.inputs.map key).map Prod.fst, outs.map RichOutput.untag, b.lockTime⟩).bind
        fun ho =>
      (b.inputs.map key).zipIdx.mapM fun (k, idx) =>
        k.1.sigHashFlags.mapM fun flags =>
          (buildPreimageP P opName
            ⟨b.version, (b.inputs.map key).map Prod.fst, outs.map RichOutput.untag, b.lockTime⟩ idx k.1 flags hp hs ho).map
            fun p => p.withCode k.2.toScriptCodeFirst := by
  unfold RichBuilder.preimages
  have ht : b.toPreimageTx outs =
      ⟨b.version, (b.inputs.map key).map Prod.fst, outs.map RichOutput.untag, b.lockTime⟩ := by
    simp only [RichBuilder.toPreimageTx, List.map_map]
    rfl
  rw [ht]
  simp only
  congr 1; funext hp
  congr 1; funext hs
  congr 1; funext ho
  rw [List.zipIdx_map]
  have := mapM_map (fun (x : RichBuilderInput Dyn × Nat) => x.1.sigHashFlags.mapM fun flags =>
      (buildPreimageP P opName ⟨b.version, (b.inputs.map key).map Prod.fst, outs.map RichOutput.untag, b.lockTime⟩ x.2
        x.1.toPreimageInput flags hp hs ho).map fun p =>
        p.withCode (TaggedScript.toScriptCodeFirst (x.1.lockScript.getD [])))
    (fun (x : (PreimageInputP × TaggedScript) × Nat) => x.1.1.sigHashFlags.mapM fun flags =>
      (buildPreimageP P opName ⟨b.version, (b.inputs.map key).map Prod.fst, outs.map RichOutput.untag, b.lockTime⟩ x.2
        x.1.1 flags hp hs ho).map fun p => p.withCode x.1.2.toScriptCodeFirst)
    (Prod.map key id) id b.inputs.zipIdx (fun x _ => by simp only [Option.map_id]; rfl)
  simpa using this

theorem preimages_congr (P : HashPrims) (opName : Opcode → String) {b c : RichBuilder Dyn} (outs : List RichOutput)
    (h1 : b.version = c.version) (h2 : b.lockTime = c.lockTime) (h3 : b.inputs.map key = c.inputs.map key) :
    b.preimages P opName outs = c.preimages P opName outs := by
  rw [preimages_keys, preimages_keys, h1, h2, h3]

end BCash.RelayProofs
