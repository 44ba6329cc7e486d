import Verif.Model.RichBuilder
import Batteries.Data.List.Basic

/-! # What remains of values without debugging information -/

namespace BCash

/-- The bytes of a hash with provenance. -/
def FixedP.contents {n : Nat} (h : FixedP n) : FixedBytes n := ⟨h.1.data, h.2⟩

/-- The operations of a script with the bytes of the arrays they push. -/
def TaggedScript.contents (s : TaggedScript) : Script := s.map fun t => t.op.map ByteArray.data

def RichOutput.contents (o : RichOutput) : TxOutput := ⟨o.value, TaggedScript.contents o.script⟩

def RichInput.contents (i : RichInput) : TxInput :=
  ⟨⟨FixedP.contents i.prevHash, i.prevVout⟩, TaggedScript.contents i.script, i.sequence,
   i.lockScript.map TaggedScript.contents, i.value, i.isP2sh, i.sigHashFlags⟩

def RichTx.contents (t : RichTx) : UnhashedTx :=
  ⟨t.version, t.inputs.map RichInput.contents, t.outputs.map RichOutput.contents, t.lockTime⟩

def RichPreimage.contents (p : RichPreimage) : TxPreimage :=
  ⟨p.version, p.hashPrevouts.contents, p.hashSequence.contents, ⟨p.outpoint.txHash.contents, p.outpoint.vout⟩,
   TaggedScript.contents p.scriptCode, p.value, p.sequence, p.hashOutputs.contents, p.lockTime, p.sigHashType⟩

def RichUnsignedInput.contents (i : RichUnsignedInput) : UnsignedTxInput :=
  ⟨⟨FixedP.contents i.prevHash, i.prevVout⟩, i.sequence, i.value⟩

def RichBuilderOutput.contents : RichBuilderOutput → TxBuilderOutput
  | .knownValue o => .knownValue o.contents
  | .leftover lo hi p s => .leftover lo hi p (TaggedScript.contents s)

namespace Spec
variable {Dyn : Type}

/-- The contents of what `func'` is given determine the contents of what it returns: they are what `func` returns. -/
def FuncContents (func' : RichFuncScript Dyn) (func : FuncScript Dyn) : Prop :=
  ∀ ps n sigs lock outs, (func' ps n sigs lock outs).map TaggedScript.contents =
    func (ps.map RichPreimage.contents) n sigs (TaggedScript.contents lock) (outs.map RichOutput.contents)

/-- The same for signatories: what `build_script` of the one returns has the contents of what that of the other
returns for the contents of its arguments. -/
def KindContents {Sigs : Type} : RichKind Sigs → SignatoryKind Sigs → Prop
  | .one f build', .one g build => f = g ∧ ∀ p n sigs lock outs,
      (build' p n sigs lock outs).map TaggedScript.contents =
        build p.contents n sigs (TaggedScript.contents lock) (outs.map RichOutput.contents)
  | .multiple f build', .multiple g build => f = g ∧ ∀ ps n sigs lock outs,
      (build' ps n sigs lock outs).map TaggedScript.contents =
        build (ps.map RichPreimage.contents) n sigs (TaggedScript.contents lock) (outs.map RichOutput.contents)
  | _, _ => False

/-- A signatory that does with contents what `s` does. -/
def plainSignatory (s : RichSignatory Dyn) (kind : SignatoryKind s.Sigs) : Signatory Dyn :=
  ⟨s.Sigs, s.downcast, kind, s.placeholderSignatures, s.isP2sh⟩

/-- Inputs of builders with the same contents. -/
structure InputContents (i' : RichBuilderInput Dyn) (i : TxBuilderInput Dyn) : Prop where
  input : i'.input.contents = i.input
  func : FuncContents i'.funcScript i.funcScript
  flags : i'.sigHashFlags = i.sigHashFlags
  lock : i'.lockScript.map TaggedScript.contents = i.lockScript
  p2sh : i'.isP2sh = i.isP2sh
  signed : i'.signedInput.map RichInput.contents = i.signedInput

/-- Builders with the same contents. -/
structure BuilderContents (b' : RichBuilder Dyn) (b : TxBuilder Dyn) : Prop where
  version : b'.version = b.version
  inputs : List.Forall₂ InputContents b'.inputs b.inputs
  outputs : b'.outputs.map RichBuilderOutput.contents = b.outputs
  lockTime : b'.lockTime = b.lockTime
  fee : b'.feePerKb = b.feePerKb

/-- Prepared transactions with the same contents. -/
structure UnsignedContents (u' : RichUnsigned Dyn) (u : UnsignedTx Dyn) : Prop where
  builder : BuilderContents u'.builder u.builder
  outputs : u'.outputs.map RichOutput.contents = u.outputs
  preimages : u'.txPreimages.map (List.map RichPreimage.contents) = u.txPreimages
  inputs : u'.inputs.map (Option.map RichInput.contents) = u.inputs
  size : u'.estimatedSize = u.estimatedSize

end Spec
end BCash
