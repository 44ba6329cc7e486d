import Verif.Model.PreimageP
import Verif.Model.TxBuilder
import Verif.Model.Json

/-! # The transaction builder with debugging information — `bitcoin-cash/src/tx_builder.rs`, `tagged_op.rs`, `ops.rs`

As `Model/TxBuilder`, but with what `Model/TxBuilder` erases: operations carry their source locations, source texts and
names (`TaggedOp`), arrays and hashes their provenance. Signatories are arbitrary functions that see all of this.
`HashMap<usize, u64>` is a partial function; an overflow of a sum of amounts is a panic (debug profile). -/

namespace BCash

/-- `TaggedOp::from_op`, tagged_op.rs:16-26. -/
def TaggedOp.fromOp (op : Op ByteArray) : TaggedOp := ⟨op, "<unknown>", 0, 0, [], none, none⟩

/-- `TaggedOp::named`, tagged_op.rs:28-31. -/
def TaggedOp.named (t : TaggedOp) (name : String) : TaggedOp := { t with pushedNames := some [some name] }

/-- `struct Script`, script.rs:9-12; also `struct TaggedScript`, ops.rs:8-11, whose conversions `script` and
`From<TaggedScript> for Script`, ops.rs:26-28, 42-46, and whose `ops`, ops.rs:31-33, keep the operations. -/
abbrev TaggedScript := List TaggedOp

namespace TaggedScript

/-- `TaggedScript::script_ops`, ops.rs:22-24: the operations without tags. -/
def ops (s : TaggedScript) : ScriptP := s.map (·.op)

/-- `Script::from_ops`, script.rs:25-33. -/
def fromOps (ops : ScriptP) : TaggedScript := ops.map TaggedOp.fromOp

/-- `Script::ser_ops`, script.rs:288-290 (`none` = panic). -/
def serOps (opName : Opcode → String) (s : TaggedScript) : Option ByteArray :=
  match serializeOpsBA opName s.ops with
  | .ok b => some b
  | _ => none

/-- `Script::to_script_code_first`, script.rs:64-75 (operations are compared without tags, tagged_op.rs:34-38, and by
contents). -/
def toScriptCodeFirst (s : TaggedScript) : TaggedScript :=
  match s.findIdx? (fun t => (t.op.map ByteArray.data).beq (.code .OP_CODESEPARATOR)) with
  | some idx => s.drop (idx + 1)
  | none => s

end TaggedScript

/-- `struct TxPreimage`, tx_preimage.rs:9-20. -/
structure RichPreimage where
  version : Int32
  hashPrevouts : FixedP 32
  hashSequence : FixedP 32
  outpoint : TxOutpointP
  scriptCode : TaggedScript
  value : UInt64
  sequence : UInt32
  hashOutputs : FixedP 32
  lockTime : UInt32
  sigHashType : UInt32

/-- A preimage of `Model/PreimageP` (whose script code has no tags) with its tagged script code. -/
def TxPreimageP.withCode (p : TxPreimageP) (code : TaggedScript) : RichPreimage :=
  ⟨p.version, p.hashPrevouts, p.hashSequence, p.outpoint, code, p.value, p.sequence, p.hashOutputs, p.lockTime,
   p.sigHashType⟩

/-- `struct UnsignedTxInput`, tx_builder.rs:16-20. -/
structure RichUnsignedInput where
  prevHash : RichHash
  prevVout : UInt32
  sequence : UInt32
  value : UInt64

/-- The type of `func_script`, tx_builder.rs:24-29 (`none` = panic). -/
abbrev RichFuncScript (Dyn : Type) :=
  List RichPreimage → Option Nat → Option Dyn → TaggedScript → List RichOutput → Option TaggedScript

/-- `struct TxBuilderInput`, tx_builder.rs:22-34. -/
structure RichBuilderInput (Dyn : Type) where
  input : RichUnsignedInput
  funcScript : RichFuncScript Dyn
  sigHashFlags : List SigHashFlags
  lockScript : Option TaggedScript
  isP2sh : Option Bool
  signedInput : Option RichInput

/-- `enum TxBuilderOutput`, tx_builder.rs:36-45. -/
inductive RichBuilderOutput where
  | knownValue (output : RichOutput)
  | leftover (lowerBound upperBound : UInt64) (precedence : Int32) (script : TaggedScript)

/-- `struct TxBuilder`, tx_builder.rs:47-54. -/
structure RichBuilder (Dyn : Type) where
  version : Int32
  inputs : List (RichBuilderInput Dyn)
  outputs : List RichBuilderOutput
  lockTime : UInt32
  feePerKb : UInt64

/-- `struct UnsignedTx`, tx_builder.rs:64-71. -/
structure RichUnsigned (Dyn : Type) where
  builder : RichBuilder Dyn
  outputs : List RichOutput
  txPreimages : List (List RichPreimage)
  inputs : List (Option RichInput)
  estimatedSize : Nat

/-- `SignatoryKindOne` / `SignatoryKindMultiple`, tx_builder.rs:91-100, 637-663, with `sig_hash_flags` and
`build_script` of the matching shape (`none` = panic). -/
inductive RichKind (Sigs : Type) where
  | one (flags : SigHashFlags)
      (buildScript : RichPreimage → Option Nat → Sigs → TaggedScript → List RichOutput → Option TaggedScript)
  | multiple (flags : List SigHashFlags)
      (buildScript : List RichPreimage → Option Nat → Sigs → TaggedScript → List RichOutput → Option TaggedScript)

/-- `trait Signatory`, tx_builder.rs:102-119. -/
structure RichSignatory (Dyn : Type) where
  Sigs : Type
  downcast : Dyn → Option Sigs
  kind : RichKind Sigs
  placeholderSignatures : Sigs
  isP2sh : Bool

namespace RichSignatory
variable {Dyn : Type}

/-- `sig_hash_flags_vec(sig_hash_flags())`, tx_builder.rs:193-194, 642-644, 656-658. -/
def sigHashFlagsVec (s : RichSignatory Dyn) : List SigHashFlags :=
  match s.kind with
  | .one flags _ => [flags]
  | .multiple flags _ => flags

/-- `build_script(make_tx_preimages(..), ..).ops()`, tx_builder.rs:204-209, 537-548 (`&tx_preimages[0]` panics on an
empty list). -/
def builtOps (s : RichSignatory Dyn) (preimages : List RichPreimage) (estimatedSize : Option Nat)
    (sigs : s.Sigs) (lockScript : TaggedScript) (outputs : List RichOutput) : Option TaggedScript :=
  match s.kind with
  | .one _ build => preimages.head?.bind fun p => build p estimatedSize sigs lockScript outputs
  | .multiple _ build => build preimages estimatedSize sigs lockScript outputs

/-- The operations, and the push of the redeem script, tx_builder.rs:205-213, 537-552. -/
def unlockScript (opName : Opcode → String) (s : RichSignatory Dyn) (preimages : List RichPreimage)
    (estimatedSize : Option Nat) (sigs : s.Sigs) (lockScript : TaggedScript) (outputs : List RichOutput) :
    Option TaggedScript :=
  (s.builtOps preimages estimatedSize sigs lockScript outputs).bind fun ops =>
    if s.isP2sh then
      (lockScript.serOps opName).bind fun bytes => some (ops ++ [TaggedOp.fromOp (.pushByteArray bytes true)])
    else some ops

/-- The closure built by `add_input`, tx_builder.rs:196-214. -/
def funcScript (opName : Opcode → String) (s : RichSignatory Dyn) : RichFuncScript Dyn :=
  fun preimages estimatedSize sigs lockScript outputs =>
    (match sigs with
      | some d => s.downcast d
      | none => some s.placeholderSignatures).bind fun sigs =>
    s.unlockScript opName preimages estimatedSize sigs lockScript outputs

end RichSignatory

/-- `TxPreimage::empty_with_script`, tx_preimage.rs:125-141 (`Sha256d::new([0; 32])`, hash.rs:77-81). -/
def RichPreimage.emptyWithScript (scriptCode : TaggedScript) : RichPreimage :=
  ⟨0, zero32P.named "hashPrevouts", zero32P.named "hashSequence", ⟨zero32P, 0⟩, scriptCode.toScriptCodeFirst, 0, 0,
   zero32P.named "hashOutputs", 0, SigHashFlags.ALL⟩

/-- An output as serialised: `BitcoinCode for TxOutput` ignores tags (script.rs:298-301). -/
def RichOutput.untag (o : RichOutput) : TxOutputP := ⟨o.value, TaggedScript.ops o.script⟩

/-- An input as serialised: `BitcoinCode for TxInput` ignores tags. -/
def RichInput.untag (i : RichInput) : TxInputP :=
  ⟨⟨i.prevHash, i.prevVout⟩, TaggedScript.ops i.script, i.sequence, i.lockScript.map TaggedScript.ops, i.value, i.isP2sh,
   i.sigHashFlags⟩

/-- A transaction as serialised. -/
def RichTx.untag (t : RichTx) : UnhashedTxP :=
  ⟨t.version, t.inputs.map RichInput.untag, t.outputs.map RichOutput.untag, t.lockTime⟩

namespace RichBuilder
variable {Dyn : Type}

/-- `new_with_fee`, tx_builder.rs:142-150. -/
def newWithFee (version : Int32) (lockTime : UInt32) (feePerKb : UInt64) : RichBuilder Dyn :=
  ⟨version, [], [], lockTime, feePerKb⟩

/-- `from_tx`, tx_builder.rs:152-181. -/
def fromTx (tx : RichTx) : RichBuilder Dyn where
  version := tx.version
  inputs := tx.inputs.map fun input => {
    input := ⟨input.prevHash, input.prevVout, input.sequence, input.value.getD 0⟩
    funcScript := fun _ _ _ _ _ => some input.script
    sigHashFlags := input.sigHashFlags.getD []
    lockScript := input.lockScript
    isP2sh := input.isP2sh
    signedInput := some input }
  outputs := tx.outputs.map .knownValue
  lockTime := tx.lockTime
  feePerKb := DEFAULT_FEE_PER_KB

/-- `add_input`, tx_builder.rs:187-228; the second component is the input reference. -/
def addInput (opName : Opcode → String) (b : RichBuilder Dyn) (input : RichUnsignedInput) (lockScript : TaggedScript)
    (s : RichSignatory Dyn) : RichBuilder Dyn × Nat :=
  ({ b with inputs := b.inputs ++ [{
      input, funcScript := s.funcScript opName, sigHashFlags := s.sigHashFlagsVec,
      lockScript := some lockScript, isP2sh := some s.isP2sh, signedInput := none }] },
   b.inputs.length)

/-- `add_output`, tx_builder.rs:230-233. -/
def addOutput (b : RichBuilder Dyn) (o : RichOutput) : RichBuilder Dyn :=
  { b with outputs := b.outputs ++ [.knownValue o] }

/-- `add_leftover_output_bounded`, tx_builder.rs:250-263. -/
def addLeftoverOutputBounded (b : RichBuilder Dyn) (lower upper : UInt64) (precedence : Int32)
    (script : TaggedScript) : RichBuilder Dyn :=
  { b with outputs := b.outputs ++ [.leftover lower upper precedence script] }

/-- The input built by the loop of `estimate_size`, tx_builder.rs:275-293. -/
def placeholderInput (input : RichBuilderInput Dyn) (outputs : List RichOutput) : Option RichInput :=
  let (preimages, lockScript) := match input.lockScript with
    | some lockScript =>
      (List.replicate input.sigHashFlags.length (RichPreimage.emptyWithScript lockScript), lockScript)
    | none => ([], [])
  (input.funcScript preimages none none lockScript outputs).map fun script =>
    ⟨input.input.prevHash, input.input.prevVout, script, input.input.sequence, none, none, none, none⟩

/-- `estimate_size`, tx_builder.rs:273-301 (`none` = panic). -/
def estimateSize (opName : Opcode → String) (sz : Layout) (b : RichBuilder Dyn) (outputs : List RichOutput) :
    Option Nat :=
  (b.inputs.mapM fun i => placeholderInput i outputs).bind fun inputs =>
  ((CodecP.unhashedTx opName sz).ser (RichTx.untag ⟨b.version, inputs, outputs, b.lockTime⟩)).map fun bytes =>
    bytes.data.length

/-- `make_outputs`, tx_builder.rs:303-318. -/
def makeOutputsFrom (amounts : Nat → Option Nat) : Nat → List RichBuilderOutput → List RichOutput
  | _, [] => []
  | idx, .knownValue o :: rest => o :: makeOutputsFrom amounts (idx + 1) rest
  | idx, .leftover _ _ _ script :: rest =>
    match amounts idx with
    | some v => ⟨UInt64.ofNat v, script⟩ :: makeOutputsFrom amounts (idx + 1) rest
    | none => makeOutputsFrom amounts (idx + 1) rest

/-- `make_outputs`, tx_builder.rs:303-318. -/
def makeOutputs (b : RichBuilder Dyn) (amounts : Nat → Option Nat) : List RichOutput :=
  makeOutputsFrom amounts 0 b.outputs

/-- `TxBuilderOutput::get_value`, tx_builder.rs:427-434. -/
def _root_.BCash.RichBuilderOutput.getValue : RichBuilderOutput → UInt64
  | .leftover .. => 0
  | .knownValue o => o.value

/-- `known_output_sum`, tx_builder.rs:410-416. -/
def knownOutputSum (b : RichBuilder Dyn) : Option Nat := sumU64 (b.outputs.map (·.getValue))

/-- `input_sum`, tx_builder.rs:418-424. -/
def inputSum (b : RichBuilder Dyn) : Option Nat := sumU64 (b.inputs.map (·.input.value))

/-- What the preimages of an input are built from, without tags: `ToPreimages for TxBuilderPreimages`,
tx_builder.rs:436-471. -/
def _root_.BCash.RichBuilderInput.toPreimageInput (i : RichBuilderInput Dyn) : PreimageInputP :=
  ⟨⟨i.input.prevHash, i.input.prevVout⟩, i.input.sequence, i.sigHashFlags,
   some (TaggedScript.ops (i.lockScript.getD [])), some i.input.value⟩

/-- `ToPreimages for TxBuilderPreimages`, tx_builder.rs:436-471, without tags. -/
def toPreimageTx (b : RichBuilder Dyn) (outputs : List RichOutput) : PreimageTxP where
  version := b.version
  inputs := b.inputs.map (·.toPreimageInput)
  outputs := outputs.map RichOutput.untag
  lockTime := b.lockTime

/-- `TxPreimage::build_preimages`, tx_preimage.rs:45-121 (`none` = panic), as in `Model/PreimageP`; each preimage has
the tagged script code of its input (tx_preimage.rs:112). -/
def preimages (P : HashPrims) (opName : Opcode → String) (b : RichBuilder Dyn) (outputs : List RichOutput) :
    Option (List (List RichPreimage)) :=
  let tx := b.toPreimageTx outputs
  (hashAllPrevoutsP P tx).bind fun hp =>
  (hashAllSequencesP P tx).bind fun hs =>
  (hashAllOutputsP P opName tx).bind fun ho =>
  b.inputs.zipIdx.mapM fun (i, idx) =>
    i.sigHashFlags.mapM fun flags =>
      (buildPreimageP P opName tx idx i.toPreimageInput flags hp hs ho).map fun p =>
        p.withCode (TaggedScript.toScriptCodeFirst (i.lockScript.getD []))

/-- The inputs that are already signed, tx_builder.rs:326-333, 399-406. -/
def prefilled (b : RichBuilder Dyn) : List (Option RichInput) :=
  b.inputs.map fun input => input.signedInput.bind fun i =>
    match i.script with
    | [] => none
    | _ :: _ => some i

/-- The `enumerate().filter_map(..)` of tx_builder.rs:351-359. -/
def leftoverIndices : Nat → List RichBuilderOutput → List (Nat × Int)
  | _, [] => []
  | idx, .knownValue _ :: rest => leftoverIndices (idx + 1) rest
  | idx, .leftover _ _ p _ :: rest => (idx, p.toInt) :: leftoverIndices (idx + 1) rest

/-- The loop body for one leftover output, tx_builder.rs:363-388 (`none` = panic). -/
def buildStep (opName : Opcode → String) (sz : Layout) (b : RichBuilder Dyn) (st : TxBuilder.BuildState) (idx : Nat) :
    Option TxBuilder.BuildState :=
  match b.outputs[idx]? with
  | none => none
  | some (.knownValue _) => some st
  | some (.leftover lower upper _ _) =>
    if st.total ≤ lower.toNat then some st
    else
      let maxLeftover := min st.total upper.toNat
      (b.estimateSize opName sz (b.makeOutputs (TxBuilder.setAmount st.amounts idx (some maxLeftover)))).bind
      fun newSize =>
      if newSize * b.feePerKb.toNat ≥ 2 ^ 64 then none
      else
        let fee := newSize * b.feePerKb.toNat / 1000
        if fee ≤ st.total then
          let leftover := min (st.total - fee) upper.toNat
          if leftover ≤ lower.toNat then some { st with amounts := TxBuilder.setAmount st.amounts idx none }
          else some ⟨st.total - leftover, TxBuilder.setAmount st.amounts idx (some leftover), some newSize⟩
        else some { st with amounts := TxBuilder.setAmount st.amounts idx none }

/-- The loop, tx_builder.rs:362-389. -/
def buildLoop (opName : Opcode → String) (sz : Layout) (b : RichBuilder Dyn) :
    TxBuilder.BuildState → List (Nat × Int) → Option TxBuilder.BuildState
  | st, [] => some st
  | st, (idx, _) :: rest => (buildStep opName sz b st idx).bind fun st => buildLoop opName sz b st rest

/-- `build`, tx_builder.rs:341-408. -/
def build (opName : Opcode → String) (sz : Layout) (P : HashPrims) (b : RichBuilder Dyn) :
    Res Error (RichUnsigned Dyn) :=
  (Res.ofOption b.knownOutputSum).bind fun known =>
  (Res.ofOption b.inputSum).bind fun inputs =>
  if known > inputs then .err (.insufficientInputAmount (known - inputs))
  else
    (Res.ofOption (buildLoop opName sz b ⟨inputs - known, fun _ => none, none⟩
      (TxBuilder.sortByKey (leftoverIndices 0 b.outputs)))).bind fun st =>
    (Res.ofOption (match st.estimated with
      | some s => some s
      | none => b.estimateSize opName sz (b.makeOutputs st.amounts))).bind fun estimated =>
    let outputs := b.makeOutputs st.amounts
    (Res.ofOption (b.preimages P opName outputs)).bind fun preimages =>
    .ok ⟨b, outputs, preimages, b.prefilled, estimated⟩

/-- The closure of tx_builder.rs:321-324 (`none` = the error). -/
def _root_.BCash.RichBuilderOutput.known? : RichBuilderOutput → Option RichOutput
  | .knownValue o => some o
  | .leftover .. => none

/-- `build_without_estimation`, tx_builder.rs:320-339. -/
def buildWithoutEstimation (opName : Opcode → String) (sz : Layout) (P : HashPrims) (b : RichBuilder Dyn) :
    Res Error (RichUnsigned Dyn) :=
  match b.outputs.mapM RichBuilderOutput.known? with
  | none => .err (.msg "Found a leftover output")
  | some outputs =>
    (Res.ofOption (b.estimateSize opName sz outputs)).bind fun estimated =>
    (Res.ofOption (b.preimages P opName outputs)).bind fun preimages =>
    .ok ⟨b, outputs, preimages, b.prefilled, estimated⟩

end RichBuilder

namespace RichUnsigned
variable {Dyn : Type}

/-- The signed input recorded by the signing functions, tx_builder.rs:506-520, 553-561. -/
def signedInputOf (i : RichBuilderInput Dyn) (script : TaggedScript) : RichInput :=
  ⟨i.input.prevHash, i.input.prevVout, script, i.input.sequence, i.lockScript, some i.input.value, i.isP2sh,
   some i.sigHashFlags⟩

/-- Common part of the signing functions, tx_builder.rs:499-522, 524-563 (`none` = panic). -/
def signWith (u : RichUnsigned Dyn) (idx : Nat)
    (compute : List RichPreimage → TaggedScript → Option TaggedScript) :
    Option (RichUnsigned Dyn × Except Error Unit) :=
  match u.inputs[idx]? with
  | none => none
  | some (some _) => some (u, .error (.inputAlreadySigned idx))
  | some none =>
    match u.builder.inputs[idx]?, u.txPreimages[idx]? with
    | some i, some preimages =>
      (compute preimages (i.lockScript.getD [])).map fun script =>
        ({ u with inputs := u.inputs.set idx (some (signedInputOf i script)) }, .ok ())
    | _, _ => none

/-- `sign_input_dyn`, tx_builder.rs:499-522 (and `sign_input`, 490-497, which calls it). -/
def signInputDyn (u : RichUnsigned Dyn) (idx : Nat) (sigs : Dyn) :
    Option (RichUnsigned Dyn × Except Error Unit) :=
  u.signWith idx fun preimages lockScript =>
    (u.builder.inputs[idx]?).bind fun i =>
      i.funcScript preimages (some u.estimatedSize) (some sigs) lockScript u.outputs

/-- `sign_input_signatory`, tx_builder.rs:524-563. -/
def signInputSignatory (opName : Opcode → String) (u : RichUnsigned Dyn) (idx : Nat) (s : RichSignatory Dyn)
    (sigs : s.Sigs) : Option (RichUnsigned Dyn × Except Error Unit) :=
  u.signWith idx fun preimages lockScript =>
    s.unlockScript opName preimages (some u.estimatedSize) sigs lockScript u.outputs

/-- `complete_tx`, tx_builder.rs:576-589 (`none` = panic). -/
def completeTx (u : RichUnsigned Dyn) : Option RichTx :=
  (u.inputs.mapM id).map fun inputs =>
    ⟨u.builder.version, inputs, u.outputs, u.builder.lockTime⟩

/-- `partial_tx`, tx_builder.rs:591-613. -/
def partialTx (u : RichUnsigned Dyn) : RichTx :=
  ⟨u.builder.version,
   (u.inputs.zip u.builder.inputs).map fun (input, i) =>
     match input with
     | some input => input
     | none => signedInputOf i [],
   u.outputs, u.builder.lockTime⟩

end RichUnsigned

end BCash
