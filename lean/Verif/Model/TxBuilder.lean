import Verif.Model.Destination

/-! # The transaction builder — `bitcoin-cash/src/tx_builder.rs`

`Box<dyn Any>` signature values are elements of an arbitrary type `Dyn`; a signatory says which of
them it can downcast. `HashMap<usize, u64>` is a partial function. Sums of amounts are computed in
`Nat`; an overflow of `u64` is a panic (debug profile). -/

namespace BCash

/-- `DEFAULT_FEE_PER_KB`, tx_builder.rs:11. -/
def DEFAULT_FEE_PER_KB : UInt64 := 1000
/-- `DUST_AMOUNT`, tx_builder.rs:12. -/
def DUST_AMOUNT : UInt64 := 546

/-- `struct UnsignedTxInput`, tx_builder.rs:16-20. -/
structure UnsignedTxInput where
  prevOut : TxOutpoint
  sequence : UInt32
  value : UInt64

/-- The type of `func_script`, tx_builder.rs:24-29 (`none` = panic). -/
abbrev FuncScript (Dyn : Type) :=
  List TxPreimage → Option Nat → Option Dyn → Script → List TxOutput → Option Script

/-- `struct TxBuilderInput`, tx_builder.rs:22-34. -/
structure TxBuilderInput (Dyn : Type) where
  input : UnsignedTxInput
  funcScript : FuncScript Dyn
  sigHashFlags : List SigHashFlags
  lockScript : Option Script
  isP2sh : Option Bool
  signedInput : Option TxInput

/-- `enum TxBuilderOutput`, tx_builder.rs:36-45. -/
inductive TxBuilderOutput where
  | knownValue (output : TxOutput)
  | leftover (lowerBound upperBound : UInt64) (precedence : Int32) (script : Script)
deriving DecidableEq

/-- `struct TxBuilder`, tx_builder.rs:47-54. -/
structure TxBuilder (Dyn : Type) where
  version : Int32
  inputs : List (TxBuilderInput Dyn)
  outputs : List TxBuilderOutput
  lockTime : UInt32
  feePerKb : UInt64

/-- `struct UnsignedTx`, tx_builder.rs:64-71. -/
structure UnsignedTx (Dyn : Type) where
  builder : TxBuilder Dyn
  outputs : List TxOutput
  txPreimages : List (List TxPreimage)
  inputs : List (Option TxInput)
  estimatedSize : Nat

/-- `SignatoryKindOne` / `SignatoryKindMultiple`, tx_builder.rs:91-100, 637-663, with the
`sig_hash_flags` and `build_script` of the matching shape. `build_script` is user code and may
panic (`none`). -/
inductive SignatoryKind (Sigs : Type) where
  | one (flags : SigHashFlags)
      (buildScript : TxPreimage → Option Nat → Sigs → Script → List TxOutput → Option Script)
  | multiple (flags : List SigHashFlags)
      (buildScript : List TxPreimage → Option Nat → Sigs → Script → List TxOutput → Option Script)

/-- `trait Signatory`, tx_builder.rs:102-119. -/
structure Signatory (Dyn : Type) where
  Sigs : Type
  downcast : Dyn → Option Sigs
  kind : SignatoryKind Sigs
  placeholderSignatures : Sigs
  isP2sh : Bool

namespace Signatory
variable {Dyn : Type}

/-- `sig_hash_flags_vec(sig_hash_flags())`, tx_builder.rs:193-194, 642-644, 656-658. -/
def sigHashFlagsVec (s : Signatory Dyn) : List SigHashFlags :=
  match s.kind with
  | .one flags _ => [flags]
  | .multiple flags _ => flags

/-- `build_script(make_tx_preimages(..), ..).ops()` followed by the push of the redeem script,
tx_builder.rs:205-213, 537-552. `&tx_preimages[0]` panics on an empty list. -/
def unlockScript (s : Signatory Dyn) (preimages : List TxPreimage) (estimatedSize : Option Nat)
    (sigs : s.Sigs) (lockScript : Script) (outputs : List TxOutput) : Option Script :=
  let ops : Option Script :=
    match s.kind with
    | .one _ build => preimages.head?.bind fun p => build p estimatedSize sigs lockScript outputs
    | .multiple _ build => build preimages estimatedSize sigs lockScript outputs
  ops.bind fun ops =>
    if s.isP2sh then lockScript.serOps.bind fun bytes => some (ops ++ [.pushByteArray bytes true])
    else some ops

/-- The closure built by `add_input`, tx_builder.rs:196-214. -/
def funcScript (s : Signatory Dyn) : FuncScript Dyn :=
  fun preimages estimatedSize sigs lockScript outputs =>
    (match sigs with
      | some d => s.downcast d
      | none => some s.placeholderSignatures).bind fun sigs =>
    s.unlockScript preimages estimatedSize sigs lockScript outputs

end Signatory

/-- `TxPreimage::empty_with_script`, tx_preimage.rs:125-141. -/
def TxPreimage.emptyWithScript (scriptCode : Script) : TxPreimage :=
  ⟨0, Hash256.zero, Hash256.zero, ⟨Hash256.zero, 0⟩, scriptCode.toScriptCodeFirst, 0, 0,
   Hash256.zero, 0, SigHashFlags.ALL⟩

/-- `Iterator::sum::<u64>` (`none` = overflow panic). -/
def sumU64 (l : List UInt64) : Option Nat :=
  let s := (l.map UInt64.toNat).sum
  if s < 2 ^ 64 then some s else none

namespace TxBuilder
variable {Dyn : Type}

/-- `new_simple`, tx_builder.rs:122-130. -/
def newSimple : TxBuilder Dyn := ⟨1, [], [], 0, DEFAULT_FEE_PER_KB⟩

/-- `new`, tx_builder.rs:132-140. -/
def new (version : Int32) (lockTime : UInt32) : TxBuilder Dyn :=
  ⟨version, [], [], lockTime, DEFAULT_FEE_PER_KB⟩

/-- `new_with_fee`, tx_builder.rs:142-150. -/
def newWithFee (version : Int32) (lockTime : UInt32) (feePerKb : UInt64) : TxBuilder Dyn :=
  ⟨version, [], [], lockTime, feePerKb⟩

/-- `from_tx`, tx_builder.rs:152-181. -/
def fromTx (tx : UnhashedTx) : TxBuilder Dyn where
  version := tx.version
  inputs := tx.inputs.map fun input => {
    input := ⟨input.prevOut, input.sequence, input.value.getD 0⟩
    funcScript := fun _ _ _ _ _ => some input.script
    sigHashFlags := input.sigHashFlags.getD []
    lockScript := input.lockScript
    isP2sh := input.isP2sh
    signedInput := some input }
  outputs := tx.outputs.map .knownValue
  lockTime := tx.lockTime
  feePerKb := DEFAULT_FEE_PER_KB

/-- `set_fee_per_kb`, tx_builder.rs:183-185. -/
def setFeePerKb (b : TxBuilder Dyn) (fee : UInt64) : TxBuilder Dyn := { b with feePerKb := fee }

/-- `add_input`, tx_builder.rs:187-228; the second component is the input reference. -/
def addInput (b : TxBuilder Dyn) (input : UnsignedTxInput) (lockScript : Script)
    (s : Signatory Dyn) : TxBuilder Dyn × Nat :=
  ({ b with inputs := b.inputs ++ [{
      input, funcScript := s.funcScript, sigHashFlags := s.sigHashFlagsVec,
      lockScript := some lockScript, isP2sh := some s.isP2sh, signedInput := none }] },
   b.inputs.length)

/-- `add_output`, tx_builder.rs:230-233. -/
def addOutput (b : TxBuilder Dyn) (o : TxOutput) : TxBuilder Dyn :=
  { b with outputs := b.outputs ++ [.knownValue o] }

/-- `add_outputs`, tx_builder.rs:235-239. -/
def addOutputs (b : TxBuilder Dyn) (os : List TxOutput) : TxBuilder Dyn := os.foldl addOutput b

/-- `add_leftover_output_bounded`, tx_builder.rs:250-263. -/
def addLeftoverOutputBounded (b : TxBuilder Dyn) (lower upper : UInt64) (precedence : Int32)
    (script : Script) : TxBuilder Dyn :=
  { b with outputs := b.outputs ++ [.leftover lower upper precedence script] }

/-- `add_leftover_output`, tx_builder.rs:241-248. -/
def addLeftoverOutput (b : TxBuilder Dyn) (script : Script) : TxBuilder Dyn :=
  { b with outputs := b.outputs ++ [.leftover DUST_AMOUNT (UInt64.ofNat (2 ^ 64 - 1)) 0 script] }

/-- The input built by the loop of `estimate_size`, tx_builder.rs:275-293. -/
def placeholderInput (input : TxBuilderInput Dyn) (outputs : List TxOutput) : Option TxInput :=
  let (preimages, lockScript) := match input.lockScript with
    | some lockScript =>
      (List.replicate input.sigHashFlags.length (TxPreimage.emptyWithScript lockScript), lockScript)
    | none => ([], [])
  (input.funcScript preimages none none lockScript outputs).map fun script =>
    ⟨input.input.prevOut, script, input.input.sequence, none, none, none, none⟩

/-- `estimate_size`, tx_builder.rs:273-301 (`none` = panic). -/
def estimateSize (sz : Layout) (b : TxBuilder Dyn) (outputs : List TxOutput) : Option Nat :=
  (b.inputs.mapM fun i => placeholderInput i outputs).bind fun inputs =>
  ((Codec.unhashedTx sz).ser ⟨b.version, inputs, outputs, b.lockTime⟩).map List.length

/-- `make_outputs`, tx_builder.rs:303-318. -/
def makeOutputsFrom (amounts : Nat → Option Nat) : Nat → List TxBuilderOutput → List TxOutput
  | _, [] => []
  | idx, .knownValue o :: rest => o :: makeOutputsFrom amounts (idx + 1) rest
  | idx, .leftover _ _ _ script :: rest =>
    match amounts idx with
    | some v => ⟨UInt64.ofNat v, script⟩ :: makeOutputsFrom amounts (idx + 1) rest
    | none => makeOutputsFrom amounts (idx + 1) rest

/-- `make_outputs`, tx_builder.rs:303-318. -/
def makeOutputs (b : TxBuilder Dyn) (amounts : Nat → Option Nat) : List TxOutput :=
  makeOutputsFrom amounts 0 b.outputs

/-- `TxBuilderOutput::get_value`, tx_builder.rs:427-434. -/
def _root_.BCash.TxBuilderOutput.getValue : TxBuilderOutput → UInt64
  | .leftover .. => 0
  | .knownValue o => o.value

/-- `known_output_sum`, tx_builder.rs:410-416. -/
def knownOutputSum (b : TxBuilder Dyn) : Option Nat := sumU64 (b.outputs.map (·.getValue))

/-- `input_sum`, tx_builder.rs:418-424. -/
def inputSum (b : TxBuilder Dyn) : Option Nat := sumU64 (b.inputs.map (·.input.value))

/-- `ToPreimages for TxBuilderPreimages`, tx_builder.rs:436-471. -/
def toPreimageTx (b : TxBuilder Dyn) (outputs : List TxOutput) : PreimageTx where
  version := b.version
  inputs := b.inputs.map fun i =>
    ⟨i.input.prevOut, i.input.sequence, i.sigHashFlags, some (i.lockScript.getD []),
     some i.input.value⟩
  outputs := outputs
  lockTime := b.lockTime

/-- The inputs of the unsigned transaction that are already signed, tx_builder.rs:326-333,
399-406. -/
def prefilled (b : TxBuilder Dyn) : List (Option TxInput) :=
  b.inputs.map fun input => input.signedInput.bind fun i => if i.script = [] then none else some i

/-- Insertion of one entry keeping equal keys in the given order. -/
def insertByKey (x : Nat × Int) : List (Nat × Int) → List (Nat × Int)
  | [] => [x]
  | y :: ys => if x.2 ≤ y.2 then x :: y :: ys else y :: insertByKey x ys

/-- `sort_by(|(_, a), (_, b)| a.cmp(b))`: the (stable) standard library sort. -/
def sortByKey : List (Nat × Int) → List (Nat × Int)
  | [] => []
  | x :: xs => insertByKey x (sortByKey xs)

/-- The `enumerate().filter_map(..)` of tx_builder.rs:351-359. -/
def leftoverIndices : Nat → List TxBuilderOutput → List (Nat × Int)
  | _, [] => []
  | idx, .knownValue _ :: rest => leftoverIndices (idx + 1) rest
  | idx, .leftover _ _ p _ :: rest => (idx, p.toInt) :: leftoverIndices (idx + 1) rest

/-- The loop variables of `build`: `total_leftover`, `leftover_amounts`, `estimated_size`. -/
structure BuildState where
  total : Nat
  amounts : Nat → Option Nat
  estimated : Option Nat

/-- `HashMap::insert` / `remove`. -/
def setAmount (f : Nat → Option Nat) (k : Nat) (v : Option Nat) : Nat → Option Nat :=
  fun i => if i = k then v else f i

/-- The loop body for one leftover output, tx_builder.rs:363-388 (`none` = panic: the estimation
panics or the fee computation overflows). -/
def buildStep (sz : Layout) (b : TxBuilder Dyn) (st : BuildState) (idx : Nat) : Option BuildState :=
  match b.outputs[idx]? with
  | none => none
  | some (.knownValue _) => some st
  | some (.leftover lower upper _ _) =>
    if st.total ≤ lower.toNat then some st
    else
      let maxLeftover := min st.total upper.toNat
      (b.estimateSize sz (b.makeOutputs (setAmount st.amounts idx (some maxLeftover)))).bind
      fun newSize =>
      if newSize * b.feePerKb.toNat ≥ 2 ^ 64 then none
      else
        let fee := newSize * b.feePerKb.toNat / 1000
        if fee ≤ st.total then
          let leftover := min (st.total - fee) upper.toNat
          if leftover ≤ lower.toNat then some { st with amounts := setAmount st.amounts idx none }
          else some ⟨st.total - leftover, setAmount st.amounts idx (some leftover), some newSize⟩
        else some { st with amounts := setAmount st.amounts idx none }

/-- The loop, tx_builder.rs:362-389. -/
def buildLoop (sz : Layout) (b : TxBuilder Dyn) : BuildState → List (Nat × Int) → Option BuildState
  | st, [] => some st
  | st, (idx, _) :: rest => (buildStep sz b st idx).bind fun st => buildLoop sz b st rest

/-- A panic or a value. -/
def _root_.BCash.Res.ofOption {ε α : Type} : Option α → Res ε α
  | some a => .ok a
  | none => .panic

/-- `build`, tx_builder.rs:341-408. -/
def build (sz : Layout) (sha256d : Bytes → Hash256) (b : TxBuilder Dyn) :
    Res Error (UnsignedTx Dyn) :=
  (Res.ofOption b.knownOutputSum).bind fun known =>
  (Res.ofOption b.inputSum).bind fun inputs =>
  if known > inputs then .err (.insufficientInputAmount (known - inputs))
  else
    (Res.ofOption (buildLoop sz b ⟨inputs - known, fun _ => none, none⟩
      (sortByKey (leftoverIndices 0 b.outputs)))).bind fun st =>
    (Res.ofOption (match st.estimated with
      | some s => some s
      | none => b.estimateSize sz (b.makeOutputs st.amounts))).bind fun estimated =>
    let outputs := b.makeOutputs st.amounts
    (Res.ofOption (buildPreimages sha256d (b.toPreimageTx outputs))).bind fun preimages =>
    .ok ⟨b, outputs, preimages, b.prefilled, estimated⟩

/-- The closure of tx_builder.rs:321-324 (`none` = the error). -/
def _root_.BCash.TxBuilderOutput.known? : TxBuilderOutput → Option TxOutput
  | .knownValue o => some o
  | .leftover .. => none

/-- `build_without_estimation`, tx_builder.rs:320-339. -/
def buildWithoutEstimation (sz : Layout) (sha256d : Bytes → Hash256) (b : TxBuilder Dyn) :
    Res Error (UnsignedTx Dyn) :=
  match b.outputs.mapM TxBuilderOutput.known? with
  | none => .err (.msg "Found a leftover output")
  | some outputs =>
    (Res.ofOption (b.estimateSize sz outputs)).bind fun estimated =>
    (Res.ofOption (buildPreimages sha256d (b.toPreimageTx outputs))).bind fun preimages =>
    .ok ⟨b, outputs, preimages, b.prefilled, estimated⟩

end TxBuilder

namespace UnsignedTx
variable {Dyn : Type}

/-- The signed input recorded by the signing functions, tx_builder.rs:506-520, 553-561. -/
def signedInputOf (i : TxBuilderInput Dyn) (script : Script) : TxInput :=
  ⟨i.input.prevOut, script, i.input.sequence, i.lockScript, some i.input.value, i.isP2sh,
   some i.sigHashFlags⟩

/-- Common part of the signing functions: `compute` builds the unlocking script. Returns the new
state and the result; `none` = panic. tx_builder.rs:499-522, 524-563. -/
def signWith (u : UnsignedTx Dyn) (idx : Nat)
    (compute : List TxPreimage → Script → Option Script) :
    Option (UnsignedTx Dyn × Except Error Unit) :=
  match u.inputs[idx]? with
  | none => none
  | some (some _) => some (u, .error (.inputAlreadySigned idx))
  | some none =>
    match u.builder.inputs[idx]?, u.txPreimages[idx]? with
    | some i, some preimages =>
      (compute preimages (i.lockScript.getD [])).map fun script =>
        ({ u with inputs := u.inputs.set idx (some (signedInputOf i script)) }, .ok ())
    | _, _ => none

/-- `sign_input_dyn`, tx_builder.rs:499-522 (and `sign_input`, 490-497, which calls it). -/
def signInputDyn (u : UnsignedTx Dyn) (idx : Nat) (sigs : Dyn) :
    Option (UnsignedTx Dyn × Except Error Unit) :=
  u.signWith idx fun preimages lockScript =>
    (u.builder.inputs[idx]?).bind fun i =>
      i.funcScript preimages (some u.estimatedSize) (some sigs) lockScript u.outputs

/-- `sign_input_signatory`, tx_builder.rs:524-563. -/
def signInputSignatory (u : UnsignedTx Dyn) (idx : Nat) (s : Signatory Dyn) (sigs : s.Sigs) :
    Option (UnsignedTx Dyn × Except Error Unit) :=
  u.signWith idx fun preimages lockScript =>
    s.unlockScript preimages (some u.estimatedSize) sigs lockScript u.outputs

/-- `complete_tx`, tx_builder.rs:576-589 (`none` = panic). -/
def completeTx (u : UnsignedTx Dyn) : Option UnhashedTx :=
  (u.inputs.mapM id).map fun inputs =>
    ⟨u.builder.version, inputs, u.outputs, u.builder.lockTime⟩

/-- `partial_tx`, tx_builder.rs:591-613. -/
def partialTx (u : UnsignedTx Dyn) : UnhashedTx :=
  ⟨u.builder.version,
   (u.inputs.zip u.builder.inputs).map fun (input, i) =>
     match input with
     | some input => input
     | none => signedInputOf i [],
   u.outputs, u.builder.lockTime⟩

/-- `into_tx_builder`, tx_builder.rs:615-617. -/
def intoTxBuilder (u : UnsignedTx Dyn) : TxBuilder Dyn := u.builder

end UnsignedTx

/-- `Signatory for P2PKHSignatory`, scripts.rs:60-89. -/
def P2PKHSignatory.signatory {Dyn : Type} (s : P2PKHSignatory) (downcast : Dyn → Option Bytes) :
    Signatory Dyn where
  Sigs := Bytes
  downcast := downcast
  kind := .one s.sigHashFlags fun _ _ sigs _ _ => some (s.buildScript sigs)
  placeholderSignatures := s.placeholderSignatures
  isP2sh := false

end BCash
