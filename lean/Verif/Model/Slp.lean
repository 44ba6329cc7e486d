import Verif.Model.Tx
import Verif.Model.Hash

/-! # SLP token outputs — `bitcoin-cash-slp/src/lib.rs`

Strings are byte strings (their UTF-8 encoding). -/

namespace BCash

/-- `struct TokenId(Sha256d)`, slp lib.rs:4-5. -/
abbrev TokenId := Hash256

/-- `enum SlpTokenType`, slp lib.rs:7-12. -/
inductive SlpTokenType where
  | fungible | nft1Child | nft1Group
deriving DecidableEq, Repr

/-- `slp_token_type as u8`, slp lib.rs:8-12. -/
def SlpTokenType.toByte : SlpTokenType → UInt8
  | .fungible => 1
  | .nft1Child => 0x41
  | .nft1Group => 0x81

/-- `enum SlpTxType`, slp lib.rs:14-20. -/
inductive SlpTxType where
  | GENESIS | SEND | MINT | COMMIT
deriving DecidableEq, Repr

/-- `SlpTxType::to_string` (the `Debug` name), slp lib.rs:191-195, as ASCII bytes. -/
def SlpTxType.toBytes : SlpTxType → Bytes
  | .GENESIS => [0x47, 0x45, 0x4e, 0x45, 0x53, 0x49, 0x53]
  | .SEND => [0x53, 0x45, 0x4e, 0x44]
  | .MINT => [0x4d, 0x49, 0x4e, 0x54]
  | .COMMIT => [0x43, 0x4f, 0x4d, 0x4d, 0x49, 0x54]

/-- `b"SLP\0"`. -/
def slpLokadId : Bytes := [0x53, 0x4c, 0x50, 0x00]

/-- `u64::to_be_bytes`. -/
def u64BeBytes (n : UInt64) : Bytes := (leBytes 8 n.toNat).reverse

/-- `struct SlpGenesisParams`, slp lib.rs:91-100. -/
structure SlpGenesisParams where
  slpTokenType : SlpTokenType
  tokenTicker : Bytes
  tokenName : Bytes
  tokenDocumentUrl : Bytes
  tokenDocumentHash : Bytes
  decimals : UInt8
  mintBatonVout : Option UInt8
  initialTokenMintQuantity : UInt64
deriving DecidableEq

/-- The `map` of `slp_amount_ops`, slp lib.rs:103-112; `idx` is the position. -/
def slpAmountOpsFrom : Nat → List UInt64 → List (Op ByteArray)
  | _, [] => []
  | idx, a :: as =>
    .pushByteArray (.new s!"token_output_quantity{idx + 1}" (u64BeBytes a)) false ::
      slpAmountOpsFrom (idx + 1) as

/-- `slp_amount_ops`, slp lib.rs:102-113. -/
def slpAmountOps (amounts : List UInt64) : List (Op ByteArray) := slpAmountOpsFrom 0 amounts

/-- `TokenId::to_vec`, slp lib.rs:215-217. -/
def TokenId.toVec (t : TokenId) : Bytes := Hash.toVecLe t

/-- `TokenId::from_slice`, slp lib.rs:198-201. -/
def TokenId.fromSlice (s : Bytes) : Except Error TokenId := Hash.fromSliceLe 32 s

/-- `TokenId::from_hash`, slp lib.rs:203-205. -/
def TokenId.fromHash (hash : Hash256) : TokenId := hash

/-- `TokenId::as_slice_be`, slp lib.rs:207-209. -/
def TokenId.asSliceBe (t : TokenId) : Bytes := Hash.asSlice t

/-- A transaction output with the operations of its script including names of the pushed arrays. -/
structure SlpOutput where
  value : UInt64
  ops : List (Op ByteArray)

/-- The output as a `TxOutput` (tags and names erased). -/
def SlpOutput.toTxOutput (o : SlpOutput) : TxOutput := ⟨o.value, o.ops.map (Op.map ByteArray.data)⟩

/-- `slp_genesis_output`, slp lib.rs:116-158. -/
def slpGenesisOutput (p : SlpGenesisParams) : SlpOutput :=
  let arrays : List ByteArray := [
    .new "lokad_id" slpLokadId,
    .new "token_type" [p.slpTokenType.toByte],
    .new "transaction_type" SlpTxType.GENESIS.toBytes,
    .new "token_ticker" p.tokenTicker,
    .new "token_name" p.tokenName,
    .new "token_document_url" p.tokenDocumentUrl,
    .new "token_document_hash" p.tokenDocumentHash,
    .new "decimals" [p.decimals],
    .new "mint_baton_vout" (match p.mintBatonVout with
      | some vout => [vout]
      | none => []),
    .new "initial_token_mint_quantity" (u64BeBytes p.initialTokenMintQuantity)]
  ⟨0, .code .OP_RETURN :: arrays.map fun a => .pushByteArray a false⟩

/-- `slp_send_output`, slp lib.rs:160-189. -/
def slpSendOutput (tokenType : SlpTokenType) (tokenId : TokenId) (amounts : List UInt64) : SlpOutput :=
  ⟨0, [.code .OP_RETURN,
    .pushByteArray (.new "lokad_id" slpLokadId) false,
    .pushByteArray (.new "token_type" [tokenType.toByte]) false,
    .pushByteArray (.new "transaction_type" SlpTxType.SEND.toBytes) false,
    .pushByteArray (.new "token_id" tokenId.toVec) false] ++ slpAmountOps amounts⟩

end BCash
