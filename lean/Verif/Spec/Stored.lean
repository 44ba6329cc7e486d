import Mathlib.Data.List.Forall2
import Verif.Model.Serde
import Verif.Spec.Wire

/-! # Stored documents: what counts as the same document -/

namespace BCash

/-- The values stored under a name, in order. -/
def Spec.valuesAt {α : Type} (name : String) (kvs : List (String × α)) : List α :=
  kvs.filterMap fun p => if p.1 = name then some p.2 else none

/-- A name has no entry in one of the maps and `null` in the other. -/
def Spec.AbsentOrNull (name : String) (kvs lws : List (String × SVal)) : Prop :=
  Spec.valuesAt name kvs = [.null] ∧ Spec.valuesAt name lws = [] ∨
  Spec.valuesAt name kvs = [] ∧ Spec.valuesAt name lws = [.null]

/-- The same document, except that entries with different names may be in another order, entries with
names that are not `known` may be there or not, and entries with `optional` names may be absent instead of
`null`, at any depth. -/
inductive Spec.Rearranged (known optional : String → Prop) : SVal → SVal → Prop where
  | same (v : SVal) : Rearranged known optional v v
  | seq {vs ws : List SVal} (h : List.Forall₂ (Rearranged known optional) vs ws) :
      Rearranged known optional (.seq vs) (.seq ws)
  | map {kvs lws : List (String × SVal)}
      (h : ∀ name, known name → ¬ (optional name ∧ Spec.AbsentOrNull name kvs lws) →
        List.Forall₂ (Rearranged known optional) (Spec.valuesAt name kvs) (Spec.valuesAt name lws)) :
      Rearranged known optional (.map kvs) (.map lws)

/-- A text occurs in the document. -/
inductive Spec.HasText (t : Bytes) : SVal → Prop where
  | here : HasText t (.str t)
  | elem {v : SVal} {vs : List SVal} (hv : v ∈ vs) (h : HasText t v) : HasText t (.seq vs)
  | entry {k : String} {v : SVal} {kvs : List (String × SVal)} (hv : (k, v) ∈ kvs) (h : HasText t v) :
      HasText t (.map kvs)

/-! ## The layout of stored values in JSON -/

namespace Spec.Doc

def hex (b : Bytes) : SVal := .str (hexEncode b)
/-- Hashes are shown with their bytes reversed, as block explorers do. -/
def hash {n : Nat} (h : Hash n) : SVal := hex h.1.reverse
def num (n : Nat) : SVal := .num n
def opt {α : Type} (doc : α → SVal) : Option α → SVal
  | none => .null
  | some v => doc v
def list {α : Type} (doc : α → SVal) (vs : List α) : SVal := .seq (vs.map doc)

/-- Scripts are shown with their length. -/
def script (s : Script) : SVal := hex (varBytes (s.serOps.getD []))

def flags (b : SigHashFlags) : SVal := .map [("bits", num b.toNat)]

def outpoint (o : TxOutpoint) : SVal := .map [("txHash", hash o.txHash), ("vout", num o.vout.toNat)]

def input (i : TxInput) : SVal := .map
  [("prevOut", outpoint i.prevOut), ("script", script i.script), ("sequence", num i.sequence.toNat),
   ("lockScript", opt script i.lockScript), ("value", opt (fun v => num v.toNat) i.value),
   ("isP2sh", opt .bool i.isP2sh), ("sigHashFlags", opt (list flags) i.sigHashFlags)]

def output (o : TxOutput) : SVal := .map [("value", num o.value.toNat), ("script", script o.script)]

def unhashedTx (t : UnhashedTx) : SVal := .map
  [("version", .num t.version.toInt), ("inputs", list input t.inputs), ("outputs", list output t.outputs),
   ("lockTime", num t.lockTime.toNat)]

def tx (t : Tx) : SVal := .map
  [("unhashedTx", unhashedTx t.unhashedTx), ("hash", hash t.hash), ("raw", hex t.raw)]

def unsignedInput (i : UnsignedTxInput) : SVal := .map
  [("prevOut", outpoint i.prevOut), ("sequence", num i.sequence.toNat), ("value", num i.value.toNat)]

def inputReference (i : UInt64) : SVal := .map [("phantom", .null), ("input_idx", num i.toNat)]

/-- A name. -/
def name (s : String) : SVal := .str (s.toList.map fun c => UInt8.ofNat c.toNat)

def tokenType : SlpTokenType → SVal
  | .fungible => name "Fungible"
  | .nft1Child => name "Nft1Child"
  | .nft1Group => name "Nft1Group"

def action : SlpAction → SVal
  | .nonSlp => name "NonSlp"
  | .nonSlpBurn => name "NonSlpBurn"
  | .slpParseError => name "SlpParseError"
  | .slpUnsupportedVersion => name "SlpUnsupportedVersion"
  | .slpV1Genesis => name "SlpV1Genesis"
  | .slpV1Mint => name "SlpV1Mint"
  | .slpV1Send => name "SlpV1Send"
  | .slpNft1GroupGenesis => name "SlpNft1GroupGenesis"
  | .slpNft1GroupMint => name "SlpNft1GroupMint"
  | .slpNft1GroupSend => name "SlpNft1GroupSend"
  | .slpNft1UniqueChildGenesis => name "SlpNft1UniqueChildGenesis"
  | .slpNft1UniqueChildSend => name "SlpNft1UniqueChildSend"

def token (t : SlpToken) : SVal := .map
  [("amount", num t.amount.toNat), ("is_mint_baton", .bool t.isMintBaton), ("action", action t.action)]

def slpData (d : SlpData) : SVal := .map [("token_id", hash d.tokenId)]

def slpInput (i : SlpTxInput) : SVal := .map
  [("index", num i.index.toNat), ("token", token i.token), ("input", input i.input),
   ("prev_script", script i.prevScript)]

def slpOutput (o : SlpTxOutput) : SVal := .map [("token", token o.token), ("output", output o.output)]

def slpTx (t : SlpTx) : SVal := .map
  [("version", .num t.version.toInt), ("inputs", list slpInput t.inputs),
   ("outputs", list slpOutput t.outputs), ("lock_time", num t.lockTime.toNat),
   ("slp_data", opt slpData t.slpData), ("tx_hash", hash t.txHash)]

def utxo (u : SlpUtxo) : SVal := .map
  [("input", unsignedInput u.input), ("slp_token", token u.slpToken), ("slp_data", opt slpData u.slpData)]

def tokenMeta (m : TokenMeta) : SVal := .map
  [("ticker", .str m.ticker), ("name", .str m.name), ("document_url", .str m.documentUrl),
   ("document_hash", list (fun b => num b.toNat) m.documentHash), ("decimals", num m.decimals.toNat),
   ("slp_token_type", tokenType m.slpTokenType)]

end Spec.Doc
end BCash
