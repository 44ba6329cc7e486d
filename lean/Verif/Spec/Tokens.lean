import Verif.Spec.Slp
import Verif.Spec.Wire

/-! # Specification of the tokens of a transaction (independent of the code)

Simple Ledger Protocol: the message is in the script of output 0. A SEND message assigns its quantities to the outputs
1, 2, … in order; a quantity without an output is lost, an output without a quantity gets nothing. A GENESIS
message creates a token whose id is the id of the transaction; output 1 gets the quantity, and the mint baton is
in the output the message names, if there is one. (That a SEND spends enough tokens is a matter of its inputs.) -/

namespace BCash.Spec.Slp

/-- What the message of a transaction assigns to output `vout`; `txid` is the id of the transaction, in the order in
which it is displayed. The result is the token type, the token id and the quantity. -/
def tokensAt (txid : Bytes) (tx : WireTx) (vout : Nat) : Option (TokenType × Bytes × Nat) :=
  (tx.outputs.head?).bind fun o => (parse o.script).bind fun m =>
    if vout < tx.outputs.length then
      match m with
      | .send type id amounts => if 1 ≤ vout then (amounts[vout - 1]?).map fun n => (type, id, n) else none
      | .genesis type _ _ _ _ _ _ n => if vout = 1 then some (type, txid, n) else none
    else none

/-- Does the message of a transaction put a mint baton into output `vout`? -/
def batonAt (tx : WireTx) (vout : Nat) : Prop :=
  vout < tx.outputs.length ∧ ∃ o type ticker name url hash dec n, tx.outputs.head? = some o ∧
    parse o.script = some (.genesis type ticker name url hash dec (some vout) n)

end BCash.Spec.Slp
