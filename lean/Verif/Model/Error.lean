import Verif.Model.VarInt
import Verif.Model.ByteArray

/-! # The library's error type — `bitcoin-cash/src/error.rs` -/

namespace BCash

/-- `enum CashAddrError`, address.rs:37-45. -/
inductive CashAddrError where
  | invalidChecksum
  | invalidBase32Letter (idx : Nat) (byte : UInt8)
  | invalidAddressType (type : UInt8)
deriving DecidableEq, Repr

/-- `enum Error`, error.rs:19-68, restricted to the variants produced by the modelled functions
(payloads that are foreign error values or message strings are dropped). -/
inductive Error where
  | io (e : IoError)
  | byteArray (e : ByteArrayError)
  | pushTooLarge
  | fromHex
  | invalidSize (expected actual : Nat)
  | insufficientInputAmount (amount : Nat)
  | invalidSignatureFormat
  | invalidPubkey
  | inputAlreadySigned (inputIdx : Nat)
  | invalidCashAddr (e : CashAddrError)
  | invalidAddressType
  | msg (s : String)
deriving DecidableEq, Repr

/-- Rust's `?` on a `Result` that cannot panic, with the `From` conversion `f` of the error. -/
def Res.ofExcept {ε ε' α : Type} (f : ε → ε') : Except ε α → Res ε' α
  | .ok a => .ok a
  | .error e => .err (f e)

@[simp] theorem Res.ofExcept_ok {ε ε' α : Type} (f : ε → ε') (a : α) :
    Res.ofExcept f (.ok a : Except ε α) = .ok a := rfl
@[simp] theorem Res.ofExcept_error {ε ε' α : Type} (f : ε → ε') (e : ε) :
    Res.ofExcept f (.error e : Except ε α) = .err (f e) := rfl

end BCash
