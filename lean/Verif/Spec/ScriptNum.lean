import Verif.Model.Basic

/-! # Specification of script numbers (independent of the code)

A script number is a little-endian sign-magnitude integer: the most significant bit of the last
byte is the sign, all other bits are the magnitude (Bitcoin Script `CScriptNum`). -/

namespace BCash.Spec

/-- Value of a byte string as a script number. -/
def scriptNum (bs : Bytes) : Int :=
  match bs.getLast? with
  | none => 0
  | some last =>
    if last.toNat < 128 then (leVal bs : Int)
    else -((leVal bs : Int) - 128 * 256 ^ (bs.length - 1))

/-- The BCH MINIMALDATA rule for numbers (`CScriptNum` constructor with `fRequireMinimal`):
if the last byte carries no magnitude bits, it must be needed to hold the sign, i.e. the byte
before it must have its top bit set. -/
def IsMinimalNum (bs : Bytes) : Prop :=
  ∀ last, bs.getLast? = some last → last.toNat % 128 = 0 →
    ∃ prev, bs[bs.length - 2]? = some prev ∧ 2 ≤ bs.length ∧ 128 ≤ prev.toNat

end BCash.Spec
