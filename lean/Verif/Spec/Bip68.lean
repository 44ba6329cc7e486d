/-! # BIP68 relative lock times, as specified

Bit 31 disables the relative lock; bit 22 selects the unit (512 seconds if set, blocks otherwise);
the low 16 bits are the amount; all other bits are ignored. -/

namespace BCash.Spec

/-- Meaning of a sequence number under BIP68. -/
inductive RelativeLock where
  | none
  | blocks (n : Nat)
  | units512s (n : Nat)
deriving DecidableEq, Repr

/-- BIP68. -/
def bip68 (sequence : Nat) : RelativeLock :=
  if sequence.testBit 31 then .none
  else if sequence.testBit 22 then .units512s (sequence % 2 ^ 16)
  else .blocks (sequence % 2 ^ 16)

end BCash.Spec
