/-! # Typing errors -/

namespace BCash.Spec

/-- In how many positions two texts of the same length differ. -/
def changed : List UInt8 → List UInt8 → Nat
  | x :: xs, y :: ys => (if x = y then 0 else 1) + changed xs ys
  | _, _ => 0

/-- The low five bits of a letter: all the checksum sees of a prefix. -/
def lowFive (c : UInt8) : UInt8 := UInt8.ofNat (c.toNat % 32)

end BCash.Spec
