import Verif.Spec.Vm
import Verif.Model.Script

/-! # Specification: the stack item of a push operation -/

namespace BCash

/-- The stack item a push operation stands for: byte strings as they are, truth values as 1 and empty,
integers as their minimal encoding. -/
def Spec.Vm.item : Op Bytes → Option Bytes
  | .pushByteArray d _ => some d
  | .pushBoolean b => some (Vm.boolBytes b)
  | .pushInteger i => some (Vm.numBytes i)
  | _ => none

end BCash
