import Verif.Model.Equality
import Verif.Model.Hash
import Verif.Model.IntegerConv
import Verif.Model.Parse

/-! # The text of arrays, operations and scripts — `Display`, `Debug` and `Hash` -/

namespace BCash

/-- `hex::encode` (crate `hex`) as text; `{:02x}` of a byte is the same for one byte. -/
def hexText (b : Bytes) : String := String.ofList ((hexEncode b).map fun c => Char.ofNat c.toNat)

/-- `Display for ByteArray`, byte_array.rs:604-608 (`ByteArray::hex`, 244-246, is the same). -/
def ByteArray.display (a : ByteArray) : String := hexText a.data

/-- `Display for Opcode`, opcode.rs:2425-2430 (`IntoStaticStr`: the name of the variant). -/
def Opcode.display (o : Opcode) : String := o.name

/-- `Display for Op`, op.rs:20-32. -/
def Op.display : Op ByteArray → String
  | .code c => c.name
  | .invalid b => hexText [b]
  | .pushByteArray a _ => "0x" ++ hexText a.data
  | .pushBoolean b => if b then "OP_TRUE" else "OP_FALSE"
  | .pushInteger i => IntegerResult.display (.ok i)

/-- `Debug for Op`, op.rs:34-46. -/
def Op.debug : Op ByteArray → String
  | .code c => "Code(" ++ c.name ++ ")"
  | .invalid b => "Invalid(0x" ++ hexText [b] ++ ")"
  | .pushByteArray a m => "PushByteArray{array: hex!(\"" ++ hexText a.data ++ "\").to_vec(), is_minimal: " ++
      (if m then "true" else "false") ++ "})"
  | .pushBoolean b => "PushBoolean(" ++ (if b then "true" else "false") ++ ")"
  | .pushInteger i => "PushInteger(" ++ IntegerResult.display (.ok i) ++ ")"

/-- `Display for Script`, script.rs:340-347. -/
def displayScript : List TaggedOp → String
  | [] => ""
  | op :: ops => op.op.display ++ " " ++ displayScript ops

/-- `Hash for ByteArray`, byte_array.rs:598-602 (and for `FixedByteArray`, 677-681): what is fed to the
hasher `H`, whose own behaviour on a slice of bytes is `write`. -/
def ByteArray.hash {H : Type} (write : Bytes → H → H) (a : ByteArray) (state : H) : H := write a.data state

end BCash
