import Verif.Props.VarInt
import Verif.Props.ScriptNum
import Verif.Props.Integer
import Verif.Props.ByteArray
import Verif.Props.Provenance
import Verif.Props.Base64
import Verif.Props.Script
import Verif.Props.Codec
import Verif.Props.Preimage
import Verif.Props.Hash
import Verif.Props.Address
import Verif.Props.AddressSer
import Verif.Props.Destination
import Verif.Props.TxBuilder
import Verif.Props.Signing
import Verif.Props.Json
import Verif.Props.Slp
import Verif.Props.Opcode
import Verif.Props.Macro
import Verif.Props.Exec
import Verif.Props.Spend
import Verif.Props.Contract
import Verif.Props.Signed
import Verif.Props.MacroGen
import Verif.Props.Recorded
import Verif.Props.Accept
import Verif.Props.Standard
import Verif.Props.Func
import Verif.Props.Typed
import Verif.Props.ScriptParts
import Verif.Props.CodecP
import Verif.Props.ReadBack
import Verif.Props.PreimageP
import Verif.Props.Equality
import Verif.Props.Builder
import Verif.Props.Serde
import Verif.Props.IntegerConv
import Verif.Props.Ecc
import Verif.Props.Source
import Verif.Props.Profile
import Verif.Props.Text
import Verif.Props.Display
import Verif.Props.Raw
import Verif.Props.Import
import Verif.Props.Compact
import Verif.Props.JsonText
import Verif.Props.AddressErrors
import Verif.Props.DeriveLib
import Verif.Props.Items
import Verif.Props.ItemsTyped
import Verif.Props.Keys
import Verif.Props.AddressLength
import Verif.Props.Payment
import Verif.Props.Spending
import Verif.Props.DebugInfo
import Verif.Props.Offline
import Verif.Props.Tokens
import Verif.Model.MacroDiag
import Verif.Spec.Diag
import Verif.Proofs.MacroTypedBalanced
import Verif.Proofs.MacroDiag
import Verif.Proofs.MacroReport
import Verif.Proofs.MacroReportProg
import Verif.Props.Diag
import Verif.Proofs.Fields
import Verif.Props.Fields
