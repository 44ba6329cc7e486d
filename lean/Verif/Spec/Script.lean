import Verif.Model.Basic

/-! # Specification of script bytes (independent of the code)

A script is a sequence of tokens; a token is a single operation byte or a push in one of four forms
(Bitcoin Script: direct push of 1..75 bytes, OP_PUSHDATA1/2/4 with a 1/2/4 byte length). -/

namespace BCash.Spec

inductive PushForm where
  | direct | pushdata1 | pushdata2 | pushdata4
deriving DecidableEq, Repr

inductive Token where
  | op (b : UInt8)
  | push (form : PushForm) (data : Bytes)
deriving DecidableEq, Repr

/-- The bytes of a token. -/
def Token.encode : Token → Bytes
  | .op b => [b]
  | .push .direct d => UInt8.ofNat d.length :: d
  | .push .pushdata1 d => 0x4c :: (leBytes 1 d.length ++ d)
  | .push .pushdata2 d => 0x4d :: (leBytes 2 d.length ++ d)
  | .push .pushdata4 d => 0x4e :: (leBytes 4 d.length ++ d)

/-- Operation bytes are those that are not push prefixes; push lengths must fit their form. -/
def Token.Valid : Token → Prop
  | .op b => b = 0 ∨ 0x4f ≤ b.toNat
  | .push .direct d => 1 ≤ d.length ∧ d.length ≤ 75
  | .push .pushdata1 d => d.length < 2 ^ 8
  | .push .pushdata2 d => d.length < 2 ^ 16
  | .push .pushdata4 d => d.length < 2 ^ 32

/-- The bytes of a token sequence. -/
def encodeTokens (ts : List Token) : Bytes := (ts.map Token.encode).flatten

/-- The item a token pushes on the stack, if it is a push (OP_0, OP_1NEGATE, OP_1..OP_16 and the four
data forms). -/
def Token.stackItem : Token → Option Bytes
  | .op b =>
    if b = 0 then some []
    else if b = 0x4f then some [0x81]
    else if 0x51 ≤ b.toNat ∧ b.toNat ≤ 0x60 then some [UInt8.ofNat (b.toNat - 0x50)]
    else none
  | .push _ d => some d

/-- The BCH minimal-data rule (`CheckMinimalPush`) for a data push. -/
def MinimalPush (form : PushForm) (d : Bytes) : Prop :=
  if d.length = 0 then False
  else if d.length = 1 ∧ (1 ≤ (d.getD 0 0).toNat ∧ (d.getD 0 0).toNat ≤ 16 ∨ d.getD 0 0 = 0x81) then False
  else if d.length ≤ 75 then form = .direct
  else if d.length ≤ 255 then form = .pushdata1
  else if d.length ≤ 65535 then form = .pushdata2
  else form = .pushdata4

instance (form : PushForm) (d : Bytes) : Decidable (MinimalPush form d) := by
  unfold MinimalPush; infer_instance

/-- Token form of the rule: operation bytes are always minimal. -/
def Token.Minimal : Token → Prop
  | .op _ => True
  | .push form d => MinimalPush form d

/-- A push uses the shortest prefix for the length of its data (or is the two-byte empty push). -/
def Token.ShortPrefix : Token → Prop
  | .op _ => True
  | .push .direct _ => True
  | .push .pushdata1 d => d.length = 0 ∨ 76 ≤ d.length
  | .push .pushdata2 d => 2 ^ 8 ≤ d.length
  | .push .pushdata4 d => 2 ^ 16 ≤ d.length

end BCash.Spec
