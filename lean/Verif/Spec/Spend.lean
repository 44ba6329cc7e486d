import Verif.Spec.Vm
import Verif.Spec.Sighash

/-! # Specification of a valid spend (independent of the code)

When does an input of a transaction satisfy the output it spends (rules in force since November 2019):
the unlocking script consists of minimal pushes, the locking script runs on what it pushed, script-hash
outputs run the pushed redeem script, and exactly one true item is left. Signatures are checked against
the BIP143 preimage of the transaction that is being validated, with the script code that starts after
the last executed OP_CODESEPARATOR. Hash functions and signature verification are parameters. -/

namespace BCash.Spec

/-- The cryptography used by scripts. -/
structure Crypto where
  ripemd160 : Bytes → Bytes
  sha1 : Bytes → Bytes
  sha256 : Bytes → Bytes
  /-- Does the signature verify for the public key and the 32-byte digest? -/
  verify : (pubkey digest sig : Bytes) → Bool

def Crypto.hash160 (c : Crypto) (b : Bytes) : Bytes := c.ripemd160 (c.sha256 b)
def Crypto.hash256 (c : Crypto) (b : Bytes) : Bytes := c.sha256 (c.sha256 b)

/-- OP_CHECKSIG for input `i` (number `idx`) of `t`: the last byte of the signature is the hash type,
which must have the fork id bit (0x40); an empty signature is false, a failing nonempty one aborts. -/
def checkTxSig (c : Crypto) (t : WireTx) (idx : Nat) (i : WireInput) (value : Nat) (scriptCode : Bytes)
    (sig pubkey : Bytes) : Option Bool :=
  match sig.getLast? with
  | none => some false
  | some flags =>
    if flags.toNat / 64 % 2 = 1 ∧
      c.verify pubkey
        (c.hash256 (sighashPreimage c.hash256 t idx i value scriptCode flags.toNat).encode)
        sig.dropLast = true
    then some true else none

/-- BIP65: lock times below 500000000 are block heights, others are times. -/
def lockTimeOk (t : WireTx) (i : WireInput) (n : Int) : Bool :=
  0 ≤ n ∧ (n < 500000000 ↔ t.lockTime < 500000000) ∧ n ≤ t.lockTime ∧ i.sequence ≠ 0xffffffff

/-- BIP112. -/
def sequenceOk (t : WireTx) (i : WireInput) (n : Int) : Bool :=
  0 ≤ n ∧ (n.toNat.testBit 31 ∨
    (2 ≤ t.version % 2 ^ 32 ∧ ¬ i.sequence.testBit 31 ∧ (n.toNat.testBit 22 ↔ i.sequence.testBit 22) ∧
      n.toNat % 2 ^ 16 ≤ i.sequence % 2 ^ 16))

/-- What scripts of input number `idx` are checked against. -/
def txEnv (c : Crypto) (t : WireTx) (idx : Nat) (i : WireInput) (value : Nat) (scriptCode : Bytes) :
    Vm.Env where
  ripemd160 := c.ripemd160
  sha1 := c.sha1
  sha256 := c.sha256
  hash160 := c.hash160
  hash256 := c.hash256
  checkSig := checkTxSig c t idx i value scriptCode
  checkDataSig sig msg pubkey :=
    if sig = [] then some false else if c.verify pubkey (c.sha256 msg) sig then some true else none
  lockTimeOk := lockTimeOk t i
  sequenceOk := sequenceOk t i

namespace Vm

/-- Runs a script as `run`, except that after an executed OP_CODESEPARATOR the environment is the one
for the remaining script. -/
def runFrom (envOf : Bytes → Env) : Env → List Token → (exec : List Bool) → State → Option State
  | _, [], exec, s => if exec = [] then some s else none
  | env, .push _ d :: ts, exec, s =>
    if exec.all id then runFrom envOf env ts exec ⟨d :: s.stack, s.alt⟩ else runFrom envOf env ts exec s
  | env, .op b :: ts, exec, s =>
    if b = 0x63 ∨ b = 0x64 then
      if exec.all id then
        match s.stack with
        | c :: st =>
          runFrom envOf env ts ((if b = 0x63 then truthy c else !truthy c) :: exec) ⟨st, s.alt⟩
        | [] => none
      else runFrom envOf env ts (false :: exec) s
    else if b = 0x67 then
      match exec with
      | e :: es => runFrom envOf env ts ((!e) :: es) s
      | [] => none
    else if b = 0x68 then
      match exec with
      | _ :: es => runFrom envOf env ts es s
      | [] => none
    else if b = 0x65 ∨ b = 0x66 then none
    else if exec.all id then
      if b = 0xab then runFrom envOf (envOf (encodeTokens ts)) ts exec s
      else (step env b s).bind fun s => runFrom envOf env ts exec s
    else runFrom envOf env ts exec s

/-- Running script bytes that may contain code separators. -/
def RunsFrom (envOf : Bytes → Env) (script : Bytes) (s : State) (result : Option State) : Prop :=
  ∃ ts : List Token, (∀ t ∈ ts, t.Valid) ∧ script = encodeTokens ts ∧
    runFrom envOf (envOf script) ts [] s = result

/-- The script consists of minimal pushes of the given items (first to last). -/
def Pushes (script : Bytes) (items : List Bytes) : Prop :=
  ∃ ts : List Token, (∀ t ∈ ts, t.Valid ∧ t.Minimal) ∧ script = encodeTokens ts ∧
    ts.map Token.stackItem = items.map some

/-- Exactly one true item is left. -/
def Success (s : Option State) : Prop := ∃ top alt, s = some ⟨[top], alt⟩ ∧ truthy top = true

/-- A true item is on top. -/
def True1 (s : Option State) : Prop := ∃ top st alt, s = some ⟨top :: st, alt⟩ ∧ truthy top = true

end Vm

/-- Script-hash outputs: HASH160 <20 bytes> EQUAL. -/
def IsP2SH (locking : Bytes) : Prop := ∃ h : Bytes, h.length = 20 ∧ locking = [0xa9, 20] ++ h ++ [0x87]

/-- Input number `idx` of `t` may spend an output with the given value and locking script. -/
def SpendOk (c : Crypto) (t : WireTx) (idx value : Nat) (locking : Bytes) : Prop :=
  ∃ i items r, t.inputs[idx]? = some i ∧ Vm.Pushes i.script items ∧
    Vm.RunsFrom (txEnv c t idx i value) locking ⟨items.reverse, []⟩ r ∧
    (¬ IsP2SH locking → Vm.Success r) ∧
    (IsP2SH locking → Vm.True1 r ∧ ∃ rest redeem r', items = rest ++ [redeem] ∧
      Vm.RunsFrom (txEnv c t idx i value) redeem ⟨rest.reverse, []⟩ r' ∧ Vm.Success r')

end BCash.Spec
