import Verif.Spec.ScriptNum
import Verif.Spec.Script

/-! # Specification of script execution (independent of the code)

The Bitcoin Cash script machine (rules in force at the time of the library: disabled opcodes fail,
4-byte numeric operands, minimal encodings). Operations are given by their consensus byte values.
The stack is a list with the top first. Resource limits (sizes, counts) and OP_CHECKMULTISIG are left
out; signature and lock time checks are given by an environment, whose answers do not depend on
OP_CODESEPARATOR. -/

namespace BCash.Spec.Vm

/-- The minimal script number encoding of an integer. -/
def numBytes (n : Int) : Bytes :=
  if n = 0 then []
  else
    let k := (n.natAbs.log2 + 9) / 8
    leBytes k (n.natAbs + if n < 0 then 2 ^ (8 * k - 1) else 0)

/-- A number operand: at most `size` bytes, minimally encoded. -/
def num? (size : Nat) (bs : Bytes) : Option Int :=
  if bs.length ≤ size ∧ numBytes (scriptNum bs) = bs then some (scriptNum bs) else none

/-- The truth value of an item: zero and negative zero are false. -/
def truthy (bs : Bytes) : Bool := scriptNum bs ≠ 0

/-- The item for a truth value. -/
def boolBytes (b : Bool) : Bytes := if b then [1] else []

/-- What a script is checked against. `none` aborts the script (badly encoded signature, or a nonempty
signature that fails). -/
structure Env where
  ripemd160 : Bytes → Bytes
  sha1 : Bytes → Bytes
  sha256 : Bytes → Bytes
  hash160 : Bytes → Bytes
  hash256 : Bytes → Bytes
  checkSig : (sig pubkey : Bytes) → Option Bool
  checkDataSig : (sig msg pubkey : Bytes) → Option Bool
  lockTimeOk : Int → Bool
  sequenceOk : Int → Bool

structure State where
  stack : List Bytes
  alt : List Bytes
deriving DecidableEq

/-- Applies a function to the top item. -/
def un (f : Bytes → Option (List Bytes)) : List Bytes → Option (List Bytes)
  | a :: s => (f a).map (· ++ s)
  | _ => none

/-- Applies a function to the two top items (`b` on top); the results are given top first. -/
def bin (f : Bytes → Bytes → Option (List Bytes)) : List Bytes → Option (List Bytes)
  | b :: a :: s => (f a b).map (· ++ s)
  | _ => none

/-- Applies a function to the three top items (`c` on top). -/
def tern (f : Bytes → Bytes → Bytes → Option (List Bytes)) : List Bytes → Option (List Bytes)
  | c :: b :: a :: s => (f a b c).map (· ++ s)
  | _ => none

/-- A numeric function of one number. -/
def un1 (f : Int → Int) : List Bytes → Option (List Bytes) :=
  un fun a => (num? 4 a).map fun a => [numBytes (f a)]

/-- A numeric function of two numbers. -/
def bin1 (f : Int → Int → Option Int) : List Bytes → Option (List Bytes) :=
  bin fun a b => (num? 4 a).bind fun a => (num? 4 b).bind fun b => (f a b).map fun r => [numBytes r]

/-- A predicate of two numbers. -/
def cmp (f : Int → Int → Bool) : List Bytes → Option (List Bytes) :=
  bin fun a b => (num? 4 a).bind fun a => (num? 4 b).map fun b => [boolBytes (f a b)]

/-- Fails unless true. -/
def verify (b : Bool) : Option (List Bytes) := if b then some [] else none

/-- `NUM2BIN`: the `size`-byte encoding of a number. -/
def num2bin (a : Bytes) (size : Int) : Option Bytes :=
  let n := scriptNum a
  if 0 ≤ size ∧ size ≤ 520 ∧ (numBytes n).length ≤ size.toNat then
    some (leBytes size.toNat (n.natAbs + if n < 0 then 2 ^ (8 * size.toNat - 1) else 0))
  else none

/-- Bytewise operation on operands of equal length. -/
def bitwise (f : UInt8 → UInt8 → UInt8) (a b : Bytes) : Option (List Bytes) :=
  if a.length = b.length then some [List.zipWith f a b] else none

/-- The effect of an operation on the main stack (operations that do not involve the alternative
stack). `none`: the script fails. -/
def main (env : Env) (op : UInt8) (s : List Bytes) : Option (List Bytes) :=
  match op.toNat with
  -- constants
  | 0x00 => some ([] :: s)
  | 0x4f => some ([0x81] :: s)
  | 0x51 => some ([1] :: s)
  | 0x52 => some ([2] :: s)
  | 0x53 => some ([3] :: s)
  | 0x54 => some ([4] :: s)
  | 0x55 => some ([5] :: s)
  | 0x56 => some ([6] :: s)
  | 0x57 => some ([7] :: s)
  | 0x58 => some ([8] :: s)
  | 0x59 => some ([9] :: s)
  | 0x5a => some ([10] :: s)
  | 0x5b => some ([11] :: s)
  | 0x5c => some ([12] :: s)
  | 0x5d => some ([13] :: s)
  | 0x5e => some ([14] :: s)
  | 0x5f => some ([15] :: s)
  | 0x60 => some ([16] :: s)
  -- flow
  | 0x61 => some s                                          -- NOP
  | 0x63 => un (fun _ => some []) s                         -- IF (takes the condition)
  | 0x64 => un (fun _ => some []) s                         -- NOTIF
  | 0x67 => some s                                          -- ELSE
  | 0x68 => some s                                          -- ENDIF
  | 0x69 => un (fun a => verify (truthy a)) s               -- VERIFY
  -- stack
  | 0x6d => bin (fun _ _ => some []) s                      -- 2DROP
  | 0x6e => bin (fun a b => some [b, a, b, a]) s            -- 2DUP
  | 0x6f => tern (fun a b c => some [c, b, a, c, b, a]) s   -- 3DUP
  | 0x70 => match s with                                    -- 2OVER
    | d :: c :: b :: a :: s => some (b :: a :: d :: c :: b :: a :: s)
    | _ => none
  | 0x71 => match s with                                    -- 2ROT
    | f :: e :: d :: c :: b :: a :: s => some (b :: a :: f :: e :: d :: c :: s)
    | _ => none
  | 0x72 => match s with                                    -- 2SWAP
    | d :: c :: b :: a :: s => some (b :: a :: d :: c :: s)
    | _ => none
  | 0x73 => un (fun a => some (if truthy a then [a, a] else [a])) s -- IFDUP
  | 0x74 => some (numBytes s.length :: s)                   -- DEPTH
  | 0x75 => un (fun _ => some []) s                         -- DROP
  | 0x76 => un (fun a => some [a, a]) s                     -- DUP
  | 0x77 => bin (fun _ b => some [b]) s                     -- NIP
  | 0x78 => bin (fun a b => some [a, b, a]) s               -- OVER
  | 0x79 => match s with                                    -- PICK
    | n :: s => (num? 4 n).bind fun n =>
        if 0 ≤ n then (s[n.toNat]?).map fun x => x :: s else none
    | _ => none
  | 0x7a => match s with                                    -- ROLL
    | n :: s => (num? 4 n).bind fun n =>
        if 0 ≤ n then (s[n.toNat]?).map fun x => x :: s.eraseIdx n.toNat else none
    | _ => none
  | 0x7b => tern (fun a b c => some [a, c, b]) s            -- ROT
  | 0x7c => bin (fun a b => some [a, b]) s                  -- SWAP
  | 0x7d => bin (fun a b => some [b, a, b]) s               -- TUCK
  -- strings
  | 0x7e => bin (fun a b => some [a ++ b]) s                -- CAT
  | 0x7f => bin (fun a n => (num? 4 n).bind fun n =>        -- SPLIT
      if 0 ≤ n ∧ n.toNat ≤ a.length then some [a.drop n.toNat, a.take n.toNat] else none) s
  | 0x80 => bin (fun a n => (num? 4 n).bind fun n => (num2bin a n).map fun r => [r]) s -- NUM2BIN
  | 0x81 => un (fun a => if (numBytes (scriptNum a)).length ≤ 4 then             -- BIN2NUM
      some [numBytes (scriptNum a)] else none) s
  | 0x82 => un (fun a => some [numBytes a.length, a]) s     -- SIZE
  | 0x84 => bin (bitwise (· &&& ·)) s                       -- AND
  | 0x85 => bin (bitwise (· ||| ·)) s                       -- OR
  | 0x86 => bin (bitwise (· ^^^ ·)) s                       -- XOR
  | 0x87 => bin (fun a b => some [boolBytes (a == b)]) s    -- EQUAL
  | 0x88 => bin (fun a b => verify (a == b)) s              -- EQUALVERIFY
  -- numbers
  | 0x8b => un1 (· + 1) s                                   -- 1ADD
  | 0x8c => un1 (· - 1) s                                   -- 1SUB
  | 0x8f => un1 (- ·) s                                     -- NEGATE
  | 0x90 => un1 (fun a => a.natAbs) s                       -- ABS
  | 0x91 => un (fun a => (num? 4 a).map fun a => [boolBytes (a == 0)]) s  -- NOT
  | 0x92 => un (fun a => (num? 4 a).map fun a => [boolBytes (a != 0)]) s  -- 0NOTEQUAL
  | 0x93 => bin1 (fun a b => some (a + b)) s                -- ADD
  | 0x94 => bin1 (fun a b => some (a - b)) s                -- SUB
  | 0x96 => bin1 (fun a b => if b = 0 then none else some (a.tdiv b)) s   -- DIV
  | 0x97 => bin1 (fun a b => if b = 0 then none else some (a.tmod b)) s   -- MOD
  | 0x9a => cmp (fun a b => a != 0 && b != 0) s             -- BOOLAND
  | 0x9b => cmp (fun a b => a != 0 || b != 0) s             -- BOOLOR
  | 0x9c => cmp (fun a b => a == b) s                       -- NUMEQUAL
  | 0x9d => bin (fun a b => (num? 4 a).bind fun a => (num? 4 b).bind fun b => verify (a == b)) s
  | 0x9e => cmp (fun a b => a != b) s                       -- NUMNOTEQUAL
  | 0x9f => cmp (fun a b => a < b) s                        -- LESSTHAN
  | 0xa0 => cmp (fun a b => b < a) s                        -- GREATERTHAN
  | 0xa1 => cmp (fun a b => a ≤ b) s                        -- LESSTHANOREQUAL
  | 0xa2 => cmp (fun a b => b ≤ a) s                        -- GREATERTHANOREQUAL
  | 0xa3 => bin1 (fun a b => some (min a b)) s              -- MIN
  | 0xa4 => bin1 (fun a b => some (max a b)) s              -- MAX
  | 0xa5 => tern (fun x lo hi => (num? 4 x).bind fun x => (num? 4 lo).bind fun lo =>  -- WITHIN
      (num? 4 hi).map fun hi => [boolBytes (lo ≤ x && x < hi)]) s
  -- cryptography
  | 0xa6 => un (fun a => some [env.ripemd160 a]) s
  | 0xa7 => un (fun a => some [env.sha1 a]) s
  | 0xa8 => un (fun a => some [env.sha256 a]) s
  | 0xa9 => un (fun a => some [env.hash160 a]) s
  | 0xaa => un (fun a => some [env.hash256 a]) s
  | 0xab => some s                                          -- CODESEPARATOR
  | 0xac => bin (fun sig pk => (env.checkSig sig pk).map fun b => [boolBytes b]) s
  | 0xad => bin (fun sig pk => (env.checkSig sig pk).bind verify) s
  | 0xba => tern (fun sig m pk => (env.checkDataSig sig m pk).map fun b => [boolBytes b]) s
  | 0xbb => tern (fun sig m pk => (env.checkDataSig sig m pk).bind verify) s
  | 0xbc => un (fun a => some [a.reverse]) s                -- REVERSEBYTES
  -- lock times
  | 0xb1 => un (fun a => (num? 5 a).bind fun n => if env.lockTimeOk n then some [a] else none) s
  | 0xb2 => un (fun a => (num? 5 a).bind fun n => if env.sequenceOk n then some [a] else none) s
  -- reserved no-operations
  | 0xb0 => some s
  | 0xb3 => some s
  | 0xb4 => some s
  | 0xb5 => some s
  | 0xb6 => some s
  | 0xb7 => some s
  | 0xb8 => some s
  | 0xb9 => some s
  | _ => none

/-- The effect of an operation. -/
def step (env : Env) (op : UInt8) (s : State) : Option State :=
  if op = 0x6b then                                         -- TOALTSTACK
    match s.stack with
    | a :: st => some ⟨st, a :: s.alt⟩
    | _ => none
  else if op = 0x6c then                                    -- FROMALTSTACK
    match s.alt with
    | a :: alt => some ⟨a :: s.stack, alt⟩
    | _ => none
  else (main env op s.stack).map fun st => ⟨st, s.alt⟩

/-- Runs a script. `exec` holds one flag per open conditional, innermost first; operations in a branch
not taken are skipped. The script must end with all conditionals closed. -/
def run (env : Env) : List Token → (exec : List Bool) → State → Option State
  | [], exec, s => if exec = [] then some s else none
  | .push _ d :: ts, exec, s =>
    if exec.all id then run env ts exec ⟨d :: s.stack, s.alt⟩ else run env ts exec s
  | .op b :: ts, exec, s =>
    if b = 0x63 ∨ b = 0x64 then
      if exec.all id then
        match s.stack with
        | c :: st => run env ts ((if b = 0x63 then truthy c else !truthy c) :: exec) ⟨st, s.alt⟩
        | [] => none
      else run env ts (false :: exec) s
    else if b = 0x67 then
      match exec with
      | e :: es => run env ts ((!e) :: es) s
      | [] => none
    else if b = 0x68 then
      match exec with
      | _ :: es => run env ts es s
      | [] => none
    else if b = 0x65 ∨ b = 0x66 then none
    else if exec.all id then (step env b s).bind fun s => run env ts exec s
    else run env ts exec s

/-- Running script bytes: they are cut into tokens (uniquely: `tokens_unique`), which are executed. -/
def Runs (env : Env) (script : Bytes) (s : State) (result : Option State) : Prop :=
  ∃ ts : List Token, (∀ t ∈ ts, t.Valid) ∧ script = encodeTokens ts ∧ run env ts [] s = result

/-- A spend: the unlocking script runs on empty stacks, the locking script on the resulting main stack,
and a true item must be on top in the end. -/
def Accepts (env : Env) (unlocking locking : Bytes) : Prop :=
  ∃ s1 s2 top rest, Runs env unlocking ⟨[], []⟩ (some s1) ∧ Runs env locking ⟨s1.stack, []⟩ (some s2) ∧
    s2.stack = top :: rest ∧ truthy top = true

end BCash.Spec.Vm
