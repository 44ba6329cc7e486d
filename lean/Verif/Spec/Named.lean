import Verif.Spec.Push
import Verif.Spec.Macro
import Verif.Model.MacroGen

/-! # Specification: execution of a script with named stack items

A script of the macro is run by the script machine of `Spec/Vm.lean`, with a name (or none) attached to
every item. Names are given to items where they are written down (inputs, `let` of a push, output names
of an operation); operations that move or copy items move or copy the names; all other results are
unnamed. Names written as arguments of an operation are assertions about the items it finds: if one is
wrong, the outcome is `mismatch`. -/

namespace BCash.Spec.Named
open BCash.Macro BCash.Spec

/-- A stack item with its name. -/
structure LItem where
  value : Bytes
  name : Option String
deriving DecidableEq

/-- The stacks, top first. -/
structure LState where
  stack : List LItem
  alt : List LItem
deriving DecidableEq

/-- The machine state without the names. -/
def LState.erase (s : LState) : Vm.State := ⟨s.stack.map LItem.value, s.alt.map LItem.value⟩

inductive Outcome where
  /-- the script fails -/
  | fail
  /-- a written name is wrong -/
  | mismatch
  /-- a branch is taken that the variant does not allow for, or that leaves other names than the other branch it
  allows -/
  | undecided
  | ok (s : LState)
deriving DecidableEq

def Outcome.andThen (r : Outcome) (f : LState → Outcome) : Outcome :=
  match r with
  | .ok s => f s
  | r => r

/-- How many items an operation takes, and for each item it leaves (deepest first) the taken item
(counted from the deepest) it is, if it is one of them. -/
def flow : Opcode → Nat × List (Option Nat)
  -- moving and copying
  | .OP_2DROP => (2, [])
  | .OP_2DUP => (2, [some 0, some 1, some 0, some 1])
  | .OP_3DUP => (3, [some 0, some 1, some 2, some 0, some 1, some 2])
  | .OP_2OVER => (4, [some 0, some 1, some 2, some 3, some 0, some 1])
  | .OP_2ROT => (6, [some 2, some 3, some 4, some 5, some 0, some 1])
  | .OP_2SWAP => (4, [some 2, some 3, some 0, some 1])
  | .OP_DROP => (1, [])
  | .OP_DUP => (1, [some 0, some 0])
  | .OP_NIP => (2, [some 1])
  | .OP_OVER => (2, [some 0, some 1, some 0])
  | .OP_ROT => (3, [some 1, some 2, some 0])
  | .OP_SWAP => (2, [some 1, some 0])
  | .OP_TUCK => (2, [some 1, some 0, some 1])
  -- keeping the operand
  | .OP_SIZE => (1, [some 0, none])
  | .OP_CHECKLOCKTIMEVERIFY | .OP_CHECKSEQUENCEVERIFY => (1, [some 0])
  -- new results
  | .OP_0 | .OP_1NEGATE | .OP_1 | .OP_2 | .OP_3 | .OP_4 | .OP_5 | .OP_6 | .OP_7 | .OP_8 | .OP_9
  | .OP_10 | .OP_11 | .OP_12 | .OP_13 | .OP_14 | .OP_15 | .OP_16 | .OP_DEPTH => (0, [none])
  | .OP_IF | .OP_NOTIF | .OP_VERIFY => (1, [])
  | .OP_BIN2NUM | .OP_1ADD | .OP_1SUB | .OP_NEGATE | .OP_ABS | .OP_NOT | .OP_0NOTEQUAL
  | .OP_RIPEMD160 | .OP_SHA1 | .OP_SHA256 | .OP_HASH160 | .OP_HASH256 | .OP_REVERSEBYTES => (1, [none])
  | .OP_EQUALVERIFY | .OP_NUMEQUALVERIFY | .OP_CHECKSIGVERIFY => (2, [])
  | .OP_CAT | .OP_NUM2BIN | .OP_AND | .OP_OR | .OP_XOR | .OP_EQUAL | .OP_ADD | .OP_SUB | .OP_DIV
  | .OP_MOD | .OP_BOOLAND | .OP_BOOLOR | .OP_NUMEQUAL | .OP_NUMNOTEQUAL | .OP_LESSTHAN
  | .OP_GREATERTHAN | .OP_LESSTHANOREQUAL | .OP_GREATERTHANOREQUAL | .OP_MIN | .OP_MAX
  | .OP_CHECKSIG => (2, [none])
  | .OP_SPLIT => (2, [none, none])
  | .OP_CHECKDATASIGVERIFY => (3, [])
  | .OP_WITHIN | .OP_CHECKDATASIG => (3, [none])
  | _ => (0, [])

/-- Whether a written argument is right about an item: `__` and expressions assert nothing. -/
def argOk (arg : OpcodeInput) (name : Option String) : Bool :=
  match arg with
  | .ident x => x == "__" || name == some x
  | .expr _ _ => true

/-- Written arguments against the names of the taken items (deepest first). -/
def argsOk (args : Option (List OpcodeInput)) (names : List (Option String)) : Bool :=
  match args with
  | none => true
  | some args => args.length == names.length && (args.zip names).all fun (a, n) => argOk a n

/-- The single argument of an operation for which `__` has no special meaning. -/
def nameIs (args : Option (List OpcodeInput)) (name : Option String) : Bool :=
  match args with
  | none => true
  | some [a] => name == some a.toString
  | some _ => false

/-- Names given to results: written ones, except that `__` leaves the name an item has. -/
def rename (written : Option (List String)) (names : List (Option String)) :
    Option (List (Option String)) :=
  match written with
  | none => some names
  | some ws =>
    if ws.length = names.length then some (List.zipWith (fun w n => if w = "__" then n else some w) ws names)
    else none

/-- The same for a single result of an operation for which `__` has no special meaning. -/
def renameOne (written : Option (List String)) (name : Option String) : Option (Option String) :=
  match written with
  | none => some name
  | some [w] => some (some w)
  | some _ => none

/-- An operation that takes and leaves items of the main stack as described by `flow`. -/
def ordinary (env : Vm.Env) (o : Opcode) (stmt : OpcodeStmt) (s : LState) : Outcome :=
  let (n, out) := flow o
  let taken := (s.stack.take n).reverse
  let names := out.map fun i => i.bind fun i => (taken[i]?).bind LItem.name
  if s.stack.length < n then .fail
  else if !argsOk stmt.inputNames (taken.map LItem.name) then .mismatch
  else match rename stmt.outputNames names with
    | none => .mismatch
    | some names =>
      match Vm.main env o.toByte (s.stack.map LItem.value) with
      | none => .fail
      | some st => .ok ⟨List.zipWith LItem.mk st names.reverse ++ s.stack.drop n, s.alt⟩

/-- OP_PICK and OP_ROLL: the item at the depth found on the stack at run time. -/
def pickRoll (isRoll : Bool) (stmt : OpcodeStmt) (s : LState) : Outcome :=
  match s.stack with
  | [] => .fail
  | top :: st =>
    if !nameIs stmt.inputNames top.name then .mismatch
    else match Vm.num? 4 top.value with
      | none => .fail
      | some n =>
        if n < 0 then .fail
        else match st[n.toNat]? with
          | none => .fail
          | some item =>
            match renameOne stmt.outputNames item.name with
            | none => .mismatch
            | some name => .ok ⟨⟨item.value, name⟩ :: (if isRoll then st.eraseIdx n.toNat else st), s.alt⟩

/-- `depth_of(x)`, `depth_of_offset(x, offset)`: pushes how many items lie above the topmost item named
`x`, plus the offset. -/
def depthOf (x : String) (offset : Int) (stmt : OpcodeStmt) (s : LState) : Outcome :=
  match s.stack.findIdx? fun i => i.name == some x with
  | none => .mismatch
  | some d =>
    match renameOne stmt.outputNames none with
    | none => .mismatch
    | some name => .ok ⟨⟨Vm.numBytes (d + offset), name⟩ :: s.stack, s.alt⟩

/-- A statement other than a conditional. -/
def leaf (env : Vm.Env) (l : Leaf) (s : LState) : Outcome :=
  match l with
  | .push op name =>
    match Vm.item op with
    | some d => .ok ⟨⟨d, name⟩ :: s.stack, s.alt⟩
    | none => .mismatch
  | .opcode stmt =>
    match stmt.head, stmt.inputNames with
    | .op .OP_TOALTSTACK, _ =>
      match s.stack with
      | [] => .fail
      | top :: st =>
        if !nameIs stmt.inputNames top.name then .mismatch
        else match renameOne stmt.outputNames top.name with
          | none => .mismatch
          | some name => .ok ⟨st, ⟨top.value, name⟩ :: s.alt⟩
    | .op .OP_FROMALTSTACK, _ =>
      match s.alt with
      | [] => .fail
      | top :: alt =>
        if !nameIs stmt.inputNames top.name then .mismatch
        else match renameOne stmt.outputNames top.name with
          | none => .mismatch
          | some name => .ok ⟨⟨top.value, name⟩ :: s.stack, alt⟩
    | .op .OP_PICK, _ => pickRoll false stmt s
    | .op .OP_ROLL, _ => pickRoll true stmt s
    | .op o, _ => ordinary env o stmt s
    | .depthOf, some [.ident x] => depthOf x 0 stmt s
    | .depthOfOffset, some [.ident x, .expr _ offset] => depthOf x offset stmt s
    | .transmute, some [.ident x, _] =>
      if s.stack.any fun i => i.name == some x then .ok s else .mismatch
    | _, _ => .mismatch
  | _ => .mismatch

/-- Runs a script with names: conditionals take the branch selected by the item on the stack, whose name
is asserted by the argument of OP_IF. -/
def exec (env : Vm.Env) : Prog → LState → Outcome
  | .nil, s => .ok s
  | .leaf l rest, s => (leaf env l s).andThen (exec env rest)
  | .scriptIf ifOp thenStmts _ elseStmts _ rest, s =>
    match ifOp.inputNames, s.stack with
    | some [.ident x], top :: st =>
      if !argOk (.ident x) top.name then .mismatch
      else
        (if Vm.truthy top.value then exec env thenStmts ⟨st, s.alt⟩
          else exec env elseStmts ⟨st, s.alt⟩).andThen (exec env rest)
    | _, [] => .fail
    | _, _ => .mismatch

/-- The bytes of a script do, from the stacks without names, what the written script does with names; no
written name is wrong. -/
def Faithful (env : Vm.Env) (p : Prog) (s : LState) (script : Bytes) : Prop :=
  match exec env p s with
  | .ok s' => Vm.Runs env script s.erase (some s'.erase)
  | .fail => Vm.Runs env script s.erase none
  | _ => False

/-! ### The names a piece of a script leaves -/

/-- The names of the items, top first. -/
structure Names where
  stack : List (Option String)
  alt : List (Option String)
deriving DecidableEq

def LState.names (s : LState) : Names := ⟨s.stack.map LItem.name, s.alt.map LItem.name⟩

def ordinaryNames (o : Opcode) (stmt : OpcodeStmt) (s : Names) : Option Names :=
  let (n, out) := flow o
  let taken := (s.stack.take n).reverse
  if s.stack.length < n then none
  else (rename stmt.outputNames (out.map fun i => i.bind fun i => (taken[i]?).join)).map fun names =>
    ⟨names.reverse ++ s.stack.drop n, s.alt⟩

def pickRollNames (isRoll : Bool) (depth : Option Nat) (stmt : OpcodeStmt) (s : Names) : Option Names :=
  match depth, s.stack with
  | some k, _ :: st => (st[k]?).bind fun name => (renameOne stmt.outputNames name).map fun name =>
      ⟨name :: (if isRoll then st.eraseIdx k else st), s.alt⟩
  | _, _ => none

/-- The names after a statement that succeeds; `depth` is the number on top, if a `depth_of` has just put it
there. -/
def leafNames (depth : Option Nat) (l : Leaf) (s : Names) : Option Names :=
  match l with
  | .push _ name => some ⟨name :: s.stack, s.alt⟩
  | .opcode stmt =>
    match stmt.head with
    | .op .OP_TOALTSTACK =>
      match s.stack with
      | [] => none
      | top :: st => (renameOne stmt.outputNames top).map fun n => ⟨st, n :: s.alt⟩
    | .op .OP_FROMALTSTACK =>
      match s.alt with
      | [] => none
      | top :: alt => (renameOne stmt.outputNames top).map fun n => ⟨n :: s.stack, alt⟩
    | .op .OP_PICK => pickRollNames false depth stmt s
    | .op .OP_ROLL => pickRollNames true depth stmt s
    | .op o => ordinaryNames o stmt s
    | .depthOf | .depthOfOffset => (renameOne stmt.outputNames none).map fun n => ⟨n :: s.stack, s.alt⟩
    | .transmute => some s
    | .unknown _ => none
  | _ => none

/-- The number a `depth_of` leaves on top. -/
def depthLeft (l : Leaf) (s : Names) : Option Nat :=
  match l with
  | .opcode ⟨.depthOf, some [.ident x], _⟩ => s.stack.findIdx? (· == some x)
  | _ => none

/-- The names left by every successful run of a variant with the given condition; none if they depend on the branches
taken. -/
def namesAfter (condition : Predicate) :
    Prog → (known : List Atom) → (depth : Option Nat) → Names → Option Names
  | .nil, _, _, s => some s
  | .leaf l rest, known, depth, s => (leafNames depth l s).bind (namesAfter condition rest known (depthLeft l s))
  | .scriptIf ifOp thenStmts _ elseStmts _ rest, known, _, s =>
    match ifOp.inputNames, s.stack with
    | some [.ident x], _ :: st =>
      let first := namesAfter condition thenStmts (known ++ [⟨x, true⟩]) none ⟨st, s.alt⟩
      let second := namesAfter condition elseStmts (known ++ [⟨x, false⟩]) none ⟨st, s.alt⟩
      let merged := match condition.holds (known ++ [Atom.mk x true]), condition.holds (known ++ [Atom.mk x false]) with
        | true, false => first
        | false, true => second
        | true, true => if first = second then second else none
        | false, false => none
      merged.bind (namesAfter condition rest known none)
    | _, _ => none

/-- The same as `exec`, for inputs of a variant with the given condition; `known` are the branches taken
around the current statement. `undecided`: a branch is taken that the condition
does not allow, or a first branch is taken although the condition also allows the second, which does not leave the
same names. -/
def run (env : Vm.Env) (condition : Predicate) : Prog → (known : List Atom) → LState → Outcome
  | .nil, _, s => .ok s
  | .leaf l rest, known, s => (leaf env l s).andThen (run env condition rest known)
  | .scriptIf ifOp thenStmts _ elseStmts _ rest, known, s =>
    match ifOp.inputNames, s.stack with
    | some [.ident x], top :: st =>
      if !argOk (.ident x) top.name then .mismatch
      else
        let taken := Vm.truthy top.value
        if !condition.holds (known ++ [⟨x, taken⟩]) then .undecided
        else if taken then
          (run env condition thenStmts (known ++ [⟨x, true⟩]) ⟨st, s.alt⟩).andThen fun s' =>
            if condition.holds (known ++ [⟨x, false⟩]) &&
                namesAfter condition elseStmts (known ++ [⟨x, false⟩]) none (LState.names ⟨st, s.alt⟩) != some s'.names then
              .undecided
            else run env condition rest known s'
        else
          (run env condition elseStmts (known ++ [⟨x, false⟩]) ⟨st, s.alt⟩).andThen
            (run env condition rest known)
    | _, [] => .fail
    | _, _ => .mismatch

/-! ## What a script must keep to for its names to be tracked faithfully

Each restriction is needed: see the `_fails` theorems beside `C60`. -/

/-- Names with this prefix are used by the macro for unnamed items. -/
def reserved (x : String) : Bool := "__id_".toList.isPrefixOf x.toList

/-- The names a statement writes. -/
def writtenNames (stmt : OpcodeStmt) : List String :=
  (stmt.inputNames.getD []).map OpcodeInput.toString ++ stmt.outputNames.getD []

/-- A single statement. `afterDepthOf`: the statement before it is a `depth_of`. -/
def stmtOk (afterDepthOf : Bool) (stmt : OpcodeStmt) : Bool :=
  (writtenNames stmt).all (fun x => !reserved x) &&
  match stmt.head with
  | .op .OP_PICK | .op .OP_ROLL => afterDepthOf
  | .op .OP_SIZE => match stmt.outputNames with
    | some [_, x] => x != "__"
    | _ => false
  | .op .OP_TOALTSTACK | .op .OP_FROMALTSTACK => stmt.outputNames.isNone || stmt.inputNames.isSome
  | .depthOf | .depthOfOffset => match stmt.outputNames with
    | none | some [_] => true
    | _ => false
  | _ => true

/-- Whether a statement is a `depth_of` (without offset). -/
def isDepthOf : Leaf → Bool
  | .opcode ⟨.depthOf, _, _⟩ => true
  | _ => false

/-- A pushed value is a byte string below 4 GiB, a truth value or a script integer. -/
def pushOk : Op Bytes → Bool
  | .pushByteArray d _ => d.length < 2 ^ 32
  | .pushBoolean _ => true
  | .pushInteger i => -2 ^ 31 < i && i < 2 ^ 31
  | _ => false

/-- A statement other than a conditional. -/
def leafOk (afterDepthOf : Bool) : Leaf → Bool
  | .push op name => pushOk op && name.all fun x => !reserved x
  | .opcode stmt => stmtOk afterDepthOf stmt
  | _ => true

def progOk (afterDepthOf : Bool) : Prog → Bool
  | .nil => true
  | .leaf l rest =>
    leafOk afterDepthOf l && progOk (isDepthOf l) rest
  | .scriptIf i t _ el _ rest =>
    stmtOk false i && progOk false t && progOk false el && progOk false rest

/-! ## Inputs -/

/-- An execution takes only branches that the condition allows. -/
def Obeys (env : Vm.Env) (condition : Predicate) : Prog → (known : List Atom) → LState → Prop
  | .nil, _, _ => True
  | .leaf l rest, known, s => ∀ s', leaf env l s = .ok s' → Obeys env condition rest known s'
  | .scriptIf ifOp thenStmts _ elseStmts _ rest, known, s =>
    ∀ x top st, ifOp.inputNames = some [.ident x] → s.stack = top :: st → argOk (.ident x) top.name = true →
      condition.holds (known ++ [⟨x, Vm.truthy top.value⟩]) = true ∧
      if Vm.truthy top.value then
        Obeys env condition thenStmts (known ++ [⟨x, true⟩]) ⟨st, s.alt⟩ ∧
          ∀ s', exec env thenStmts ⟨st, s.alt⟩ = .ok s' → Obeys env condition rest known s'
      else
        Obeys env condition elseStmts (known ++ [⟨x, false⟩]) ⟨st, s.alt⟩ ∧
          ∀ s', exec env elseStmts ⟨st, s.alt⟩ = .ok s' → Obeys env condition rest known s'

/-- The inputs of a variant in the order in which they are declared: those for all variants and those
that list it. -/
def inputsOf (d : Decl) (v : String) : List String :=
  (d.inputs.filter fun i => i.variants.all fun vs => vs.contains v).map Input.name

/-- The variants with their conditions; a script without variants has the one given by its input struct,
under no condition. -/
def variantsOf (d : Decl) : List (String × Predicate) :=
  if d.variants = [] then [(d.inputStruct, [])] else d.variants

/-- A declaration `rustc` accepts (no variant or field twice) with unreserved names. In a script without
variants no input may list variants. -/
def declOk (d : Decl) : Prop :=
  (d.variants.map Prod.fst).Nodup ∧ (∀ i ∈ d.inputs, reserved i.name = false) ∧
  (∀ i ∈ d.inputs, ∀ vs, i.variants = some vs → vs.Nodup ∧ (d.variants = [] → False))

/-- The stacks after the inputs have been pushed in order. -/
def start (names : List String) (values : List Bytes) : LState :=
  ⟨(List.zipWith (fun x n => ⟨x, some n⟩) values names).reverse, []⟩

/-- For a variant with the given condition the names of the items never depend on branches already left: wherever the
condition allows both branches of a conditional, they leave items of the same names. -/
def Balanced (d : Decl) (v : String) (condition : Predicate) (p : Prog) : Prop :=
  (namesAfter condition p [] none ⟨((inputsOf d v).map some).reverse, []⟩).isSome = true

instance (d : Decl) (v : String) (condition : Predicate) (p : Prog) : Decidable (Balanced d v condition p) := by
  unfold Balanced; infer_instance

/-! ## Field values and the condition of a variant -/

/-- Whether result number `i` of a statement is an item it finds under the name `x`. -/
def finds (x : String) (head : Head) (args : Option (List OpcodeInput)) (i : Nat) : Bool :=
  match head, args with
  | .op .OP_TOALTSTACK, some [a] | .op .OP_FROMALTSTACK, some [a] => a.toString == x
  | .op o, some as =>
    match (flow o).2[i]? with
    | some (some j) => match as[j]? with
      | some (.ident y) => y == x
      | _ => false
    | _ => false
  | _, _ => false

/-- Whether a statement gives the name `x` to an item that is not known to have it already. -/
def leafGives (x : String) : Leaf → Bool
  | .push _ name => name == some x
  | .opcode ⟨head, args, some outs⟩ => outs.zipIdx.any fun (w, i) => w == x && !finds x head args i
  | _ => false

def gives (x : String) : Prog → Bool
  | .nil => false
  | .leaf l rest => leafGives x l || gives x rest
  | .scriptIf _ thenStmts _ elseStmts _ rest => gives x thenStmts || gives x elseStmts || gives x rest

/-- The names in the condition of a variant are names of its fields only: no statement gives one of them to another
item. -/
def stable (condition : Predicate) (p : Prog) : Bool :=
  condition.all fun c => c.all fun a => a.varName != "__" && !gives a.varName p

/-- The values of the fields make the condition of the variant true. -/
def Satisfied (condition : Predicate) (names : List String) (values : List Bytes) : Prop :=
  condition = [] ∨ ∃ c ∈ condition, ∀ a ∈ c, ∀ field ∈ names.zip values, field.1 = a.varName →
    Vm.truthy field.2 = a.isPositive

end BCash.Spec.Named
