/-!
# Basic vocabulary of the model

Bytes, results with explicit panics, and little-endian integers
(Rust `to_le_bytes`/`from_le_bytes`, byteorder's `LittleEndian` readers and writers).
-/

namespace BCash

deriving instance DecidableEq for Except

/-- A byte string: Rust `Vec<u8>`, `&[u8]`, `Arc<[u8]>` (ownership erased). -/
abbrev Bytes := List UInt8

/-- Outcome of a Rust function returning `Result<α, ε>` which may also panic.
`panic` stands for every abort: `unwrap`/`expect` on an error, index out of bounds,
`copy_from_slice` length mismatch, arithmetic overflow (debug profile),
capacity overflow. -/
inductive Res (ε α : Type) where
  | ok (a : α)
  | err (e : ε)
  | panic
deriving DecidableEq, Repr

namespace Res
variable {ε α β : Type}

/-- Rust's `?` operator: errors and panics propagate. -/
def bind (x : Res ε α) (f : α → Res ε β) : Res ε β :=
  match x with
  | ok a => f a
  | err e => err e
  | panic => panic

def map (f : α → β) (x : Res ε α) : Res ε β :=
  match x with
  | ok a => ok (f a)
  | err e => err e
  | panic => panic

def mapErr {ε' : Type} (f : ε → ε') (x : Res ε α) : Res ε' α :=
  match x with
  | ok a => ok a
  | err e => err (f e)
  | panic => panic

/-- Rust's `unwrap`/`expect`: an error becomes a panic. -/
def unwrap {ε' : Type} (x : Res ε α) : Res ε' α :=
  match x with
  | ok a => ok a
  | err _ => panic
  | panic => panic

instance : Monad (Res ε) where
  pure := ok
  bind := bind

def isOk (x : Res ε α) : Bool :=
  match x with
  | ok _ => true
  | _ => false

@[simp] theorem bind_ok (a : α) (f : α → Res ε β) : (ok a).bind f = f a := rfl
@[simp] theorem bind_err (e : ε) (f : α → Res ε β) : (err e : Res ε α).bind f = err e := rfl
@[simp] theorem bind_panic (f : α → Res ε β) : (panic : Res ε α).bind f = panic := rfl
@[simp] theorem monad_bind (x : Res ε α) (f : α → Res ε β) : (x >>= f) = x.bind f := rfl
@[simp] theorem monad_pure (a : α) : (pure a : Res ε α) = ok a := rfl
@[simp] theorem map_ok (f : α → β) (a : α) : (ok a : Res ε α).map f = ok (f a) := rfl
@[simp] theorem map_err (f : α → β) (e : ε) : (err e : Res ε α).map f = err e := rfl
@[simp] theorem map_panic (f : α → β) : (panic : Res ε α).map f = panic := rfl

theorem bind_eq_ok {x : Res ε α} {f : α → Res ε β} {b : β} :
    x.bind f = ok b ↔ ∃ a, x = ok a ∧ f a = ok b := by
  cases x <;> simp

end Res

/-- The `k` low-order bytes of `n`, little endian.
Models `uN::to_le_bytes` and byteorder `write_uN::<LittleEndian>`. -/
def leBytes : Nat → Nat → Bytes
  | 0, _ => []
  | k + 1, n => UInt8.ofNat n :: leBytes k (n / 256)

/-- Little-endian value of a byte string.
Models `uN::from_le_bytes` and byteorder `read_uN::<LittleEndian>`. -/
def leVal : Bytes → Nat
  | [] => 0
  | b :: bs => b.toNat + 256 * leVal bs

end BCash
