import Verif.Proofs.CodecP

/-! # C74: names and provenance never influence what is serialised or how bytes are read

The types that can be serialised are built from integers, booleans, arrays, fixed-size arrays (hashes) and
scripts with vectors and derived structs; `CodeTy` ranges over all of them. -/

namespace BCash
open Spec

/-! ## Specification -/

mutual
/-- Spec: the types with a consensus serialisation. -/
inductive Spec.CodeTy : Type 1
  /-- an integer of `k` bytes -/
  | int (k : Nat)
  | bool
  /-- `ByteArray` -/
  | bytes
  /-- `FixedByteArray<[u8; n]>` and the hash types -/
  | fixed (n : Nat)
  | script
  /-- `Vec<T>`; `size` is the memory size of `T` -/
  | vec (size : Nat) (t : CodeTy)
  /-- a struct with `#[derive(BitcoinCode)]` -/
  | struct (fs : FieldTys)
/-- Spec: the fields of a struct with a derived serialisation. -/
inductive Spec.FieldTys : Type 1
  | nil
  | field (name : String) (t : CodeTy) (fs : FieldTys)
  /-- a field marked `#[bitcoin_code(skip)]` -/
  | skip (α : Type) (default : α) (fs : FieldTys)
end

mutual
/-- Spec: the values of a type, with names and provenance. -/
def Spec.CodeTy.Val : CodeTy → Type
  | .int k => BitVec (8 * k)
  | .bool => Bool
  | .bytes => ByteArray
  | .fixed n => FixedP n
  | .script => ScriptP
  | .vec _ t => List t.Val
  | .struct fs => fs.Val
def Spec.FieldTys.Val : FieldTys → Type
  | .nil => Unit
  | .field _ t fs => t.Val × fs.Val
  | .skip α _ fs => α × fs.Val
end

mutual
/-- The implementation of the serialisation of a type. -/
def Spec.CodeTy.codec (opName : Opcode → String) : (t : CodeTy) → CodecP t.Val
  | .int k => CodecP.int k
  | .bool => CodecP.bool
  | .bytes => CodecP.bytes
  | .fixed n => CodecP.fixed n
  | .script => CodecP.script opName
  | .vec size t => CodecP.vec size (t.codec opName)
  | .struct fs => CodecP.struct (fs.codec opName)
def Spec.FieldTys.codec (opName : Opcode → String) : (fs : FieldTys) → CodecP.Fields fs.Val
  | .nil => CodecP.Fields.nil
  | .field name t fs => CodecP.Fields.field name (t.codec opName) (fs.codec opName)
  | .skip _ default fs => CodecP.Fields.skip default (fs.codec opName)
end

/-- Spec: two lists of the same length with related elements. -/
def Spec.Each {α β : Type} (R : α → β → Prop) : List α → List β → Prop
  | [], [] => True
  | a :: as, b :: bs => R a b ∧ Each R as bs
  | _, _ => False

mutual
/-- Spec: the same value up to names and provenance of the arrays in it (and up to the skipped fields, which
are not written). -/
def Spec.CodeTy.Same : (t : CodeTy) → t.Val → t.Val → Prop
  | .int _ => fun (a b : BitVec _) => a = b
  | .bool => fun (a b : Bool) => a = b
  | .bytes => fun (a b : ByteArray) => a.data = b.data
  | .fixed n => fun (a b : FixedP n) => a.1.data = b.1.data
  | .script => fun (a b : ScriptP) => a.map (Op.map ByteArray.data) = b.map (Op.map ByteArray.data)
  | .vec _ t => Each t.Same
  | .struct fs => fs.Same
def Spec.FieldTys.Same : (fs : FieldTys) → fs.Val → fs.Val → Prop
  | .nil => fun _ _ => True
  | .field _ t fs => fun (a b : t.Val × fs.Val) => t.Same a.1 b.1 ∧ fs.Same a.2 b.2
  | .skip α _ fs => fun (a b : α × fs.Val) => fs.Same a.2 b.2
end

/-! ## Proof -/

theorem each_iff {α β : Type} (e : α → β) (R : α → α → Prop) (h : ∀ a b, R a b ↔ e a = e b) :
    ∀ xs ys, Each R xs ys ↔ xs.map e = ys.map e
  | [], [] => by simp [Each]
  | [], _ :: _ => by simp [Each]
  | _ :: _, [] => by simp [Each]
  | x :: xs, y :: ys => by simp [Each, h, each_iff e R h xs ys]

mutual
theorem codeTy_refines (opName : Opcode → String) : (t : CodeTy) →
    ∃ (β : Type) (c : Codec β) (e : t.Val → β), Refines (t.codec opName) c e ∧
      ∀ v w, t.Same v w ↔ e v = e w
  | .int k => ⟨_, _, _, by unfold CodeTy.codec; exact Refines.int k, by intro v w; unfold CodeTy.Same; rfl⟩
  | .bool => ⟨_, _, _, by unfold CodeTy.codec; exact Refines.bool, by intro v w; unfold CodeTy.Same; rfl⟩
  | .bytes => ⟨_, _, _, by unfold CodeTy.codec; exact Refines.bytes, by intro v w; unfold CodeTy.Same; rfl⟩
  | .fixed n => ⟨_, _, _, by unfold CodeTy.codec; exact Refines.fixed n, by
      intro v w; unfold CodeTy.Same; exact Subtype.mk_eq_mk.symm⟩
  | .script => ⟨_, _, _, by unfold CodeTy.codec; exact Refines.script opName, by
      intro v w; unfold CodeTy.Same; rfl⟩
  | .vec size t => by
    obtain ⟨β, c, e, h1, h2⟩ := codeTy_refines opName t
    refine ⟨_, _, List.map e, by unfold CodeTy.codec; exact h1.vec size, ?_⟩
    intro v w; unfold CodeTy.Same; exact each_iff e _ h2 v w
  | .struct fs => by
    obtain ⟨β, c, e, h1, h2⟩ := fieldTys_refines opName fs
    refine ⟨β, c, e, by unfold CodeTy.codec; exact Refines.struct h1, ?_⟩
    intro v w; unfold CodeTy.Same; exact h2 v w
theorem fieldTys_refines (opName : Opcode → String) : (fs : FieldTys) →
    ∃ (β : Type) (c : Codec β) (e : fs.Val → β), RefinesFields (fs.codec opName) c e ∧
      ∀ v w, fs.Same v w ↔ e v = e w
  | .nil => ⟨Unit, _, _, by unfold FieldTys.codec; exact RefinesFields.nil, by
      intro v w; unfold FieldTys.Same; exact ⟨fun _ => rfl, fun _ => trivial⟩⟩
  | .field name t fs => by
    obtain ⟨β, c, e, h1, h2⟩ := codeTy_refines opName t
    obtain ⟨β', c', e', h1', h2'⟩ := fieldTys_refines opName fs
    refine ⟨_, _, _, by unfold FieldTys.codec; exact RefinesFields.field name h1 h1', ?_⟩
    intro v w; unfold FieldTys.Same; exact (and_congr (h2 _ _) (h2' _ _)).trans (by rw [Prod.mk.injEq])
  | .skip α d fs => by
    obtain ⟨β, c, e, h1, h2⟩ := fieldTys_refines opName fs
    refine ⟨_, _, _, by unfold FieldTys.codec; exact RefinesFields.skip d h1, ?_⟩
    intro v w; unfold FieldTys.Same; exact h2 _ _
end

/-! ## C74 -/

/-- **C74** (writing): values that differ only in names and provenance serialise to the same bytes (or both
panic). -/
theorem C74_writing (opName : Opcode → String) (t : CodeTy) (v w : t.Val) (h : t.Same v w) :
    ((t.codec opName).ser v).map ByteArray.data = ((t.codec opName).ser w).map ByteArray.data := by
  obtain ⟨β, c, e, h1, h2⟩ := codeTy_refines opName t
  rw [h1.ser, h1.ser, (h2 v w).mp h]

/-- **C74** (reading): arrays with the same bytes are read in the same way whatever their names and
provenance: both reads succeed with values that differ at most in names and provenance, or both fail with the
same error, or both panic; and so do the reads of a prefix, with the same bytes left. -/
theorem C74_reading (opName : Opcode → String) (t : CodeTy) (a b : ByteArray) (h : a.data = b.data) :
    Agree t.Same ((t.codec opName).deser a) ((t.codec opName).deser b) ∧
    Agree (fun x y => t.Same x.1 y.1 ∧ x.2.data = y.2.data)
      ((t.codec opName).deserRest a) ((t.codec opName).deserRest b) := by
  obtain ⟨β, c, e, h1, h2⟩ := codeTy_refines opName t
  have hr : Agree (fun x y => t.Same x.1 y.1 ∧ x.2.data = y.2.data)
      ((t.codec opName).deserRest a) ((t.codec opName).deserRest b) := by
    refine (h1.deser a).join (by rw [h]; exact h1.deser b) ?_
    rintro x y z ⟨g1, g2⟩ ⟨g3, g4⟩
    exact ⟨(h2 _ _).mpr (by rw [g1, g3]), by rw [g2, g4]⟩
  refine ⟨?_, hr⟩
  unfold CodecP.deser
  refine hr.bind ?_
  rintro ⟨v, r⟩ ⟨w, r'⟩ ⟨g1, g2⟩
  dsimp only at g1 g2 ⊢
  rw [g2]
  split
  · exact .err _
  · exact .ok g1

/-- **C74** (contents): every theorem about the serialisation of the contents (`Model/Codec.lean`, `Model/Tx.lean`)
speaks about the functions on arrays with names and provenance: they write the same bytes and read the same
values, errors, panics and leftover bytes. -/
theorem C74_contents (opName : Opcode → String) (sz : Layout) :
    (∀ v, ((CodecP.txOutpoint.ser v).map ByteArray.data) = Codec.txOutpoint.ser v.erase) ∧
    (∀ v, ((CodecP.txInput opName).ser v).map ByteArray.data = Codec.txInput.ser v.erase) ∧
    (∀ v, ((CodecP.txOutput opName).ser v).map ByteArray.data = Codec.txOutput.ser v.erase) ∧
    (∀ v, ((CodecP.unhashedTx opName sz).ser v).map ByteArray.data = (Codec.unhashedTx sz).ser v.erase) ∧
    (∀ v, ((CodecP.txPreimage opName).ser v).map ByteArray.data = Codec.txPreimage.ser v.erase) ∧
    (∀ v, (CodecP.tx.ser v).map ByteArray.data = Codec.tx.ser v.erase) ∧
    (∀ b, Agree (fun x y => x.1.erase = y.1 ∧ x.2.data = y.2) (CodecP.txOutpoint.deserRest b)
      (Codec.txOutpoint.deserRest b.data)) ∧
    (∀ b, Agree (fun x y => x.1.erase = y.1 ∧ x.2.data = y.2) ((CodecP.txInput opName).deserRest b)
      (Codec.txInput.deserRest b.data)) ∧
    (∀ b, Agree (fun x y => x.1.erase = y.1 ∧ x.2.data = y.2) ((CodecP.txOutput opName).deserRest b)
      (Codec.txOutput.deserRest b.data)) ∧
    (∀ b, Agree (fun x y => x.1.erase = y.1 ∧ x.2.data = y.2) ((CodecP.unhashedTx opName sz).deserRest b)
      ((Codec.unhashedTx sz).deserRest b.data)) ∧
    (∀ b, Agree (fun x y => x.1.erase = y.1 ∧ x.2.data = y.2) ((CodecP.txPreimage opName).deserRest b)
      (Codec.txPreimage.deserRest b.data)) ∧
    (∀ b, Agree (fun x y => x.1.erase = y.1 ∧ x.2.data = y.2) (CodecP.tx.deserRest b)
      (Codec.tx.deserRest b.data)) :=
  ⟨Refines.txOutpoint.ser, (Refines.txInput opName).ser, (Refines.txOutput opName).ser,
    (Refines.unhashedTx opName sz).ser, (Refines.txPreimage opName).ser, Refines.tx.ser,
    Refines.txOutpoint.deser, (Refines.txInput opName).deser, (Refines.txOutput opName).deser,
    (Refines.unhashedTx opName sz).deser, (Refines.txPreimage opName).deser, Refines.tx.deser⟩

/-- Non-vacuity: a vector with a struct in it, once with a hash and once with raw bytes. -/
example : ∃ t : CodeTy, t = .vec 48 (.struct (.field "a" .bytes (.field "n" (.int 2) (.skip Nat 7 .nil)))) ∧
    ∃ (v w : t.Val), HEq v [((ByteArray.new "x" [1, 2]).applyFunction [3, 4] .sha256, (5#16, ((0 : Nat), ())))] ∧
    HEq w [(ByteArray.newUnnamed [3, 4], (5#16, ((1 : Nat), ())))] ∧ t.Same v w ∧
    ((t.codec fun _ => "op").ser v).map ByteArray.data = some [1, 2, 3, 4, 5, 0] ∧
    ∃ r, (t.codec fun _ => "op").deser (.new "all" [1, 2, 3, 4, 5, 0]) = .ok r ∧ t.Same r w := by
  refine ⟨_, rfl, ?_⟩
  refine ⟨([((ByteArray.new "x" [1, 2]).applyFunction [3, 4] .sha256, (5#16, (0, ())))] :
      List (ByteArray × BitVec 16 × Nat × Unit)),
    ([(ByteArray.newUnnamed [3, 4], (5#16, (1, ())))] : List (ByteArray × BitVec 16 × Nat × Unit)),
    .rfl, .rfl, ⟨⟨rfl, rfl, trivial⟩, trivial⟩, rfl, ?_⟩
  exact ⟨_, rfl, ⟨⟨rfl, rfl, trivial⟩, trivial⟩⟩

end BCash
