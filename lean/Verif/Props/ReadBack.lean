import Verif.Proofs.Deep
import Verif.Props.CodecP
import Verif.Props.ScriptParts
import Verif.Props.Codec

/-! # C75: names and provenance of the arrays in a value survive serialising it and reading it back -/

namespace BCash
open Spec

/-! ## Specification -/

/-- Spec: the pieces of an array that hold bytes: raw bytes, hashes, signatures, ... from which it is joined. -/
def Spec.filled (b : ByteArray) : List ByteArray := (pieces b).filter fun p => !p.data.isEmpty

/-- Spec: an array under the name of the field it was written to, if any. -/
def Spec.renamed (ρ : Option String) (b : ByteArray) : ByteArray :=
  match ρ with
  | some name => b.named name
  | none => b

/-- Spec: the number of fields of a struct that are written. -/
def Spec.FieldTys.count : FieldTys → Nat
  | .nil => 0
  | .field _ _ fs => fs.count + 1
  | .skip _ _ fs => fs.count

/-- Spec: a script that can be written, with arrays whose recorded pieces join to their bytes. -/
def Spec.ScriptOk (s : ScriptP) : Prop :=
  (∀ op ∈ s, (op.map ByteArray.data).WellFormed) ∧ (∀ op ∈ s, ∀ a m, op = .pushByteArray a m → Whole a) ∧
  (∀ b, Script.serOps (s.map (Op.map ByteArray.data)) = some b → b.length < 2 ^ 64)

mutual
/-- Spec: the values that can be written and read back: lengths fit in the size prefix, vectors in memory. -/
def Spec.CodeTy.Ok : (t : CodeTy) → t.Val → Prop
  | .int _ => fun _ => True
  | .bool => fun _ => True
  | .bytes => fun (v : ByteArray) => Whole v ∧ v.data.length < 2 ^ 64
  | .fixed n => fun (v : FixedP n) => Whole v.1
  | .script => fun (s : ScriptP) => ScriptOk s
  | .vec size t => fun (vs : List t.Val) =>
      vs.length < 2 ^ 64 ∧ vs.length * size < 2 ^ 63 ∧ ∀ v ∈ vs, t.Ok v
  | .struct fs => fs.Ok
def Spec.FieldTys.Ok : (fs : FieldTys) → fs.Val → Prop
  | .nil => fun _ => True
  | .field _ t fs => fun (v : t.Val × fs.Val) => t.Ok v.1 ∧ fs.Ok v.2
  | .skip α _ fs => fun (v : α × fs.Val) => fs.Ok v.2
end

/-- Spec: the script read back has the same operations (in parsed form), and the pushed arrays have the same
pieces. -/
def Spec.ScriptKeeps (s s' : ScriptP) : Prop :=
  List.Forall₂ ParsedAs (s.map (Op.map ByteArray.data)) (s'.map (Op.map ByteArray.data)) ∧
  List.Forall₂ (fun op op' => ∀ a m a' m', op = .pushByteArray a m → op' = .pushByteArray a' m' →
    filled a' = filled a) s s'

mutual
/-- Spec: what is read back (`w`) for what was written (`v`) to a field named `ρ`: the same numbers; arrays with
the same pieces; a fixed-size array that is a single piece gets the name of the field; skipped fields get
their defaults. A struct with only one written field is written like that field. -/
def Spec.CodeTy.Keeps : (t : CodeTy) → Option String → t.Val → t.Val → Prop
  | .int _ => fun _ (v w : BitVec _) => w = v
  | .bool => fun _ (v w : Bool) => w = v
  | .bytes => fun _ (v w : ByteArray) => filled w = filled v
  | .fixed n => fun ρ (v w : FixedP n) => filled w.1 = filled (renamed ρ v.1)
  | .script => fun _ (v w : ScriptP) => ScriptKeeps v w
  | .vec _ t => fun _ (v w : List t.Val) => List.Forall₂ (t.Keeps none) v w
  | .struct fs => fun ρ v w => fs.Keeps (if fs.count = 1 then ρ else none) v w
def Spec.FieldTys.Keeps : (fs : FieldTys) → Option String → fs.Val → fs.Val → Prop
  | .nil => fun _ _ _ => True
  | .field name t fs => fun ρ (v w : t.Val × fs.Val) =>
      t.Keeps (some (ρ.getD name)) v.1 w.1 ∧ fs.Keeps ρ v.2 w.2
  | .skip α default fs => fun ρ (v w : α × fs.Val) => w.1 = default ∧ fs.Keeps ρ v.2 w.2
end

mutual
/-- Spec: the pieces of a written value. -/
def Spec.CodeTy.Writes (opName : Opcode → String) : (t : CodeTy) → Option String → t.Val → List ByteArray → Prop
  | .int k => fun ρ (v : BitVec (8 * k)) ps =>
      ps = [.mk (leBytes k v.toNat) ρ .plain none].filter fun p => !p.data.isEmpty
  | .bool => fun ρ (v : Bool) ps => ps = [.mk [if v then 1 else 0] ρ .plain none]
  | .bytes => fun _ (v : ByteArray) ps => ps = .new "size" (compactSize v.data.length) :: filled v
  | .fixed n => fun ρ (v : FixedP n) ps => ps = filled (renamed ρ v.1)
  | .script => fun _ (s : ScriptP) ps => ∃ pss : List (List ByteArray),
      List.Forall₂ (OpPieces opName) s pss ∧
      ps = .new "size" (compactSize (pss.flatten.map ByteArray.data).flatten.length) ::
        pss.flatten.filter fun p => !p.data.isEmpty
  | .vec _ t => fun _ (vs : List t.Val) ps => ∃ pss : List (List ByteArray),
      List.Forall₂ (t.Writes opName none) vs pss ∧
      ps = .new "size" (compactSize vs.length) :: pss.flatten
  | .struct fs => fun ρ v ps => fs.Writes opName (if fs.count = 1 then ρ else none) v ps
def Spec.FieldTys.Writes (opName : Opcode → String) :
    (fs : FieldTys) → Option String → fs.Val → List ByteArray → Prop
  | .nil => fun _ _ ps => ps = []
  | .field name t fs => fun ρ (v : t.Val × fs.Val) ps => ∃ ps1 ps2,
      t.Writes opName (some (ρ.getD name)) v.1 ps1 ∧ fs.Writes opName ρ v.2 ps2 ∧ ps = ps1 ++ ps2
  | .skip α _ fs => fun ρ (v : α × fs.Val) ps => fs.Writes opName ρ v.2 ps
end

/-! ## Reading sizes, arrays and scripts -/

theorem filled_eq (b : ByteArray) : filled b = solid b := rfl

theorem renamed_data (ρ : Option String) (b : ByteArray) : (renamed ρ b).data = b.data := by
  obtain ⟨d, n, f, p⟩ := b
  cases ρ <;> rfl

theorem Whole.renamed {b : ByteArray} (h : Whole b) (ρ : Option String) : Whole (renamed ρ b) := by
  cases ρ with
  | none => exact h
  | some n =>
    have := h.named (some n)
    obtain ⟨d, m, f, p⟩ := b
    exact this

theorem solid_renamed {b X} (h : J b X) (ρ : Option String) : solid (renamed ρ b) = X := by
  obtain ⟨d, n, ps, rfl, h1, h2, h3⟩ := h.cases
  cases ρ with
  | none => exact h.pieces
  | some m =>
    show ne (pieces (.mk d (some m) .plain (some ps))) = X
    rw [pieces_plain]; exact h3

theorem encodeVarInt_ne (n : UInt64) : encodeVarInt n ≠ [] := by
  unfold encodeVarInt
  dsimp only
  split
  · simp
  · split
    · simp
    · split <;> simp

/-- the size prefix -/
abbrev sizeLeaf (n : Nat) : ByteArray := .new "size" (encodeVarInt (UInt64.ofNat n))

theorem sizeLeaf_whole (n : Nat) : Whole (sizeLeaf n) := .leaf _ _

theorem solid_leaf (d : Bytes) (n : Option String) :
    solid (.mk d n .plain none) = ne [.mk d n .plain none] := by
  unfold solid
  rw [pieces_leaf]

theorem solid_leaf_full {d : Bytes} (hd : d ≠ []) (n : Option String) :
    solid (.mk d n .plain none) = [.mk d n .plain none] := by
  rw [solid_leaf, ne_cons_full (p := .mk d n .plain none) hd]; rfl

theorem sizeLeaf_solid (n : Nat) : solid (sizeLeaf n) = [sizeLeaf n] := solid_leaf_full (encodeVarInt_ne _) _

theorem read_size {b : ByteArray} {n : Nat} {Y : List ByteArray} (h : J b (sizeLeaf n :: Y)) (hn : n < 2 ^ 64) :
    ∃ r, readSizeP b = .ok (n, r) ∧ J r Y := by
  have hd := h.data
  rw [ByteArray.partsData_cons] at hd
  change b.data = encodeVarInt (UInt64.ofNat n) ++ _ at hd
  obtain ⟨l, r, h1, _, h3⟩ := J.splitAt (X := [sizeLeaf n]) (Y := Y) (by simpa using h)
    (k := (encodeVarInt (UInt64.ofNat n)).length) (by simp [sizeLeaf, ByteArray.new])
  refine ⟨r, ?_, h3⟩
  unfold readSizeP
  rw [hd, readVarInt_encode]
  simp only [Res.ofExcept_ok, Res.bind_ok]
  have : b.len - (ByteArray.partsData Y).length = (encodeVarInt (UInt64.ofNat n)).length := by
    unfold ByteArray.len; rw [hd]; simp
  rw [this, h1]
  simp only [Res.bind_ok]
  rw [UInt64.toNat_ofNat']
  have : n % 2 ^ 64 = n := Nat.mod_eq_of_lt hn
  rw [this]

theorem partsData_solid {b : ByteArray} (h : Whole b) : (ByteArray.partsData (solid b)).length = b.data.length := by
  rw [h.solid_data]

/-- size and array -/
theorem sized {v : ByteArray} (hv : Whole v) :
    J ((sizeLeaf v.len).concat v) (sizeLeaf v.len :: solid v) := by
  have := (sizeLeaf_whole v.len).concat hv none
  rwa [sizeLeaf_solid] at this

theorem read_bytes {b v : ByteArray} {Y : List ByteArray} (hv : Whole v) (hl : v.data.length < 2 ^ 64)
    (h : J b (sizeLeaf v.len :: (solid v ++ Y))) :
    ∃ w r, CodecP.bytes.deserRest b = .ok (w, r) ∧ J w (solid v) ∧ J r Y := by
  obtain ⟨r, h1, h2⟩ := read_size h hl
  obtain ⟨l, r', h3, h4, h5⟩ := h2.splitAt (partsData_solid hv)
  refine ⟨l, r', ?_, h4, h5⟩
  simp only [CodecP.bytes, h1, Res.bind_ok]
  exact h3

theorem Whole.partsJoin {a : ByteArray} (h : Whole a) : PartsJoin a := by
  intro hf ps hp
  cases h with
  | leaf d n => cases hp
  | other d n f p hf' => exact absurd hf hf'
  | parts d n ps' h1 h2 => cases hp; exact h2

/-- What a read operation keeps. -/
def KeepsFilled (op op' : Op ByteArray) : Prop :=
  ∀ a m a' m', op = .pushByteArray a m → op' = .pushByteArray a' m' → filled a' = filled a

/-- What one operation is written as: a byte, or a prefix and an array. -/
theorem Written.deep {op x t body} (hw : Written op x t body) (ha : ∀ a m, op = .pushByteArray a m → Whole a) :
    Whole x ∧ ∀ b Y, J b (solid x ++ Y) →
      ∃ op' r, deserializeOpBA b = .ok (op', r) ∧ KeepsFilled op op' ∧ J r Y ∧ b.data ≠ [] := by
  cases hw with
  | one n b hb =>
    refine ⟨.leaf _ _, ?_⟩
    intro c Y h
    rw [solid_leaf_full (by simp)] at h
    obtain ⟨r, h1, h2⟩ := J.reader.readOp (Y := Y) h hb
    refine ⟨_, r, h1, ?_, h2, by rw [h.data]; simp⟩
    intro a m a' m' _ e
    exfalso
    unfold codeOrInvalid at e
    split at e
    · cases e
    · split at e <;> cases e
  | push pre f a h1 h2 h3 h4 =>
    have hpre : pre ≠ [] := by
      rintro rfl
      have := congrArg List.length h3
      cases f <;> simp [Token.encode] at this <;> omega
    have hwa : Whole a := by
      rcases h1 with ⟨m, h1⟩ | ⟨_, v, _, h1⟩
      · exact ha a m h1
      · rw [h1]; exact .leaf _ _
    have hj := (Whole.leaf pre none).concat hwa none
    have hs := solid_leaf_full hpre none
    refine ⟨hj.whole, ?_⟩
    intro c Y h
    have he : solid ((ByteArray.newUnnamed pre).concat a) = .mk pre none .plain none :: solid a := by
      have := hj.pieces
      rw [hs] at this
      exact this
    rw [he] at h
    obtain ⟨a', m', r, g1, g2, g3⟩ := J.reader.readPush (Y := Y) h2 h (X := solid a) hwa.solid_data h3
    refine ⟨_, r, g1, ?_, g3, by rw [h.data]; simp [hpre]⟩
    intro b m b' m'' e e'
    cases e'
    have hab : b = a := by
      rcases h1 with ⟨_, h1⟩ | ⟨_, _, h1, _⟩
      · rw [h1] at e; cases e; rfl
      · rw [h1] at e; cases e
    rw [hab]
    exact g2.pieces

theorem AllWritten.deep {ops xs} (hw : AllWritten ops xs)
    (ha : ∀ op ∈ ops, ∀ a m, op = .pushByteArray a m → Whole a) :
    (∀ x ∈ xs, Whole x) ∧ ∀ (fuel : Nat) (b : ByteArray), J b (ne (piecesOf xs)) → ops.length ≤ fuel →
      ∃ ops', deserializeOpsBALoop fuel b = .ok ops' ∧ List.Forall₂ KeepsFilled ops ops' := by
  induction hw with
  | nil =>
    refine ⟨by simp, ?_⟩
    intro fuel b h _
    refine ⟨[], ?_, .nil⟩
    have : b.data = [] := h.data
    unfold deserializeOpsBALoop
    rw [if_pos (by simp [ByteArray.len, this])]
  | @cons op x t body ops xs hw _ ih =>
    obtain ⟨w1, w2⟩ := hw.deep (ha op (by simp))
    obtain ⟨i1, i2⟩ := ih (fun o ho => ha o (by simp [ho]))
    refine ⟨?_, ?_⟩
    · intro y hy
      rcases List.mem_cons.mp hy with rfl | hy
      · exact w1
      · exact i1 y hy
    · intro fuel b h hfuel
      rw [piecesOf, ne_append] at h
      obtain ⟨op', r, h1, h2, h3, hb⟩ := w2 b _ h
      cases fuel with
      | zero => simp at hfuel
      | succ fuel =>
        obtain ⟨ops', i1, i2⟩ := i2 fuel r h3 (by simpa using hfuel)
        refine ⟨op' :: ops', ?_, .cons h2 i2⟩
        unfold deserializeOpsBALoop
        rw [if_neg (by simpa [ByteArray.len] using hb)]
        simp only [h1, Res.bind_ok, i1]

theorem read_script (opName : Opcode → String) (s : ScriptP) (hs : ScriptOk s) :
    ∃ xs, serializeOpsBA opName s = .ok (ByteArray.fromParts xs) ∧ (∀ x ∈ xs, Whole x) ∧
      List.Forall₂ (OpPieces opName) s (xs.map pieces) ∧ (ByteArray.fromParts xs).data.length < 2 ^ 64 ∧
      ∀ b, J b (ne (piecesOf xs)) → ∃ s', deserializeOpsByteArray b = .ok s' ∧ ScriptKeeps s s' := by
  obtain ⟨hwf, ha, hlen⟩ := hs
  obtain ⟨xs, h1, h2, h3⟩ := serializeAll_written opName s hwf (fun op hop a m e => (ha op hop a m e).partsJoin)
  have hser : serializeOpsBA opName s = .ok (ByteArray.fromParts xs) := by simp [serializeOpsBA, h1]
  obtain ⟨w1, w2⟩ := h2.deep ha
  obtain ⟨bs, opsb, e1, e2, e3, _⟩ := C18_ops_roundtrip (s.map (Op.map ByteArray.data)) (by
    intro op hop
    obtain ⟨o, ho, rfl⟩ := List.mem_map.mp hop
    exact hwf o ho)
  have hbs : (ByteArray.fromParts xs).data = bs := by
    have := (C13_serialise_congruence opName s s rfl).2
    rw [hser, e1] at this
    simpa using this
  refine ⟨xs, hser, w1, h3, ?_, ?_⟩
  · rw [hbs]
    exact hlen bs (by unfold Script.serOps; rw [e1])
  · intro b hb
    have hbd : b.data = bs := by
      rw [hb.data, solidOf_data w1, ← hbs, ByteArray.data_fromParts]
      rfl
    obtain ⟨s', k1, k2⟩ := w2 b.len b hb (by
      have := h2.length.2
      rw [hbs] at this
      unfold ByteArray.len; rw [hbd]; exact this)
    refine ⟨s', k1, ?_, k2⟩
    rcases C21_parsers_agree b with ⟨ops', g1, g2⟩ | ⟨_, _, _, g2⟩
    swap
    · rw [hbd, e2] at g2; cases g2
    have : s' = ops' := by
      have := k1.symm.trans g1
      simpa using this
    subst this
    rw [hbd, e2] at g2
    simp only [Res.ok.injEq] at g2
    rw [← g2]; exact e3

/-! ## Codecs -/

/-- Reading back what was written. -/
def ReadsBack {α : Type} (c : CodecP α) (Ok : α → Prop) (K : Option String → α → α → Prop)
    (W : Option String → α → List ByteArray → Prop) : Prop :=
  ∀ v, Ok v → ∃ s, c.ser v = some s ∧ Whole s ∧ ∀ ρ, W ρ v (solid (renamed ρ s)) ∧
    ∀ b Y, J b (solid (renamed ρ s) ++ Y) → ∃ w r, c.deserRest b = .ok (w, r) ∧ K ρ v w ∧ J r Y

theorem readsBack_bytes : ReadsBack CodecP.bytes (fun v => Whole v ∧ v.data.length < 2 ^ 64)
    (fun _ v w => filled w = filled v)
    (fun _ v ps => ps = .new "size" (compactSize v.data.length) :: filled v) := by
  rintro v ⟨hv, hl⟩
  have hj := sized hv
  refine ⟨_, rfl, hj.whole, ?_⟩
  intro ρ
  have hs : solid (renamed ρ ((ByteArray.new "size" (encodeVarInt (UInt64.ofNat v.len))).concat v)) =
    sizeLeaf v.len :: solid v := solid_renamed hj ρ
  rw [hs]
  refine ⟨?_, ?_⟩
  · dsimp only; rw [← encodeVarInt_compactSize _ hl]; rfl
  · intro b Y h
    obtain ⟨w, r, h1, h2, h3⟩ := read_bytes hv hl h
    exact ⟨w, r, h1, h2.pieces, h3⟩

theorem readsBack_fixed (n : Nat) : ReadsBack (CodecP.fixed n) (fun v => Whole v.1)
    (fun ρ v w => filled w.1 = filled (renamed ρ v.1))
    (fun ρ v ps => ps = filled (renamed ρ v.1)) := by
  rintro v hv
  refine ⟨_, rfl, hv, ?_⟩
  intro ρ
  refine ⟨rfl, ?_⟩
  intro b Y h
  obtain ⟨l, r, h1, h2, h3⟩ := h.splitAt (k := n) (by
    rw [(hv.renamed ρ).solid_data, renamed_data]; exact v.2)
  have hl : l.data.length = n := by
    rw [h2.data, (hv.renamed ρ).solid_data, renamed_data]; exact v.2
  refine ⟨⟨l, hl⟩, r, ?_, h2.pieces, h3⟩
  simp only [CodecP.fixed, h1, Res.bind_ok, FixedP.fromByteArray, hl, dite_true]

theorem readsBack_int (k : Nat) : ReadsBack (CodecP.int k) (fun _ => True) (fun _ v w => w = v)
    (fun ρ v ps => ps = [.mk (leBytes k v.toNat) ρ .plain none].filter fun p => !p.data.isEmpty) := by
  rintro v -
  refine ⟨_, rfl, .leaf _ _, ?_⟩
  intro ρ
  have hr : renamed ρ (ByteArray.newUnnamed (leBytes k v.toNat)) = .mk (leBytes k v.toNat) ρ .plain none := by
    cases ρ <;> rfl
  rw [hr]
  refine ⟨solid_leaf _ _, ?_⟩
  intro b Y h
  have hd := (Whole.leaf (leBytes k v.toNat) ρ).solid_data
  obtain ⟨l, r, h1, h2, h3⟩ := h.splitAt (k := k) (by rw [hd]; simp)
  have hl : l.data = leBytes k v.toNat := by rw [h2.data, hd]; rfl
  refine ⟨v, r, ?_, rfl, h3⟩
  simp only [CodecP.int, h1, Res.bind_ok, hl, leBytes_length, ne_eq, not_true_eq_false, if_false, leVal_leBytes]
  congr 2
  apply BitVec.eq_of_toNat_eq
  rw [BitVec.toNat_ofNat]
  have : v.toNat < 2 ^ (8 * k) := v.isLt
  have e : 256 ^ k = 2 ^ (8 * k) := by rw [Nat.pow_mul]
  rw [e, Nat.mod_mod, Nat.mod_eq_of_lt this]

theorem readsBack_bool : ReadsBack CodecP.bool (fun _ => True) (fun _ v w => w = v)
    (fun ρ v ps => ps = [.mk [if v then 1 else 0] ρ .plain none]) := by
  rintro v -
  refine ⟨_, rfl, .leaf _ _, ?_⟩
  intro ρ
  have hr : renamed ρ (ByteArray.newUnnamed [if v then (1 : UInt8) else 0]) =
      .mk [if v then 1 else 0] ρ .plain none := by
    cases ρ <;> rfl
  rw [hr, solid_leaf_full (by simp)]
  refine ⟨rfl, ?_⟩
  intro b Y h
  obtain ⟨l, r, h1, h2, h3⟩ := h.splitAt (k := 1) rfl
  have hl : l.data = [if v then 1 else 0] := h2.data
  refine ⟨v, r, ?_, rfl, h3⟩
  simp only [CodecP.bool, h1, Res.bind_ok, hl]
  cases v <;> rfl

theorem piecesOf_flatten (xs : List ByteArray) : piecesOf xs = (xs.map pieces).flatten := by
  induction xs with
  | nil => rfl
  | cons x xs ih => simp [piecesOf, ih]

theorem readsBack_script (opName : Opcode → String) : ReadsBack (CodecP.script opName) ScriptOk
    (fun _ v w => ScriptKeeps v w)
    (fun _ s ps => ∃ pss : List (List ByteArray), List.Forall₂ (OpPieces opName) s pss ∧
      ps = .new "size" (compactSize (pss.flatten.map ByteArray.data).flatten.length) ::
        pss.flatten.filter fun p => !p.data.isEmpty) := by
  rintro v hv
  obtain ⟨xs, h1, h2, h3, h4, h5⟩ := read_script opName v hv
  obtain ⟨w1, w2⟩ := Whole.fromParts h2
  have hj := sized w1
  refine ⟨(sizeLeaf (ByteArray.fromParts xs).len).concat (ByteArray.fromParts xs), ?_, hj.whole, ?_⟩
  · simp only [CodecP.script, h1]; rfl
  · intro ρ
    rw [solid_renamed hj ρ]
    refine ⟨⟨_, h3, ?_⟩, ?_⟩
    · have hl : ((xs.map pieces).flatten.map ByteArray.data).flatten.length = (ByteArray.fromParts xs).len := by
        unfold ByteArray.len
        rw [ByteArray.data_fromParts, ← piecesOf_flatten]
        show (ByteArray.partsData (piecesOf xs)).length = (ByteArray.partsData xs).length
        rw [← partsData_ne, solidOf_data h2]
      rw [hl, w2, ← piecesOf_flatten, sizeLeaf, encodeVarInt_compactSize (ByteArray.len _) h4]
    · intro b Y h
      obtain ⟨w, r, g1, g2, g3⟩ := read_bytes w1 h4 h
      rw [w2] at g2
      obtain ⟨s', k1, k2⟩ := h5 w g2
      refine ⟨s', r, ?_, k2, g3⟩
      simp only [CodecP.script, g1, Res.bind_ok, k1]

theorem readsBack_many {α : Type} {c : CodecP α} {Ok K W} (h : ReadsBack c Ok K W) (vs : List α)
    (hv : ∀ v ∈ vs, Ok v) :
    ∃ xs pss, c.serMany vs = some xs ∧ (∀ x ∈ xs, Whole x) ∧ List.Forall₂ (W none) vs pss ∧
      ne (piecesOf xs) = pss.flatten ∧
      ∀ b Y, J b (ne (piecesOf xs) ++ Y) → ∃ ws r, c.deserMany vs.length b = .ok (ws, r) ∧
        List.Forall₂ (K none) vs ws ∧ J r Y := by
  induction vs with
  | nil =>
    refine ⟨[], [], rfl, by simp, .nil, rfl, ?_⟩
    intro b Y hb
    exact ⟨[], b, rfl, .nil, by simpa [piecesOf, ne] using hb⟩
  | cons v vs ih =>
    obtain ⟨s, h1, h2, h3⟩ := h v (hv v (by simp))
    obtain ⟨xs, pss, i1, i2, i3, i4, i5⟩ := ih (fun x hx => hv x (by simp [hx]))
    obtain ⟨h4, h5⟩ := h3 none
    refine ⟨s :: xs, _ :: pss, by simp [CodecP.serMany, h1, i1], ?_, .cons h4 i3, ?_, ?_⟩
    · intro y hy
      rcases List.mem_cons.mp hy with rfl | hy
      · exact h2
      · exact i2 y hy
    · rw [piecesOf, ne_append, i4]; rfl
    · intro b Y hb
      rw [piecesOf, ne_append, List.append_assoc] at hb
      obtain ⟨w, r, g1, g2, g3⟩ := h5 b _ hb
      obtain ⟨ws, r', k1, k2, k3⟩ := i5 r Y g3
      exact ⟨w :: ws, r', by simp [CodecP.deserMany, g1, k1], .cons g2 k2, k3⟩

theorem readsBack_vec {α : Type} {c : CodecP α} {Ok K W} (size : Nat) (h : ReadsBack c Ok K W) :
    ReadsBack (CodecP.vec size c)
      (fun vs => vs.length < 2 ^ 64 ∧ vs.length * size < 2 ^ 63 ∧ ∀ v ∈ vs, Ok v)
      (fun _ v w => List.Forall₂ (K none) v w)
      (fun _ vs ps => ∃ pss : List (List ByteArray), List.Forall₂ (W none) vs pss ∧
        ps = .new "size" (compactSize vs.length) :: pss.flatten) := by
  rintro vs ⟨hl, hm, hv⟩
  obtain ⟨xs, pss, h1, h2, h3, h4, h5⟩ := readsBack_many h vs hv
  obtain ⟨w1, w2⟩ := Whole.fromParts h2
  have hj := (sizeLeaf_whole vs.length).concat w1 none
  rw [sizeLeaf_solid, w2] at hj
  refine ⟨(sizeLeaf vs.length).concat (ByteArray.fromParts xs), by simp [CodecP.vec, h1], hj.whole, ?_⟩
  intro ρ
  have hs := solid_renamed hj ρ
  rw [ByteArray.concat, hs]
  refine ⟨⟨pss, h3, ?_⟩, ?_⟩
  · rw [h4, sizeLeaf, encodeVarInt_compactSize _ hl]; rfl
  · intro b Y hb
    obtain ⟨r, g1, g2⟩ := read_size hb hl
    obtain ⟨ws, r', k1, k2, k3⟩ := h5 r Y g2
    refine ⟨ws, r', ?_, k2, k3⟩
    simp only [CodecP.vec, g1, Res.bind_ok]
    rw [if_neg (by unfold isizeMax; omega)]
    exact k1

/-- The same for the fields of a struct. -/
def ReadsBackF {α : Type} (c : CodecP.Fields α) (n : Nat) (Ok : α → Prop) (K : Option String → α → α → Prop)
    (W : Option String → α → List ByteArray → Prop) : Prop :=
  ∀ v, Ok v → ∃ xs, c.sers v = some xs ∧ xs.length = n ∧ (∀ x ∈ xs, Whole x) ∧ ∀ ρ,
    W ρ v (ne (piecesOf (xs.map (renamed ρ)))) ∧
    ∀ b Y, J b (ne (piecesOf (xs.map (renamed ρ))) ++ Y) → ∃ w r, c.deserRest b = .ok (w, r) ∧ K ρ v w ∧ J r Y

theorem readsBack_nil : ReadsBackF CodecP.Fields.nil 0 (fun _ => True) (fun _ _ _ => True)
    (fun _ _ ps => ps = []) := by
  rintro v -
  refine ⟨[], rfl, rfl, by simp, ?_⟩
  intro ρ
  refine ⟨rfl, ?_⟩
  intro b Y hb
  exact ⟨(), b, rfl, trivial, by simpa [piecesOf, ne] using hb⟩

theorem readsBack_skip {α β : Type} (default : α) {fs : CodecP.Fields β} {n Ok K W} (h : ReadsBackF fs n Ok K W) :
    ReadsBackF (CodecP.Fields.skip default fs) n (fun v => Ok v.2) (fun ρ v w => w.1 = default ∧ K ρ v.2 w.2)
      (fun ρ v ps => W ρ v.2 ps) := by
  rintro v hv
  obtain ⟨xs, h1, h2, h3, h4⟩ := h v.2 hv
  refine ⟨xs, h1, h2, h3, ?_⟩
  intro ρ
  obtain ⟨h5, h6⟩ := h4 ρ
  refine ⟨h5, ?_⟩
  intro b Y hb
  obtain ⟨w, r, g1, g2, g3⟩ := h6 b Y hb
  exact ⟨(default, w), r, by simp [CodecP.Fields.skip, g1], ⟨rfl, g2⟩, g3⟩

theorem readsBack_field {α β : Type} (name : String) {c : CodecP α} {Ok K W} (h : ReadsBack c Ok K W)
    {fs : CodecP.Fields β} {n Ok' K' W'} (h' : ReadsBackF fs n Ok' K' W') :
    ReadsBackF (CodecP.Fields.field name c fs) (n + 1) (fun v => Ok v.1 ∧ Ok' v.2)
      (fun ρ v w => K (some (ρ.getD name)) v.1 w.1 ∧ K' ρ v.2 w.2)
      (fun ρ v ps => ∃ ps1 ps2, W (some (ρ.getD name)) v.1 ps1 ∧ W' ρ v.2 ps2 ∧ ps = ps1 ++ ps2) := by
  rintro v ⟨hv, hv'⟩
  obtain ⟨s, h1, h2, h3⟩ := h v.1 hv
  obtain ⟨xs, i1, i2, i3, i4⟩ := h' v.2 hv'
  refine ⟨s.named name :: xs, by simp [CodecP.Fields.field, h1, i1], by simp [i2], ?_, ?_⟩
  · intro y hy
    rcases List.mem_cons.mp hy with rfl | hy
    · exact h2.renamed (some name)
    · exact i3 y hy
  · intro ρ
    have hr : renamed ρ (s.named name) = renamed (some (ρ.getD name)) s := by
      obtain ⟨d, m, f, p⟩ := s
      cases ρ <;> rfl
    obtain ⟨h4, h5⟩ := h3 (some (ρ.getD name))
    obtain ⟨i5, i6⟩ := i4 ρ
    rw [List.map_cons, piecesOf, ne_append, hr]
    refine ⟨⟨_, _, h4, i5, rfl⟩, ?_⟩
    intro b Y hb
    rw [List.append_assoc] at hb
    obtain ⟨w, r, g1, g2, g3⟩ := h5 b _ hb
    obtain ⟨ws, r', k1, k2, k3⟩ := i6 r Y g3
    exact ⟨(w, ws), r', by simp [CodecP.Fields.field, g1, k1], ⟨g2, k2⟩, k3⟩

theorem foldl_joined (xs : List ByteArray) : ∀ p, Whole p → (∀ x ∈ xs, Whole x) → xs ≠ [] →
    J (xs.foldl ByteArray.concat p) (ne (piecesOf (p :: xs))) := by
  induction xs with
  | nil => intro p _ _ h; exact absurd rfl h
  | cons x xs ih =>
    intro p hp hxs _
    have hj := hp.concat (hxs x (by simp)) none
    have he : ne (piecesOf (p :: x :: xs)) = ne (piecesOf (p.concat x :: xs)) := by
      simp only [piecesOf, ne_append]
      rw [← List.append_assoc]
      exact congrArg (· ++ _) hj.pieces.symm
    rw [List.foldl_cons, he]
    cases xs with
    | nil =>
      rw [piecesOf, piecesOf, List.append_nil]
      exact ⟨hj.whole, hj.fn, hj.pre, rfl⟩
    | cons y ys => exact ih _ hj.whole (fun z hz => hxs z (by simp only [List.mem_cons] at hz ⊢; exact .inr hz)) (by simp)

theorem readsBack_struct {α : Type} {fs : CodecP.Fields α} {n Ok K W} (h : ReadsBackF fs n Ok K W) :
    ReadsBack (CodecP.struct fs) Ok (fun ρ v w => K (if n = 1 then ρ else none) v w)
      (fun ρ v ps => W (if n = 1 then ρ else none) v ps) := by
  rintro v hv
  obtain ⟨xs, h1, h2, h3, h4⟩ := h v hv
  refine ⟨ByteArray.fromParts xs, by simp [CodecP.struct, h1], (Whole.fromParts h3).1, ?_⟩
  intro ρ
  have key : solid (renamed ρ (ByteArray.fromParts xs)) =
      ne (piecesOf (xs.map (renamed (if n = 1 then ρ else none)))) := by
    subst h2
    match xs, h3 with
    | [], _ =>
      have hr : renamed ρ (ByteArray.fromParts []) = .mk [] ρ .plain none := by cases ρ <;> rfl
      rw [hr, solid_leaf]; rfl
    | [p], _ =>
      simp only [List.length_singleton, if_true, List.map_cons, List.map_nil, piecesOf, List.append_nil]
      rfl
    | p :: q :: qs, hw =>
      have hj := foldl_joined (q :: qs) p (hw p (by simp))
        (fun x hx => hw x (by simp only [List.mem_cons] at hx ⊢; exact .inr hx)) (by simp)
      have hn : (p :: q :: qs).length ≠ 1 := by simp
      have hid : List.map (renamed none) (p :: q :: qs) = p :: q :: qs := by
        have : (renamed none : ByteArray → ByteArray) = id := rfl
        rw [this, List.map_id]
      rw [if_neg hn, hid]
      exact solid_renamed hj ρ
  rw [key]
  exact h4 (if n = 1 then ρ else none)

theorem readsBack_imap {α β : Type} {c : CodecP α} {Ok K W} (h : ReadsBack c Ok K W) (pack : α → β)
    (unpack : β → α) :
    ReadsBack (c.imap pack unpack) (fun v => Ok (unpack v))
      (fun ρ v w => ∃ x, w = pack x ∧ K ρ (unpack v) x) (fun ρ v ps => W ρ (unpack v) ps) := by
  rintro v hv
  obtain ⟨s, h1, h2, h3⟩ := h (unpack v) hv
  refine ⟨s, h1, h2, ?_⟩
  intro ρ
  obtain ⟨h4, h5⟩ := h3 ρ
  refine ⟨h4, ?_⟩
  intro b Y hb
  obtain ⟨w, r, g1, g2, g3⟩ := h5 b Y hb
  exact ⟨pack w, r, by simp [CodecP.imap, g1], ⟨w, rfl, g2⟩, g3⟩

mutual
theorem codeTy_readsBack (opName : Opcode → String) : (t : CodeTy) →
    ReadsBack (t.codec opName) t.Ok t.Keeps (t.Writes opName)
  | .int k => by
    unfold CodeTy.codec CodeTy.Ok CodeTy.Keeps CodeTy.Writes; exact readsBack_int k
  | .bool => by unfold CodeTy.codec CodeTy.Ok CodeTy.Keeps CodeTy.Writes; exact readsBack_bool
  | .bytes => by unfold CodeTy.codec CodeTy.Ok CodeTy.Keeps CodeTy.Writes; exact readsBack_bytes
  | .fixed n => by unfold CodeTy.codec CodeTy.Ok CodeTy.Keeps CodeTy.Writes; exact readsBack_fixed n
  | .script => by unfold CodeTy.codec CodeTy.Ok CodeTy.Keeps CodeTy.Writes; exact readsBack_script opName
  | .vec size t => by
    unfold CodeTy.codec CodeTy.Ok CodeTy.Keeps CodeTy.Writes
    exact readsBack_vec size (codeTy_readsBack opName t)
  | .struct fs => by
    unfold CodeTy.codec CodeTy.Ok CodeTy.Keeps CodeTy.Writes
    exact readsBack_struct (fieldTys_readsBack opName fs)
theorem fieldTys_readsBack (opName : Opcode → String) : (fs : FieldTys) →
    ReadsBackF (fs.codec opName) fs.count fs.Ok fs.Keeps (fs.Writes opName)
  | .nil => by
    unfold FieldTys.codec FieldTys.Ok FieldTys.Keeps FieldTys.Writes FieldTys.count
    exact readsBack_nil
  | .field name t fs => by
    unfold FieldTys.codec FieldTys.Ok FieldTys.Keeps FieldTys.Writes FieldTys.count
    exact readsBack_field name (codeTy_readsBack opName t) (fieldTys_readsBack opName fs)
  | .skip α d fs => by
    unfold FieldTys.codec FieldTys.Ok FieldTys.Keeps FieldTys.Writes FieldTys.count
    exact readsBack_skip d (fieldTys_readsBack opName fs)
end

/-! ## C75 -/

/-- **C75** (writing): the pieces of a serialised value are the size prefixes (named "size"), the numbers (named
after their fields), and the pieces of the arrays in it, in order; nothing else is recorded. -/
theorem C75_written (opName : Opcode → String) (t : CodeTy) (v : t.Val) (hv : t.Ok v) :
    ∃ s, (t.codec opName).ser v = some s ∧ t.Writes opName none v (filled s) := by
  obtain ⟨s, h1, _, h3⟩ := codeTy_readsBack opName t v hv
  exact ⟨s, h1, (h3 none).1⟩

/-- **C75** (reading back): a value that was serialised, followed by anything, is read back with the pieces of
all arrays in it as they were, and what follows is left with the pieces it had. -/
theorem C75_read_back (opName : Opcode → String) (t : CodeTy) (v : t.Val) (hv : t.Ok v) (rest : ByteArray)
    (hr : Whole rest) :
    ∃ s w r, (t.codec opName).ser v = some s ∧ (t.codec opName).deserRest (s.concat rest) = .ok (w, r) ∧
      t.Keeps none v w ∧ filled r = filled rest := by
  obtain ⟨s, h1, h2, h3⟩ := codeTy_readsBack opName t v hv
  obtain ⟨w, r, g1, g2, g3⟩ := (h3 none).2 (s.concat rest) (solid rest) (h2.concat hr none)
  exact ⟨s, w, r, h1, g1, g2, g3.pieces⟩

/-- **C75** (reading back alone): a serialised value that is recorded as joined from pieces is read back by
`deser` in the same way. -/
theorem C75_read_back_alone (opName : Opcode → String) (t : CodeTy) (v : t.Val) (hv : t.Ok v) (s : ByteArray)
    (hs : (t.codec opName).ser v = some s) (hf : s.function = .plain) (hp : s.preimage ≠ none) :
    ∃ w, (t.codec opName).deser s = .ok w ∧ t.Keeps none v w := by
  obtain ⟨s', h1, h2, h3⟩ := codeTy_readsBack opName t v hv
  rw [hs] at h1; cases h1
  obtain ⟨w, r, g1, g2, g3⟩ := (h3 none).2 s [] ⟨h2, hf, hp, by rw [List.append_nil]; rfl⟩
  refine ⟨w, ?_, g2⟩
  have hd : r.data = [] := g3.data
  simp only [CodecP.deser, g1, Res.bind_ok, hd, ne_eq, not_true_eq_false, if_false]

/-- Spec: an outpoint that can be written. -/
def Spec.OutpointOk (o : TxOutpointP) : Prop := Whole o.txHash.1
/-- Spec: an outpoint read back: the hash is the same, under the name "tx_hash". -/
def Spec.OutpointKeeps (o o' : TxOutpointP) : Prop :=
  o'.vout = o.vout ∧ filled o'.txHash.1 = filled (o.txHash.1.named "tx_hash")
/-- Spec: an input read back. -/
def Spec.InputKeeps (i i' : TxInputP) : Prop :=
  OutpointKeeps i.prevOut i'.prevOut ∧ ScriptKeeps i.script i'.script ∧ i'.sequence = i.sequence ∧
  i'.lockScript = none ∧ i'.value = none ∧ i'.isP2sh = none ∧ i'.sigHashFlags = none
/-- Spec: an output read back. -/
def Spec.OutputKeeps (o o' : TxOutputP) : Prop := o'.value = o.value ∧ ScriptKeeps o.script o'.script

/-- Spec: the pieces of a script with its size. -/
def Spec.ScriptPieces (opName : Opcode → String) (s : ScriptP) (ps : List ByteArray) : Prop :=
  ∃ pss : List (List ByteArray), List.Forall₂ (OpPieces opName) s pss ∧
    ps = .new "size" (compactSize (pss.flatten.map ByteArray.data).flatten.length) ::
      pss.flatten.filter fun p => !p.data.isEmpty
/-- Spec: the pieces of an outpoint. -/
def Spec.outpointPieces (o : TxOutpointP) : List ByteArray :=
  filled (o.txHash.1.named "tx_hash") ++ [.new "vout" (leBytes 4 o.vout.toNat)]
/-- Spec: the pieces of an input. -/
def Spec.InputPieces (opName : Opcode → String) (i : TxInputP) (ps : List ByteArray) : Prop :=
  ∃ ss, ScriptPieces opName i.script ss ∧
    ps = outpointPieces i.prevOut ++ ss ++ [.new "sequence" (leBytes 4 i.sequence.toNat)]
/-- Spec: the pieces of an output. -/
def Spec.OutputPieces (opName : Opcode → String) (o : TxOutputP) (ps : List ByteArray) : Prop :=
  ∃ ss, ScriptPieces opName o.script ss ∧ ps = .new "value" (leBytes 8 o.value.toNat) :: ss
/-- Spec: the pieces of a transaction. -/
def Spec.TxPieces (opName : Opcode → String) (t : UnhashedTxP) (ps : List ByteArray) : Prop :=
  ∃ is os : List (List ByteArray), List.Forall₂ (InputPieces opName) t.inputs is ∧
    List.Forall₂ (OutputPieces opName) t.outputs os ∧
    ps = .new "version" (leBytes 4 t.version.toUInt32.toNat) ::
      .new "size" (compactSize t.inputs.length) :: (is.flatten ++
      .new "size" (compactSize t.outputs.length) :: (os.flatten ++ [.new "lock_time" (leBytes 4 t.lockTime.toNat)]))

theorem leBytes_ne {k : Nat} (hk : k ≠ 0) (n : Nat) : leBytes k n ≠ [] := by
  intro h
  have := congrArg List.length h
  simp at this
  exact hk this

theorem int_pieces {k : Nat} (hk : k ≠ 0) {n : Nat} {ρ : Option String} {ps : List ByteArray}
    (h : ps = [ByteArray.mk (leBytes k n) ρ .plain none].filter fun p => !p.data.isEmpty) :
    ps = [.mk (leBytes k n) ρ .plain none] := by
  rw [h]
  exact ne_cons_full (ps := []) (p := .mk (leBytes k n) ρ .plain none) (leBytes_ne hk n)

theorem readsBack_u32 : ReadsBack CodecP.u32 (fun _ => True) (fun _ v w => w = v)
    (fun ρ v ps => ps = [.mk (leBytes 4 v.toNat) ρ .plain none]) := by
  intro v _
  obtain ⟨s, h1, h2, h3⟩ := readsBack_imap (readsBack_int 4) UInt32.ofBitVec UInt32.toBitVec v trivial
  refine ⟨s, h1, h2, fun ρ => ⟨int_pieces (by decide) (h3 ρ).1, fun b Y hb => ?_⟩⟩
  obtain ⟨w, r, g1, ⟨x, g2, g3⟩, g4⟩ := (h3 ρ).2 b Y hb
  exact ⟨w, r, g1, by rw [g2, g3], g4⟩

theorem readsBack_u64 : ReadsBack CodecP.u64 (fun _ => True) (fun _ v w => w = v)
    (fun ρ v ps => ps = [.mk (leBytes 8 v.toNat) ρ .plain none]) := by
  intro v _
  obtain ⟨s, h1, h2, h3⟩ := readsBack_imap (readsBack_int 8) UInt64.ofBitVec UInt64.toBitVec v trivial
  refine ⟨s, h1, h2, fun ρ => ⟨int_pieces (by decide) (h3 ρ).1, fun b Y hb => ?_⟩⟩
  obtain ⟨w, r, g1, ⟨x, g2, g3⟩, g4⟩ := (h3 ρ).2 b Y hb
  exact ⟨w, r, g1, by rw [g2, g3], g4⟩

theorem readsBack_i32 : ReadsBack CodecP.i32 (fun _ => True) (fun _ v w => w = v)
    (fun ρ v ps => ps = [.mk (leBytes 4 v.toUInt32.toNat) ρ .plain none]) := by
  intro v _
  obtain ⟨s, h1, h2, h3⟩ := readsBack_imap readsBack_u32 Int32.ofUInt32 Int32.toUInt32 v trivial
  refine ⟨s, h1, h2, fun ρ => ⟨(h3 ρ).1, fun b Y hb => ?_⟩⟩
  obtain ⟨w, r, g1, ⟨x, g2, g3⟩, g4⟩ := (h3 ρ).2 b Y hb
  exact ⟨w, r, g1, by rw [g2, g3], g4⟩

theorem ReadsBack.weaken {α : Type} {c : CodecP α} {Ok Ok' : α → Prop} {K K' : Option String → α → α → Prop}
    {W W' : Option String → α → List ByteArray → Prop} (h : ReadsBack c Ok K W) (h1 : ∀ v, Ok' v → Ok v)
    (h2 : ∀ ρ v w, K ρ v w → K' ρ v w) (h3 : ∀ ρ v ps, W ρ v ps → W' ρ v ps) : ReadsBack c Ok' K' W' := by
  intro v hv
  obtain ⟨s, g1, g2, g3⟩ := h v (h1 v hv)
  refine ⟨s, g1, g2, fun ρ => ⟨h3 _ _ _ (g3 ρ).1, fun b Y hb => ?_⟩⟩
  obtain ⟨w, r, k1, k2, k3⟩ := (g3 ρ).2 b Y hb
  exact ⟨w, r, k1, h2 _ _ _ k2, k3⟩

theorem readsBack_outpoint : ReadsBack CodecP.txOutpoint OutpointOk (fun _ o o' => OutpointKeeps o o')
    (fun _ o ps => ps = outpointPieces o) := by
  refine ReadsBack.weaken (readsBack_imap (readsBack_struct (readsBack_field "tx_hash" (readsBack_fixed 32)
    (readsBack_field "vout" readsBack_u32 readsBack_nil))) _ _) ?_ ?_ ?_
  · intro v h; exact ⟨h, trivial, trivial⟩
  · rintro ρ v w ⟨x, rfl, h1, h2, _⟩
    exact ⟨h2, h1⟩
  · rintro ρ v ps ⟨_, _, rfl, ⟨_, _, rfl, rfl, rfl⟩, rfl⟩
    rfl

theorem readsBack_input (opName : Opcode → String) : ReadsBack (CodecP.txInput opName)
    (fun i => OutpointOk i.prevOut ∧ ScriptOk i.script) (fun _ i i' => InputKeeps i i')
    (fun _ i ps => InputPieces opName i ps) := by
  refine ReadsBack.weaken (readsBack_imap (readsBack_struct (readsBack_field "prev_out" readsBack_outpoint
    (readsBack_field "script" (readsBack_script opName) (readsBack_field "sequence" readsBack_u32
    (readsBack_skip none (readsBack_skip none (readsBack_skip none (readsBack_skip none readsBack_nil)))))))) _ _)
    ?_ ?_ ?_
  · intro v h; exact ⟨h.1, h.2, trivial, trivial⟩
  · rintro ρ v w ⟨x, rfl, h1, h2, h3, h4, h5, h6, h7, _⟩
    exact ⟨h1, h2, h3, h4, h5, h6, h7⟩
  · rintro ρ v ps ⟨_, _, rfl, ⟨ss, _, hs, ⟨_, _, rfl, rfl, rfl⟩, rfl⟩, rfl⟩
    exact ⟨ss, hs, by rw [List.append_nil, List.append_assoc]; rfl⟩

theorem readsBack_output (opName : Opcode → String) : ReadsBack (CodecP.txOutput opName)
    (fun o => ScriptOk o.script) (fun _ o o' => OutputKeeps o o') (fun _ o ps => OutputPieces opName o ps) := by
  refine ReadsBack.weaken (readsBack_imap (readsBack_struct (readsBack_field "value" readsBack_u64
    (readsBack_field "script" (readsBack_script opName) readsBack_nil))) _ _) ?_ ?_ ?_
  · intro v h; exact ⟨trivial, h, trivial⟩
  · rintro ρ v w ⟨x, rfl, h1, h2, _⟩
    exact ⟨h1, h2⟩
  · rintro ρ v ps ⟨_, _, rfl, ⟨ss, _, hs, rfl, rfl⟩, rfl⟩
    exact ⟨ss, hs, by rw [List.append_nil]; rfl⟩

/-- **C75** (transactions): the pieces of a serialised transaction are those of its fields in order, and it is
read back with the pieces of the arrays in all its scripts and of the hashes of the spent transactions. -/
theorem C75_transaction (opName : Opcode → String) (sz : Layout) (t : UnhashedTxP)
    (hi : ∀ i ∈ t.inputs, OutpointOk i.prevOut ∧ ScriptOk i.script) (ho : ∀ o ∈ t.outputs, ScriptOk o.script)
    (hni : t.inputs.length < 2 ^ 64 ∧ t.inputs.length * sz.txInput < 2 ^ 63)
    (hno : t.outputs.length < 2 ^ 64 ∧ t.outputs.length * sz.txOutput < 2 ^ 63) :
    ∃ s t', (CodecP.unhashedTx opName sz).ser t = some s ∧ TxPieces opName t (filled s) ∧
      (CodecP.unhashedTx opName sz).deser s = .ok t' ∧
      t'.version = t.version ∧ t'.lockTime = t.lockTime ∧ List.Forall₂ InputKeeps t.inputs t'.inputs ∧
      List.Forall₂ OutputKeeps t.outputs t'.outputs := by
  have h := readsBack_field "version" readsBack_i32 (readsBack_field "inputs"
    (readsBack_vec sz.txInput (readsBack_input opName)) (readsBack_field "outputs"
    (readsBack_vec sz.txOutput (readsBack_output opName)) (readsBack_field "lock_time" readsBack_u32
    readsBack_nil)))
  obtain ⟨xs, h1, h2, h3, h4⟩ := h (t.version, t.inputs, t.outputs, t.lockTime, ())
    ⟨trivial, ⟨hni.1, hni.2, hi⟩, ⟨hno.1, hno.2, ho⟩, trivial, trivial⟩
  have hj : J (ByteArray.fromParts xs) (ne (piecesOf xs)) := by
    match xs, h2, h3 with
    | p :: q :: qs, _, hw =>
      exact foldl_joined (q :: qs) p (hw p (by simp))
        (fun x hx => hw x (by simp only [List.mem_cons] at hx ⊢; exact .inr hx)) (by simp)
  have hid : List.map (renamed none) xs = xs := by
    have : (renamed none : ByteArray → ByteArray) = id := rfl
    rw [this, List.map_id]
  have h5 := (h4 none).2 (ByteArray.fromParts xs) []
  rw [hid, List.append_nil] at h5
  obtain ⟨w, r, g1, ⟨k1, k2, k3, k4, _⟩, g3⟩ := h5 hj
  have hd : r.data = [] := g3.data
  refine ⟨ByteArray.fromParts xs, ⟨w.1, w.2.1, w.2.2.1, w.2.2.2.1⟩, ?_, ?_, ?_, k1, k4, k2, k3⟩
  · simp only [CodecP.unhashedTx, CodecP.imap, CodecP.struct, h1, Option.map_some]
  · have h6 := (h4 none).1
    rw [hid, ← hj.pieces] at h6
    obtain ⟨_, _, rfl, ⟨_, _, ⟨is, hi', rfl⟩, ⟨_, _, ⟨os, ho', rfl⟩, ⟨_, _, rfl, rfl, rfl⟩, rfl⟩, rfl⟩, h7⟩ := h6
    refine ⟨is, os, hi', ho', ?_⟩
    rw [filled_eq, h7, List.append_nil]
    simp only [List.cons_append, List.nil_append]
    rfl
  · simp only [CodecP.deser, CodecP.unhashedTx, CodecP.imap, CodecP.struct, g1, Res.bind_ok, hd, ne_eq,
      not_true_eq_false, if_false]

/-- **C75** (which arrays): the condition on the arrays holds for everything made by wrapping, naming,
concatenating, hashing and splitting, and for the result of any function. -/
theorem C75_arrays (H : Function → Bytes → Bytes) (b : ByteArray) (data : Bytes) (f : Function) :
    (Built H b → Whole b) ∧ (f ≠ .plain → Whole (b.applyFunction data f)) := by
  refine ⟨?_, ?_⟩
  · intro hb
    have hc : Cons H b := hb.cons
    clear hb
    induction hc with
    | leaf d n f hf =>
      rcases hf with rfl | rfl
      · exact .leaf _ _
      · exact .other _ _ _ _ (by decide)
    | parts d n ps _ h2 ih => exact .parts _ _ _ ih h2
    | hash d n f p h1 _ _ _ =>
      refine .other _ _ _ _ ?_
      rintro rfl
      cases h1
  · intro hf
    exact .other _ _ _ _ hf

/-- **C75** fails for a hash written and read back alone (not recorded as joined): its provenance is replaced by
the mark of an unexpected split. -/
theorem C75_hash_alone_fails :
    ∃ (h : FixedP 32) (s : ByteArray) (w : FixedP 32), h.1.function = .hash256 ∧
      (CodecP.fixed 32).ser h = some s ∧ (CodecP.fixed 32).deser s = .ok w ∧ w.1.data = h.1.data ∧
      w.1.function = .unexpectedSplit ∧ w.1.preimage = none :=
  ⟨⟨(ByteArray.new "tx" [1]).applyFunction (List.replicate 32 7) .hash256, rfl⟩, _, _, rfl, rfl, rfl, rfl, rfl, rfl⟩

/-- Non-vacuity: a transaction that spends an output of a transaction whose hash is recorded, with a signature
in the input script; both are found again. -/
example : ∃ (h : FixedP 32) (t : UnhashedTxP) (s : ByteArray) (t' : UnhashedTxP),
    h.1.function = .hash256 ∧
    t = ⟨2, [⟨⟨h, 1⟩, [.pushByteArray (((ByteArray.new "preimage" [1, 2, 3]).applyFunction [9, 8, 7]
      .ecdsaSign).concat (.newUnnamed [0x41])) true], 5, none, none, none, none⟩],
      [⟨7, [.code .OP_DUP]⟩], 0⟩ ∧
    (CodecP.unhashedTx (fun _ => "op") ⟨1, 1⟩).ser t = some s ∧
    (filled s).map ByteArray.name = [some "version", some "size", some "tx_hash", some "vout", some "size",
      none, none, none, some "sequence", some "size", some "value", some "size", some "op", some "lock_time"] ∧
    (filled s).map ByteArray.function = [.plain, .plain, .hash256, .plain, .plain, .plain, .ecdsaSign, .plain,
      .plain, .plain, .plain, .plain, .plain, .plain] ∧
    (CodecP.unhashedTx (fun _ => "op") ⟨1, 1⟩).deser s = .ok t' ∧
    t'.inputs.map (fun i => (filled i.prevOut.txHash.1).map ByteArray.function) = [[.hash256]] ∧
    t'.inputs.map (fun i => i.script.map fun | .pushByteArray a _ => (filled a).map ByteArray.function | _ => []) =
      [[[.ecdsaSign, .plain]]] :=
  ⟨⟨(ByteArray.new "tx" [1]).applyFunction (List.replicate 32 7) .hash256, rfl⟩, _, _, _, rfl, rfl, rfl, rfl, rfl,
    rfl, rfl, rfl⟩

/-- The conditions hold for it. -/
example : ∃ (sig : ByteArray) (t : UnhashedTxP), sig = ((ByteArray.new "preimage" [1, 2, 3]).applyFunction [9, 8, 7]
      .ecdsaSign).concat (.newUnnamed [0x41]) ∧
    t = ⟨2, [⟨⟨⟨(ByteArray.new "tx" [1]).applyFunction (List.replicate 32 7) .hash256, rfl⟩, 1⟩,
      [.pushByteArray sig true], 5, none, none, none, none⟩], [⟨7, [.code .OP_DUP]⟩], 0⟩ ∧
    (∀ i ∈ t.inputs, OutpointOk i.prevOut ∧ ScriptOk i.script) ∧ (∀ o ∈ t.outputs, ScriptOk o.script) := by
  refine ⟨_, _, rfl, rfl, ?_, ?_⟩
  · intro i hi
    simp only [List.mem_cons, List.not_mem_nil, or_false] at hi
    subst hi
    refine ⟨(C75_arrays (fun _ d => d) _ _ _).2 (by decide), ?_, ?_, ?_⟩
    · intro op hop
      simp only [List.mem_cons, List.not_mem_nil, or_false] at hop
      subst hop
      show [9, 8, 7, 0x41].length < 2 ^ 32
      decide
    · intro op hop a m e
      simp only [List.mem_cons, List.not_mem_nil, or_false] at hop
      subst hop
      cases e
      exact (Whole.concat (.other _ _ _ _ (by decide)) (.leaf _ _) none).whole
    · intro b hb
      cases (show some [4, 9, 8, 7, 0x41] = some b from hb)
      decide
  · intro o ho
    simp only [List.mem_cons, List.not_mem_nil, or_false] at ho
    subst ho
    refine ⟨?_, ?_, ?_⟩
    · intro op hop
      simp only [List.mem_cons, List.not_mem_nil, or_false] at hop
      subst hop
      exact ⟨by decide, by decide, by decide⟩
    · intro op hop a m e
      simp only [List.mem_cons, List.not_mem_nil, or_false] at hop
      subst hop
      cases e
    · intro b hb
      cases (show some [0x76] = some b from hb)
      decide

end BCash
