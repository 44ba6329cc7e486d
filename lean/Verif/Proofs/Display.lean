import Mathlib.Tactic.Tauto
import Verif.Model.Display
import Verif.Props.IntegerConv
import Verif.Props.Hash
import Verif.Props.Equality
import Verif.Proofs.Source

/-! # Lemmas about texts -/

namespace BCash
open Spec
namespace DisplayProofs

/-! ### Hexadecimal texts -/

/-- The bytes of an ASCII text. -/
def asciiBytes (s : String) : Bytes := s.toList.map fun c => UInt8.ofNat c.toNat

theorem char_byte : ∀ c : UInt8, UInt8.ofNat (Char.ofNat c.toNat).toNat = c := forall_u8 (by decide +kernel)

theorem asciiBytes_hexText (b : Bytes) : asciiBytes (hexText b) = hexEncode b := by
  unfold asciiBytes hexText
  rw [String.toList_ofList, List.map_map]
  conv_rhs => rw [← List.map_id (hexEncode b)]
  exact List.map_congr_left fun c _ => char_byte c

theorem hexText_decode (b : Bytes) : hexDecode (asciiBytes (hexText b)) = some b := by
  rw [asciiBytes_hexText, hexDecode_hexEncode]

theorem hexText_inj {a b : Bytes} (h : hexText a = hexText b) : a = b := by
  have := hexText_decode a
  rw [h, hexText_decode b] at this
  exact (Option.some.inj this).symm

/-- A lower-case hexadecimal digit. -/
def HexDigit (c : Char) : Prop := c ∈ ['0', '1', '2', '3', '4', '5', '6', '7', '8', '9', 'a', 'b', 'c', 'd', 'e', 'f']

instance (c : Char) : Decidable (HexDigit c) := by unfold HexDigit; infer_instance

theorem hexDigit_char : ∀ n : Fin 16, HexDigit (Char.ofNat (hexDigit n.val).toNat) := by decide

theorem hexText_toList (b : Bytes) :
    (hexText b).toList = (hexEncode b).map fun c => Char.ofNat c.toNat := String.toList_ofList

theorem hexText_digits (b : Bytes) : ∀ c ∈ (hexText b).toList, HexDigit c := by
  rw [hexText_toList]
  induction b with
  | nil => intro c h; cases h
  | cons x xs ih =>
    have hx := x.toNat_lt
    intro c h
    simp only [hexEncode, List.map_cons, List.mem_cons] at h
    rcases h with h | h | h
    · rw [h]; exact hexDigit_char ⟨x.toNat / 16, by omega⟩
    · rw [h]; exact hexDigit_char ⟨x.toNat % 16, by omega⟩
    · exact ih c h

theorem hexText_length (b : Bytes) : (hexText b).toList.length = 2 * b.length := by
  rw [hexText_toList, List.length_map]
  induction b with
  | nil => rfl
  | cons x xs ih => simp only [hexEncode, List.length_cons, ih]; omega

/-- The text of a byte outside the opcodes starts with a letter. -/
theorem hexText_undefined : ∀ b : UInt8, 0xbd ≤ b.toNat →
    ∃ x y, (hexText [b]).toList = [x, y] ∧ x ∈ ['b', 'c', 'd', 'e', 'f'] := by
  have : ∀ b : UInt8, 0xbd ≤ b.toNat →
    ((hexText [b]).toList.length = 2 ∧ (hexText [b]).toList.headD ' ' ∈ ['b', 'c', 'd', 'e', 'f']) :=
    forall_u8 (by decide +kernel)
  intro b hb
  obtain ⟨h1, h2⟩ := this b hb
  match hl : (hexText [b]).toList, h1, h2 with
  | [x, y], _, h2 => exact ⟨x, y, rfl, h2⟩

/-! ### Names of opcodes -/

def named : List (String × Opcode) :=
  (List.range 256).filterMap fun n => (Opcode.ofByte (UInt8.ofNat n)).map fun o => (o.name, o)

theorem named_self : ∀ e ∈ named, named.lookup e.2.name = some e.2 := by decide +kernel

theorem mem_named (o : Opcode) : (o.name, o) ∈ named := by
  refine List.mem_filterMap.mpr ⟨o.toByte.toNat, ?_, ?_⟩
  · rw [List.mem_range]; exact o.toByte.toNat_lt
  · rw [UInt8.ofNat_toNat, ofByte_toByte o]; rfl

theorem name_inj {o o' : Opcode} (h : o.name = o'.name) : o = o' := by
  have h1 := named_self _ (mem_named o)
  have h2 := named_self _ (mem_named o')
  simp only at h1 h2
  rw [h, h2] at h1
  exact (Option.some.inj h1).symm

theorem name_shape : ∀ e ∈ named, e.1 ≠ "OP_TRUE" ∧ e.1 ≠ "OP_FALSE" ∧ ' ' ∉ e.1.toList ∧
    (e.1.toList.headD ' ' = 'O' ∨ e.1.toList.headD ' ' = 'F') := by decide +kernel

theorem name_shape' (o : Opcode) : o.name ≠ "OP_TRUE" ∧ o.name ≠ "OP_FALSE" ∧ ' ' ∉ o.name.toList ∧
    ∃ c cs, o.name.toList = c :: cs ∧ (c = 'O' ∨ c = 'F') := by
  obtain ⟨h1, h2, h3, h4⟩ := name_shape _ (mem_named o)
  refine ⟨h1, h2, h3, ?_⟩
  simp only at h4
  cases hl : o.name.toList with
  | nil => rw [hl] at h4; simp at h4
  | cons c cs => rw [hl] at h4; exact ⟨c, cs, rfl, h4⟩

/-! ### Decimal texts -/

theorem int_text (i : Int) : (IntegerResult.display (.ok i)).toList ≠ [] ∧
    ∀ c ∈ (IntegerResult.display (.ok i)).toList, c = '-' ∨ c.isDigit = true := by
  have hd : ∀ n : Nat, n.repr.toList ≠ [] ∧ ∀ c ∈ n.repr.toList, c.isDigit = true := by
    intro n
    rw [Nat.toList_repr]
    exact ⟨Nat.toDigits_ne_nil, fun c hc => Nat.isDigit_of_mem_toDigits (by omega) (by omega) hc⟩
  have : (IntegerResult.display (.ok i)) = i.repr := rfl
  rw [this, Int.repr_eq_if]
  split
  · exact ⟨(hd _).1, fun c hc => .inr ((hd _).2 c hc)⟩
  · rw [String.toList_append]
    refine ⟨by simp, fun c hc => ?_⟩
    simp only [List.mem_append] at hc
    rcases hc with hc | hc
    · left; simpa using hc
    · exact .inr ((hd _).2 c hc)

theorem int_text_inj {a b : Int} (h : IntegerResult.display (.ok a) = IntegerResult.display (.ok b)) : a = b :=
  Int.repr_injective h

/-! ### Operations -/

theorem append_sep {α : Type} {c : α} {l l' r r' : List α} (hl : c ∉ l) (hl' : c ∉ l')
    (h : l ++ c :: r = l' ++ c :: r') : l = l' ∧ r = r' := by
  induction l generalizing l' with
  | nil =>
    cases l' with
    | nil => exact ⟨rfl, List.tail_eq_of_cons_eq h⟩
    | cons x xs => exact absurd (by rw [(List.cons.inj h).1]; exact List.mem_cons_self) hl'
  | cons y ys ih =>
    cases l' with
    | nil => exact absurd (by rw [← (List.cons.inj h).1]; exact List.mem_cons_self) hl
    | cons x xs =>
      obtain ⟨h1, h2⟩ := List.cons.inj h
      obtain ⟨h3, h4⟩ := ih (fun hh => hl (List.mem_cons_of_mem _ hh)) (fun hh => hl' (List.mem_cons_of_mem _ hh)) h2
      exact ⟨by rw [h1, h3], h4⟩

theorem not_hexDigit {c : Char} (h : ¬ HexDigit c) (b : Bytes) : c ∉ (hexText b).toList :=
  fun hh => h (hexText_digits b c hh)

theorem display_word (o : Op ByteArray) : o.display ≠ "" ∧ ' ' ∉ o.display.toList := by
  have ne : ∀ {s : String}, s.toList ≠ [] → s ≠ "" := by rintro s h rfl; exact h rfl
  cases o with
  | code c =>
    obtain ⟨_, _, h, x, xs, hl, _⟩ := name_shape' c
    exact ⟨ne (by show c.name.toList ≠ []; rw [hl]; simp), h⟩
  | invalid b =>
    refine ⟨ne fun h => ?_, not_hexDigit (by decide) _⟩
    have := hexText_length [b]
    rw [show (hexText [b]).toList = [] from h] at this
    simp at this
  | pushByteArray a m =>
    have : ("0x" ++ hexText a.data).toList = '0' :: 'x' :: (hexText a.data).toList := by
      simp [String.toList_append]
    refine ⟨ne ?_, ?_⟩
    · show ("0x" ++ hexText a.data).toList ≠ []; rw [this]; simp
    · show ' ' ∉ ("0x" ++ hexText a.data).toList
      rw [this]
      have := not_hexDigit (c := ' ') (by decide) a.data
      simp [this]
  | pushBoolean b => cases b <;> decide +kernel
  | pushInteger i =>
    obtain ⟨h1, h2⟩ := int_text i
    refine ⟨ne h1, fun h => ?_⟩
    rcases h2 _ h with h | h <;> revert h <;> decide

/-- What the first characters of a text tell. -/
inductive Kind where
  | word | letter | hex | number
deriving DecidableEq

def kind : List Char → Kind
  | '0' :: 'x' :: _ => .hex
  | 'O' :: _ => .word
  | 'F' :: _ => .word
  | c :: _ => if c ∈ ['b', 'c', 'd', 'e', 'f'] then .letter else .number
  | [] => .number

theorem kind_code (c : Opcode) : kind c.name.toList = .word := by
  obtain ⟨_, _, _, x, xs, hl, h⟩ := name_shape' c
  rw [hl]
  rcases h with rfl | rfl <;> rfl

theorem kind_invalid (b : UInt8) (hb : 0xbd ≤ b.toNat) : kind (hexText [b]).toList = .letter := by
  obtain ⟨x, y, hl, hx⟩ := hexText_undefined b hb
  rw [hl]
  simp only [List.mem_cons, List.not_mem_nil, or_false] at hx
  rcases hx with rfl | rfl | rfl | rfl | rfl <;> rfl

theorem kind_push (d : Bytes) : kind ("0x" ++ hexText d).toList = .hex := by
  have : ("0x" ++ hexText d).toList = '0' :: 'x' :: (hexText d).toList := by
    simp [String.toList_append]
  rw [this]; rfl

theorem kind_int (i : Int) : kind (IntegerResult.display (.ok i)).toList = .number := by
  obtain ⟨h1, h2⟩ := int_text i
  revert h1 h2
  generalize (IntegerResult.display (.ok i)).toList = l
  intro h1 h2
  unfold kind
  split
  · rename_i t
    have := h2 'x' (by simp)
    revert this; decide
  · have := h2 'O' (by simp)
    revert this; decide
  · have := h2 'F' (by simp)
    revert this; decide
  · rename_i c _ _ _ _
    have := h2 c (by simp)
    rw [if_neg]
    intro hc
    simp only [List.mem_cons, List.not_mem_nil, or_false] at hc
    rcases hc with rfl | rfl | rfl | rfl | rfl <;> revert this <;> decide
  · rfl

theorem kind_bool (b : Bool) : kind (if b then "OP_TRUE" else "OP_FALSE").toList = .word := by
  cases b <;> decide +kernel

/-- Spec-side side condition of C91: an invalid byte is one that is no opcode. -/
def Readable : Op ByteArray → Prop
  | .invalid b => 0xbd ≤ b.toNat
  | _ => True

theorem display_inj {a b : Op ByteArray} (ha : Readable a) (hb : Readable b) (h : a.display = b.display) :
    opView (a.map ByteArray.data) = opView (b.map ByteArray.data) := by
  have hk := congrArg (fun s => kind s.toList) h
  have push : ∀ {d d' : Bytes}, "0x" ++ hexText d = "0x" ++ hexText d' → d = d' := by
    intro d d' hh
    have := congrArg String.toList hh
    simp only [String.toList_append, List.append_cancel_left_eq] at this
    exact hexText_inj (String.toList_inj.mp this)
  cases a <;> cases b <;>
    simp only [Op.display, kind_code, kind_push, kind_int, kind_bool, reduceCtorEq] at hk <;>
    simp only [Readable] at ha hb <;>
    (try rw [kind_invalid _ ha] at hk) <;> (try rw [kind_invalid _ hb] at hk) <;>
    (try cases hk) <;> simp only [Op.display] at h <;> simp only [Op.map, opView]
  · rw [name_inj h]
  · rename_i c bo
    obtain ⟨h1, h2, _⟩ := name_shape' c
    cases bo <;> simp_all
  · have := hexText_inj h
    simp only [List.cons.injEq, and_true] at this
    rw [this]
  · rw [push h]
  · rename_i bo c
    obtain ⟨h1, h2, _⟩ := name_shape' c
    cases bo <;> simp_all
  · rename_i x y
    cases x <;> cases y <;> first | rfl | (exfalso; revert h; decide)
  · rw [int_text_inj h]

theorem display_congr {a b : Op ByteArray}
    (h : opView (a.map ByteArray.data) = opView (b.map ByteArray.data)) : a.display = b.display := by
  cases a <;> cases b <;> simp only [Op.map, opView, reduceCtorEq, OpView.opcode.injEq, OpView.invalidByte.injEq,
    OpView.bytes.injEq, OpView.boolean.injEq, OpView.integer.injEq] at h <;> simp only [Op.display, h]

theorem script_cons (o : TaggedOp) (s : List TaggedOp) :
    (displayScript (o :: s)).toList = o.op.display.toList ++ ' ' :: (displayScript s).toList := by
  simp [displayScript, String.toList_append]

theorem script_words : ∀ (s s' : List TaggedOp), displayScript s = displayScript s' →
    s.map (·.op.display) = s'.map (·.op.display)
  | [], [], _ => rfl
  | [], o :: s, h => by
    have := congrArg String.toList h
    rw [script_cons] at this
    simp [displayScript] at this
  | o :: s, [], h => by
    have := congrArg String.toList h
    rw [script_cons] at this
    simp [displayScript] at this
  | o :: s, o' :: s', h => by
    have := congrArg String.toList h
    rw [script_cons, script_cons] at this
    obtain ⟨h1, h2⟩ := append_sep (display_word o.op).2 (display_word o'.op).2 this
    simp only [List.map_cons, List.cons.injEq]
    exact ⟨String.toList_inj.mp h1, script_words s s' (String.toList_inj.mp h2)⟩

theorem script_congr : ∀ (s s' : List TaggedOp), s.map (·.op.display) = s'.map (·.op.display) →
    displayScript s = displayScript s'
  | [], [], _ => rfl
  | [], _ :: _, h => by cases h
  | _ :: _, [], h => by cases h
  | o :: s, o' :: s', h => by
    simp only [List.map_cons, List.cons.injEq] at h
    simp only [displayScript, h.1, script_congr s s' h.2]

theorem script_view (s s' : List TaggedOp) (hs : ∀ o ∈ s, Readable o.op) (hs' : ∀ o ∈ s', Readable o.op) :
    displayScript s = displayScript s' ↔ scriptView s = scriptView s' := by
  constructor
  · intro h
    have := script_words s s' h
    clear h
    induction s generalizing s' with
    | nil => cases s' with | nil => rfl | cons _ _ => cases this
    | cons o s ih =>
      cases s' with
      | nil => cases this
      | cons o' s' =>
        simp only [List.map_cons, List.cons.injEq] at this
        simp only [scriptView, List.map_cons, List.cons.injEq]
        exact ⟨display_inj (hs o (by simp)) (hs' o' (by simp)) this.1,
          ih s' (fun x hx => hs x (by simp [hx])) (fun x hx => hs' x (by simp [hx])) this.2⟩
  · intro h
    apply script_congr
    clear hs hs'
    induction s generalizing s' with
    | nil => cases s' with | nil => rfl | cons _ _ => cases h
    | cons o s ih =>
      cases s' with
      | nil => cases h
      | cons o' s' =>
        simp only [scriptView, List.map_cons, List.cons.injEq] at h
        simp only [List.map_cons, List.cons.injEq]
        exact ⟨display_congr h.1, ih s' h.2⟩

/-! ### `Debug` -/

/-- What the first characters of a debug text tell. -/
def dkind : List Char → Nat
  | 'C' :: _ => 0
  | 'I' :: _ => 1
  | 'P' :: 'u' :: 's' :: 'h' :: 'B' :: 'y' :: _ => 2
  | 'P' :: 'u' :: 's' :: 'h' :: 'B' :: 'o' :: _ => 3
  | _ => 4

theorem l_code : "Code(".toList = 'C' :: "ode(".toList := by decide +kernel
theorem l_invalid : "Invalid(0x".toList = 'I' :: "nvalid(0x".toList := by decide +kernel
theorem l_array : "PushByteArray{array: hex!(\"".toList =
    'P' :: 'u' :: 's' :: 'h' :: 'B' :: 'y' :: "teArray{array: hex!(\"".toList := by decide +kernel
theorem l_bool : "PushBoolean(".toList = 'P' :: 'u' :: 's' :: 'h' :: 'B' :: 'o' :: "olean(".toList := by decide +kernel
theorem l_int : "PushInteger(".toList = 'P' :: 'u' :: 's' :: 'h' :: 'I' :: "nteger(".toList := by decide +kernel
theorem l_tail : "\").to_vec(), is_minimal: ".toList = '"' :: ").to_vec(), is_minimal: ".toList := by decide +kernel

/-- The kind of an operation. -/
def okind : Op ByteArray → Nat
  | .code _ => 0
  | .invalid _ => 1
  | .pushByteArray _ _ => 2
  | .pushBoolean _ => 3
  | .pushInteger _ => 4

theorem debug_code (c : Opcode) : Op.debug (.code c) = "Code(" ++ c.name ++ ")" := rfl
theorem debug_invalid (b : UInt8) : Op.debug (.invalid b) = "Invalid(0x" ++ hexText [b] ++ ")" := rfl
theorem debug_array (a : ByteArray) (m : Bool) : Op.debug (.pushByteArray a m) =
    "PushByteArray{array: hex!(\"" ++ hexText a.data ++ "\").to_vec(), is_minimal: " ++
      (if m then "true" else "false") ++ "})" := rfl
theorem debug_bool (b : Bool) : Op.debug (.pushBoolean b) = "PushBoolean(" ++ (if b then "true" else "false") ++ ")" := rfl
theorem debug_int (i : Int) : Op.debug (.pushInteger i) = "PushInteger(" ++ IntegerResult.display (.ok i) ++ ")" := rfl

theorem dkind_debug (a : Op ByteArray) : dkind a.debug.toList = okind a := by
  cases a with
  | code c => rw [debug_code, String.toList_append, String.toList_append, l_code]; rfl
  | invalid b => rw [debug_invalid, String.toList_append, String.toList_append, l_invalid]; rfl
  | pushByteArray d m =>
    rw [debug_array, String.toList_append, String.toList_append, String.toList_append, String.toList_append, l_array]; rfl
  | pushBoolean b => rw [debug_bool, String.toList_append, String.toList_append, l_bool]; rfl
  | pushInteger i => rw [debug_int, String.toList_append, String.toList_append, l_int]; rfl

theorem bool_text_inj {m m' : Bool} (h : (if m then "true" else "false") = (if m' then "true" else "false")) :
    m = m' := by
  cases m <;> cases m' <;> first | rfl | (exfalso; revert h; decide)

theorem wrap_inj {a b x y : String} (h : a ++ x ++ b = a ++ y ++ b) : x = y := by
  have hl := congrArg String.toList h
  rw [String.toList_append, String.toList_append, String.toList_append, String.toList_append] at hl
  exact String.toList_inj.mp (List.append_cancel_left (List.append_cancel_right hl))

theorem wrap2_inj {a b m m' : String} {x y : Bytes} {c : Char} {rest : String} (hc : ¬ HexDigit c)
    {sep : String} (hsep : sep.toList = c :: rest.toList)
    (h : a ++ hexText x ++ sep ++ m ++ b = a ++ hexText y ++ sep ++ m' ++ b) : x = y ∧ m = m' := by
  have hl := congrArg String.toList h
  simp only [String.toList_append] at hl
  have hl := List.append_cancel_right hl
  rw [List.append_assoc, List.append_assoc, List.append_assoc, List.append_assoc] at hl
  have hl := List.append_cancel_left hl
  rw [hsep, List.cons_append, List.cons_append] at hl
  obtain ⟨h1, h2⟩ := append_sep (not_hexDigit hc _) (not_hexDigit hc _) hl
  exact ⟨hexText_inj (String.toList_inj.mp h1), String.toList_inj.mp (List.append_cancel_left h2)⟩

theorem debug_inj {a b : Op ByteArray} (h : a.debug = b.debug) :
    a.map ByteArray.data = b.map ByteArray.data := by
  have hk : okind a = okind b := by rw [← dkind_debug, ← dkind_debug, h]
  cases a with
  | code c =>
    cases b with
    | code c' => rw [debug_code, debug_code] at h; rw [name_inj (wrap_inj h)]
    | _ => cases hk
  | invalid c =>
    cases b with
    | invalid c' =>
      rw [debug_invalid, debug_invalid] at h
      rw [(List.cons.inj (hexText_inj (wrap_inj h))).1]
    | _ => cases hk
  | pushByteArray x m =>
    cases b with
    | pushByteArray y m' =>
      rw [debug_array, debug_array] at h
      obtain ⟨h1, h2⟩ := wrap2_inj (by decide) l_tail h
      rw [Op.map, Op.map, h1, bool_text_inj h2]
    | _ => cases hk
  | pushBoolean x =>
    cases b with
    | pushBoolean y => rw [debug_bool, debug_bool] at h; rw [bool_text_inj (wrap_inj h)]
    | _ => cases hk
  | pushInteger x =>
    cases b with
    | pushInteger y => rw [debug_int, debug_int] at h; rw [int_text_inj (wrap_inj h)]
    | _ => cases hk

theorem debug_congr {a b : Op ByteArray} (h : a.map ByteArray.data = b.map ByteArray.data) :
    a.debug = b.debug := by
  cases a with
  | code c =>
    cases b with
    | code c' => rw [Op.map, Op.map, Op.code.injEq] at h; rw [h]
    | _ => cases h
  | invalid c =>
    cases b with
    | invalid c' => rw [Op.map, Op.map, Op.invalid.injEq] at h; rw [h]
    | _ => cases h
  | pushByteArray x m =>
    cases b with
    | pushByteArray y m' =>
      rw [Op.map, Op.map, Op.pushByteArray.injEq] at h
      rw [debug_array, debug_array, h.1, h.2]
    | _ => cases h
  | pushBoolean x =>
    cases b with
    | pushBoolean y => rw [Op.map, Op.map, Op.pushBoolean.injEq] at h; rw [h]
    | _ => cases h
  | pushInteger x =>
    cases b with
    | pushInteger y => rw [Op.map, Op.map, Op.pushInteger.injEq] at h; rw [h]
    | _ => cases h

/-! ### Bytes of a script -/

theorem tokenOp_view_inj {t t' : Token} (hv : t.Valid) (hv' : t'.Valid) (hs : t.ShortPrefix) (hs' : t'.ShortPrefix)
    (h : opView (tokenOp t) = opView (tokenOp t')) : t = t' := by
  have hcode : ∀ b : UInt8, (∃ o, codeOrInvalid (α := Bytes) b = .code o ∧ o.toByte = b) ∨
      codeOrInvalid (α := Bytes) b = .invalid b := by
    intro b
    unfold codeOrInvalid
    split
    · rename_i h0; exact .inl ⟨_, rfl, by rw [h0]; rfl⟩
    · split
      · rename_i o ho; exact .inl ⟨o, rfl, toByte_ofByte ho⟩
      · exact .inr rfl
  cases t with
  | op b =>
    cases t' with
    | op b' =>
      simp only [tokenOp] at h
      rcases hcode b with ⟨o, h1, h2⟩ | h1 <;> rcases hcode b' with ⟨o', h1', h2'⟩ | h1' <;>
        rw [h1, h1'] at h <;> simp only [opView, OpView.opcode.injEq, OpView.invalidByte.injEq, reduceCtorEq] at h
      · rw [← h2, ← h2', h]
      · rw [h]
    | push f d =>
      simp only [tokenOp] at h
      rcases hcode b with ⟨o, h1, h2⟩ | h1 <;> rw [h1] at h <;> cases h
  | push f d =>
    cases t' with
    | op b' =>
      simp only [tokenOp] at h
      rcases hcode b' with ⟨o, h1, h2⟩ | h1 <;> rw [h1] at h <;> cases h
    | push f' d' =>
      simp only [tokenOp, opView, OpView.bytes.injEq] at h
      subst h
      cases f <;> cases f' <;> first | rfl | (exfalso; simp only [Token.Valid, Token.ShortPrefix] at *; omega)

theorem codeOrInvalid_readable : ∀ b : UInt8, (b = 0 ∨ 0x4f ≤ b.toNat) →
    Readable ((codeOrInvalid (α := ByteArray) b)) := by
  intro b hb
  unfold codeOrInvalid
  split
  · trivial
  · split
    · trivial
    · rename_i h0 _ ho
      have := (ofByte_isSome b).not
      rw [ho] at this
      simp at this
      simp only [Readable]
      rcases hb with hb | hb
      · exact absurd hb h0
      · have := this.2 (by omega); omega

theorem parsed_readable {bs : Bytes} {ops : List (Op Bytes)} (h : deserializeOps bs = .ok ops) :
    ∀ op ∈ ops, ∀ o : Op ByteArray, o.map ByteArray.data = op → Readable o := by
  obtain ⟨ts, hv, hbs, hops⟩ := deserializeOps_ok bs ops h
  subst hops
  intro op hop o ho
  obtain ⟨t, ht, rfl⟩ := List.mem_map.mp hop
  cases o with
  | invalid b =>
    cases t with
    | push f d => cases ho
    | op b' =>
      have hr := codeOrInvalid_readable b' (hv _ ht)
      simp only [tokenOp, Op.map] at ho
      unfold codeOrInvalid at ho hr
      split at ho
      · cases ho
      · split at ho
        · cases ho
        · rename_i h0 _ h1
          rw [if_neg h0, h1] at hr
          cases ho
          exact hr
  | _ => trivial

end DisplayProofs
end BCash
