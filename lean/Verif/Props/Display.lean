import Verif.Proofs.Display

/-! # C91: the text of operations and scripts -/

namespace BCash
open Spec DisplayProofs

/-! ## Specification -/

/-- Spec: an operation whose undefined byte, if it has one, lies above all opcodes (as in parsed scripts). -/
def Spec.UndefinedIsHigh : Op ByteArray → Prop
  | .invalid b => 0xbd ≤ b.toNat
  | _ => True

/-- Spec: the words of a text, each of them ended by a blank (the rest after the last blank is dropped). -/
def Spec.endedWords : List Char → List Char → List (List Char)
  | _, [] => []
  | acc, ' ' :: cs => acc :: endedWords [] cs
  | acc, c :: cs => endedWords (acc ++ [c]) cs

/-- Spec: the operation an array stands for: names and provenance are forgotten. -/
def Spec.plainOp (o : Op ByteArray) : Op Bytes := o.map ByteArray.data

theorem undefinedIsHigh_iff (o : Op ByteArray) : UndefinedIsHigh o ↔ Readable o := by cases o <;> rfl

theorem endedWords_append : ∀ (w acc rest : List Char), ' ' ∉ w →
    endedWords acc (w ++ ' ' :: rest) = (acc ++ w) :: endedWords [] rest
  | [], acc, rest, _ => by simp [endedWords]
  | c :: w, acc, rest, h => by
    have hc : c ≠ ' ' := fun hh => h (by simp [hh])
    have : endedWords acc (c :: (w ++ ' ' :: rest)) = endedWords (acc ++ [c]) (w ++ ' ' :: rest) := by
      rw [endedWords.eq_def]
      split
      · rename_i h; cases h
      · rename_i h; exact absurd (List.cons.inj h).1 hc
      · rename_i h; obtain ⟨rfl, rfl⟩ := List.cons.inj h; rfl
    rw [List.cons_append, this, endedWords_append w _ rest (fun hh => h (List.mem_cons_of_mem _ hh))]
    simp

/-! ## Theorems -/

/-- **C91** (words): the text of a script consists of the texts of its operations, in order, each followed by
a blank: splitting it at the blanks gives exactly these texts; none of them is empty. The text of a
concatenation is the concatenation of the texts. -/
theorem C91_words (s s' : List TaggedOp) :
    endedWords [] (displayScript s).toList = s.map (fun o => o.op.display.toList) ∧
    (∀ o ∈ s, o.op.display ≠ "" ∧ ' ' ∉ o.op.display.toList) ∧
    displayScript (s ++ s') = displayScript s ++ displayScript s' := by
  refine ⟨?_, fun o _ => display_word o.op, ?_⟩
  · induction s with
    | nil => rfl
    | cons o s ih =>
      rw [script_cons, endedWords_append _ _ _ (display_word o.op).2, ih]
      rfl
  · induction s with
    | nil => simp [displayScript]
    | cons o s ih => simp only [List.cons_append, displayScript, ih, String.append_assoc]

/-- **C91** (what the texts say): an opcode is written with the name it has in script functions (opcodes that
script functions may use); a push as `0x` and the hexadecimal digits of its bytes; an integer in decimal; a
byte that is no opcode as its two hexadecimal digits. -/
theorem C91_values (o : Opcode) (b : UInt8) (a : ByteArray) (m : Bool) (i : Int) :
    (Op.display (.code o) = o.display) ∧
    (o ∉ [Opcode.OP_PUSHDATA1, .OP_PUSHDATA2, .OP_PUSHDATA4, .OP_RESERVED, .FIRST_UNDEFINED_OP_VALUE] →
      Opcode.nameMap.lookup o.display = some o) ∧
    (Op.display (.pushByteArray a m) = "0x" ++ a.display) ∧
    (hexDecode (asciiBytes a.display) = some a.data) ∧
    (∀ c ∈ a.display.toList, c.isDigit = true ∨ c ∈ ['a', 'b', 'c', 'd', 'e', 'f']) ∧
    ((Op.display (.pushInteger i)).toInt? = some i) ∧
    (hexDecode (asciiBytes (Op.display (.invalid b))) = some [b]) := by
  refine ⟨rfl, fun h => (SourceProofs.lookup_iff _ o).mpr ⟨rfl, h⟩, rfl, hexText_decode _, ?_, Int.toInt?_repr i,
    hexText_decode _⟩
  intro c hc
  have := hexText_digits _ c hc
  simp only [HexDigit, List.mem_cons, List.not_mem_nil, or_false] at this
  rcases this with h | h | h | h | h | h | h | h | h | h | h | h | h | h | h | h <;> subst h <;> decide

/-- **C91** fails for operations built by hand: an undefined byte that is none prints like an integer. -/
theorem C91_text_fails : ∃ a b : Op ByteArray, a.display = b.display ∧ a.beqP b = false :=
  ⟨.invalid 0x10, .pushInteger 10, by decide +kernel, by decide⟩

/-- **C91** (texts tell scripts apart): if undefined bytes lie above the opcodes, two operations have the same
text exactly if they are equal (`==`), and so have two scripts. -/
theorem C91_text_partial (a b : Op ByteArray) (s s' : List TaggedOp)
    (ha : UndefinedIsHigh a) (hb : UndefinedIsHigh b)
    (hs : ∀ o ∈ s, UndefinedIsHigh o.op) (hs' : ∀ o ∈ s', UndefinedIsHigh o.op) :
    (a.display = b.display ↔ a.beqP b = true) ∧
    (displayScript s = displayScript s' ↔ beqScript s s' = true) := by
  rw [undefinedIsHigh_iff] at ha hb
  rw [(C79_operations a b).1, beqScript_iff]
  refine ⟨⟨display_inj ha hb, display_congr⟩, script_view s s' ?_ ?_⟩
  · exact fun o ho => (undefinedIsHigh_iff _).mp (hs o ho)
  · exact fun o ho => (undefinedIsHigh_iff _).mp (hs' o ho)

/-- **C91** (equal operations): whatever the operations are, equal ones have the same text. -/
theorem C91_equal (s s' : List TaggedOp) (h : beqScript s s' = true) : displayScript s = displayScript s' := by
  rw [beqScript_iff] at h
  apply script_congr
  induction s generalizing s' with
  | nil => cases s' with | nil => rfl | cons _ _ => cases h
  | cons o s ih =>
    cases s' with
    | nil => cases h
    | cons o' s' =>
      simp only [scriptView, List.map_cons, List.cons.injEq] at h
      simp only [List.map_cons, List.cons.injEq]
      exact ⟨display_congr h.1, ih s' h.2⟩

/-- **C91** fails for bytes: two byte strings parse to scripts with the same text. -/
theorem C91_bytes_fails : ∃ (bs bs' : Bytes) (s s' : List TaggedOp), bs ≠ bs' ∧
    deserializeOps bs = .ok (s.map fun o => plainOp o.op) ∧
    deserializeOps bs' = .ok (s'.map fun o => plainOp o.op) ∧ displayScript s = displayScript s' :=
  ⟨[1, 5], [0x4c, 1, 5], [⟨.pushByteArray (.newUnnamed [5]) false, "", 0, 0, [], none, none⟩],
    [⟨.pushByteArray (.newUnnamed [5]) false, "", 0, 0, [], none, none⟩], by decide, by decide, by decide, rfl⟩

/-- **C91** (texts of parsed scripts): parsed scripts have the same text exactly if they are equal, and if all
pushes of the byte strings use the shortest length prefix (or are the two-byte empty push), exactly if the byte
strings are the same. -/
theorem C91_bytes_partial (bs bs' : Bytes) (s s' : List TaggedOp)
    (h : deserializeOps bs = .ok (s.map fun o => plainOp o.op))
    (h' : deserializeOps bs' = .ok (s'.map fun o => plainOp o.op)) :
    (displayScript s = displayScript s' ↔ beqScript s s' = true) ∧
    (∀ ts ts' : List Token, (∀ t ∈ ts, t.Valid ∧ t.ShortPrefix) → (∀ t ∈ ts', t.Valid ∧ t.ShortPrefix) →
      bs = encodeTokens ts → bs' = encodeTokens ts' →
      (displayScript s = displayScript s' ↔ bs = bs')) := by
  have hr : ∀ o ∈ s, Readable o.op := fun o ho =>
    parsed_readable h _ (List.mem_map.mpr ⟨o, ho, rfl⟩) _ rfl
  have hr' : ∀ o ∈ s', Readable o.op := fun o ho =>
    parsed_readable h' _ (List.mem_map.mpr ⟨o, ho, rfl⟩) _ rfl
  have hview := script_view s s' hr hr'
  refine ⟨by rw [beqScript_iff]; exact hview, ?_⟩
  intro ts ts' hts hts' hb hb'
  have e : s.map (fun o => plainOp o.op) = ts.map tokenOp := by
    have := deserializeOps_tokens ts (fun t ht => (hts t ht).1)
    rw [← hb, h] at this
    exact Res.ok.inj this
  have e' : s'.map (fun o => plainOp o.op) = ts'.map tokenOp := by
    have := deserializeOps_tokens ts' (fun t ht => (hts' t ht).1)
    rw [← hb', h'] at this
    exact Res.ok.inj this
  rw [hview]
  have v : scriptView s = (ts.map tokenOp).map opView := by rw [← e, List.map_map]; rfl
  have v' : scriptView s' = (ts'.map tokenOp).map opView := by rw [← e', List.map_map]; rfl
  rw [v, v']
  constructor
  · intro heq
    have : ts = ts' := by
      clear h h' hr hr' hview hb hb' e e' v v'
      induction ts generalizing ts' with
      | nil => cases ts' with | nil => rfl | cons _ _ => cases heq
      | cons t ts ih =>
        cases ts' with
        | nil => cases heq
        | cons t' ts' =>
          simp only [List.map_cons, List.cons.injEq] at heq
          obtain ⟨q1, q2⟩ := hts t (by simp)
          obtain ⟨q3, q4⟩ := hts' t' (by simp)
          rw [tokenOp_view_inj q1 q3 q2 q4 heq.1,
            ih ts' (fun x hx => hts x (by simp [hx])) (fun x hx => hts' x (by simp [hx])) heq.2]
    rw [hb, hb', this]
  · rintro rfl
    rw [hb'] at hb
    have := deserializeOps_tokens ts (fun t ht => (hts t ht).1)
    rw [← hb, deserializeOps_tokens ts' (fun t ht => (hts' t ht).1)] at this
    rw [Res.ok.inj this]

/-- **C91** (debug text): it determines the operation, including the minimality mark; names and provenance do
not show. -/
theorem C91_debug (a b : Op ByteArray) : a.debug = b.debug ↔ plainOp a = plainOp b :=
  ⟨debug_inj, debug_congr⟩

/-- **C79** (hashing): equal arrays hash alike with every hasher, so hash maps find them whatever their names
and provenance; a hasher that remembers what it is fed tells different arrays apart. -/
theorem C79_hash (a b : ByteArray) :
    a.beq b = true ↔ ∀ (H : Type) (write : Bytes → H → H) (state : H), a.hash write state = b.hash write state := by
  rw [C79_arrays]
  constructor
  · intro h H write state
    simp only [ByteArray.hash, h]
  · intro h
    exact h Bytes (fun b _ => b) []

/-- Non-vacuity: a P2PKH output script. -/
example :
    let mk : Op ByteArray → TaggedOp := fun o => ⟨o, "", 0, 0, [], none, none⟩
    displayScript [mk (.code .OP_DUP), mk (.code .OP_HASH160), mk (.pushByteArray (.new "pkh" [0x0a, 0xff]) true),
      mk (.code .OP_EQUALVERIFY), mk (.pushInteger (-17)), mk (.pushBoolean true), mk (.invalid 0xbe)] =
      "OP_DUP OP_HASH160 0x0aff OP_EQUALVERIFY -17 OP_TRUE be " := by decide +kernel

example : Op.debug (.pushByteArray (.new "pkh" [0x0a, 0xff]) true) =
    "PushByteArray{array: hex!(\"0aff\").to_vec(), is_minimal: true})" := by decide +kernel

/-- Non-vacuity of the last theorem's hypotheses. -/
example : ∃ (bs : Bytes) (s : List TaggedOp) (ts : List Token),
    deserializeOps bs = .ok (s.map fun o => plainOp o.op) ∧ (∀ t ∈ ts, t.Valid ∧ t.ShortPrefix) ∧
    bs = encodeTokens ts ∧ s.length = 2 :=
  ⟨[2, 7, 8, 0x76], [⟨.pushByteArray (.newUnnamed [7, 8]) true, "", 0, 0, [], none, none⟩,
    ⟨.code .OP_DUP, "", 0, 0, [], none, none⟩], [.push .direct [7, 8], .op 0x76], by decide,
    by simp [Token.Valid, Token.ShortPrefix], by decide, rfl⟩

end BCash
