import Verif.Proofs.Text

/-! # The source texts recorded with the operations of a generated script -/

namespace BCash
open Spec Spec.Macro Spec.Text Macro TextProofs

/-! ## C90: recorded source texts -/

/-- **C90**: in debug mode, the operations of a generated script correspond one to one and in order to the
statements of the parsed body other than `transmute`; each is the operation its statement stands for, and the text
recorded with it for each of the four widths is that of its own statement as formatted at this width. Every
statement of the parsed body, with its text, is one of the source. -/
theorem C90_texts (fmt : Rustfmt) (lines : Nat → String → List String) (s : TSyn) (t : TProg)
    (hp : parseStmtsT s = .ok t) (hf : FormatsEach fmt lines ((spoken t).map Prod.fst))
    (order : List (String × VState) → List (String × VState)) (d : Decl) (ops : List Tagged) (g : Gen)
    (h : generateT fmt order true d t = .ok (ops, g)) :
    List.Forall₂ (fun x op => Becomes x.2 op.op ∧ op.srcCode = recorded lines x.1) (spoken t) ops ∧
    ∀ x ∈ statements t, x ∈ source s := by
  obtain ⟨hb, hm⟩ := inv_stmts hp
  refine ⟨?_, hm⟩
  unfold generateT at h
  obtain ⟨ls, h1, h⟩ := Res.bind_eq_ok.mp h
  obtain ⟨states, h2, h⟩ := Res.bind_eq_ok.mp h
  obtain ⟨⟨ops', g', i⟩, h3, h⟩ := Res.bind_eq_ok.mp h
  simp only [Res.ok.injEq, Prod.mk.injEq] at h
  obtain ⟨rfl, rfl⟩ := h
  obtain ⟨hpiece, hl⟩ := piece_prog hb h3
  rw [texts_loud t hb hl, formatStmts_ok hf] at h1
  simp only [Res.ok.injEq] at h1
  subst h1
  have ht := hpiece.texts rfl
  refine List.forall₂_iff_get.mpr ⟨hpiece.become.length_eq, fun k hk1 hk2 => ⟨?_, ?_⟩⟩
  · exact List.Forall₂.get hpiece.become hk1 hk2
  · have h4 : (ops'.map Tagged.srcCode)[k]? = some (ops'[k]'hk2).srcCode := by simp [hk2]
    rw [ht] at h4
    rw [List.getElem?_map, List.getElem?_range' (by simpa using hk1)] at h4
    simp only [Option.map_some, Option.some.injEq] at h4
    rw [List.get_eq_getElem, ← h4]
    have := recorded_at lines ((spoken t).map Prod.fst) k (by simpa using hk1)
    simp only [Nat.zero_add, Nat.one_mul]
    rw [this]
    simp

/-- **C90** (the parsed body is the written one): a body with arbitrarily nested conditionals whose branches are
written as blocks is parsed to the tree of its statements, in their order, each with its own text. -/
theorem C90_blocks (t : TProg) (hw : WellNested (erase t)) :
    parseStmtsT (Spec.Text.blocks t) = .ok t ∧ source (Spec.Text.blocks t) = statements t := by
  refine ⟨?_, source_blocks t hw⟩
  unfold parseStmtsT
  rw [parseList_blocks t hw]
  exact parseOpIf_semi t hw

/-- **C90** (texts change nothing): a body is accepted by the parser whatever the texts of its statements, with the
same tree; if the formatter works, a script is generated if and only if one is generated without texts, and it has
the same operations; in debug mode they carry the same names, otherwise neither texts nor names. -/
theorem C90_independent (s : TSyn) :
    (parseStmtsT s).map erase = parseStmts (eraseBody s) ∧
    ∀ (t : TProg), parseStmtsT s = .ok t → ∀ (fmt : Rustfmt) (lines : Nat → String → List String),
    FormatsEach fmt lines ((spoken t).map Prod.fst) →
    ∀ (order : List (String × VState) → List (String × VState)) (debug : Bool) (d : Decl),
    ((∃ r, generateT fmt order debug d t = .ok r) ↔ ∃ r, generate order d (erase t) = .ok r) ∧
    ∀ ops g es g', generateT fmt order debug d t = .ok (ops, g) → generate order d (erase t) = .ok (es, g') →
      g = g' ∧ List.Forall₂ (fun (op : Tagged) (e : Emit) => op.op = e.op ∧
        (debug = true → op.pushed = some e.pushed ∧ op.altPushed = some e.altPushed) ∧
        (debug = false → op.srcCode = [] ∧ op.pushed = none ∧ op.altPushed = none)) ops es := by
  refine ⟨erase_stmts s, fun t hp fmt lines hf order debug d => ?_⟩
  obtain ⟨hb, _⟩ := inv_stmts hp
  have back : ∀ ops g, generateT fmt order debug d t = .ok (ops, g) →
      ∃ es, generate order d (erase t) = .ok (es, g) ∧ ops.map names = es.map (emitNames debug) ∧
        (debug = false → ∀ op ∈ ops, op.srcCode = []) := by
    intro ops g h
    unfold generateT at h
    obtain ⟨ls, h1, h⟩ := Res.bind_eq_ok.mp h
    obtain ⟨states, h2, h⟩ := Res.bind_eq_ok.mp h
    obtain ⟨⟨ops', g', i⟩, h3, h⟩ := Res.bind_eq_ok.mp h
    simp only [Res.ok.injEq, Prod.mk.injEq] at h
    obtain ⟨rfl, rfl⟩ := h
    obtain ⟨es, h4, h5⟩ := runProg_of_T h3
    refine ⟨es, ?_, h5, (piece_prog hb h3).1.off⟩
    unfold generate
    rw [h2]
    exact h4
  refine ⟨⟨?_, ?_⟩, ?_⟩
  · rintro ⟨⟨ops, g⟩, h⟩
    obtain ⟨es, h1, _⟩ := back ops g h
    exact ⟨_, h1⟩
  · rintro ⟨⟨es, g⟩, h⟩
    unfold generate at h
    obtain ⟨states, h2, h⟩ := Res.bind_eq_ok.mp h
    have ht := texts_of_generate hb h
    obtain ⟨ops, i, h3, _⟩ := runProgT_ok (c := ⟨maxLineWidths, _, debug⟩) (idx := 0) h
    refine ⟨(ops, g), ?_⟩
    unfold generateT
    rw [ht, formatStmts_ok hf]
    show (initialStates d).bind _ = _
    rw [h2]
    show Res.bind (runProgT _ t _ 0) _ = _
    rw [h3]
    rfl
  · intro ops g es g' h h'
    obtain ⟨es', h1, h2, h3⟩ := back ops g h
    rw [h'] at h1
    simp only [Res.ok.injEq, Prod.mk.injEq] at h1
    obtain ⟨rfl, rfl⟩ := h1
    refine ⟨rfl, ?_⟩
    have hlen : ops.length = es.length := by simpa using congrArg List.length h2
    refine List.forall₂_iff_get.mpr ⟨hlen, fun k hk1 hk2 => ?_⟩
    have hk : names ops[k] = emitNames debug es[k] := by
      have := congrArg (fun l => l[k]?) h2
      simpa [hk1, hk2] using this
    simp only [List.get_eq_getElem]
    cases debug with
    | true =>
      simp only [names, emitNames, if_true, Prod.mk.injEq] at hk
      exact ⟨hk.1, fun _ => hk.2, fun h => by cases h⟩
    | false =>
      simp only [names, emitNames, Bool.false_eq_true, if_false, Prod.mk.injEq] at hk
      exact ⟨hk.1, (fun h => by cases h), fun _ => ⟨h3 rfl _ (List.getElem_mem hk1), hk.2⟩⟩

/-- **C90** (no formatter, no script): if the formatter fails at one of the widths, the script is rejected, also
outside debug mode. -/
theorem C90_formatter (fmt : Rustfmt) (s : TSyn) (t : TProg) (hp : parseStmtsT s = .ok t) (w : Nat)
    (hw : w ∈ [30, 40, 60, 80]) (e : String) (hf : fmt w ((spoken t).map Prod.fst) = .error e)
    (order : List (String × VState) → List (String × VState)) (debug : Bool) (d : Decl) :
    ∀ r, generateT fmt order debug d t ≠ .ok r := by
  intro r h
  unfold generateT at h
  obtain ⟨ls, h1, h⟩ := Res.bind_eq_ok.mp h
  obtain ⟨states, _, h⟩ := Res.bind_eq_ok.mp h
  obtain ⟨⟨ops', g', i⟩, h3, _⟩ := Res.bind_eq_ok.mp h
  obtain ⟨hb, _⟩ := inv_stmts hp
  rw [← texts_loud t hb (piece_prog hb h3).2] at hf
  unfold formatStmts at h1
  obtain ⟨ps, h2, _⟩ := Res.bind_eq_ok.mp h1
  obtain ⟨hl, hg⟩ := GenProofs.collect_get h2
  obtain ⟨k, hk, rfl⟩ := List.getElem_of_mem hw
  have h3 := hg k hk
  have h4 : fmt (maxLineWidths[k]'hk) t.texts = .error e := hf
  rw [h4] at h3
  cases h3

/-! ### Non-vacuity -/

namespace TextExample

/-- `OP_IF(a); { let x = 5; OP_DROP(x); } OP_ELSE(); { 6; OP_DROP } OP_ENDIF(); transmute(b, T); OP_VERIFY(b)`. -/
def tree : TProg :=
  .scriptIf "OP_IF(a)" ⟨.op .OP_IF, some [.ident "a"], none⟩
    (.leaf "let x = 5;" (.push (.pushInteger 5) (some "x"))
      (.leaf "OP_DROP(x)" (.opcode ⟨.op .OP_DROP, some [.ident "x"], none⟩) .nil))
    (some ("OP_ELSE()", ⟨.op .OP_ELSE, none, none⟩))
    (.leaf "6" (.push (.pushInteger 6) none) (.leaf "OP_DROP" (.opcode ⟨.op .OP_DROP, none, none⟩) .nil))
    "OP_ENDIF()" ⟨.op .OP_ENDIF, none, none⟩
    (.leaf "transmute(b, T)" (.opcode ⟨.transmute, some [.ident "b", .expr "T" 0], none⟩)
      (.leaf "OP_VERIFY(b)" (.opcode ⟨.op .OP_VERIFY, some [.ident "b"], none⟩) .nil))

def decl : Decl := ⟨"Inputs", [], [⟨"b", none⟩, ⟨"a", none⟩]⟩

/-- A formatter that writes every statement on two lines if the lines are short. -/
def lines (w : Nat) (x : String) : List String := if w = 30 then ["//", "  " ++ x] else [x]

def fmt : Rustfmt := fun w stmts =>
  .ok ("fn main() {" :: stmts.map (fun x => indented (lines w x)) ++ ["\n}"])

theorem nested : WellNested (erase tree) := by simp [tree, erase, WellNested, opens, isElse, closes]

theorem formats : FormatsEach fmt lines ((spoken tree).map Prod.fst) := by
  intro w _
  refine ⟨?_, _, _, rfl⟩
  intro x hx
  have hmem : x ∈ ["OP_IF(a)", "let x = 5;", "OP_DROP(x)", "OP_ELSE()", "6", "OP_DROP", "OP_ENDIF()", "OP_VERIFY(b)"] := hx
  have hn : ∀ x ∈ ["OP_IF(a)", "let x = 5;", "OP_DROP(x)", "OP_ELSE()", "6", "OP_DROP", "OP_ENDIF()", "OP_VERIFY(b)"],
      '\n' ∉ x.toList := by decide
  have h1 := hn x hmem
  unfold lines
  split
  · refine ⟨by simp, fun l hl => ?_⟩
    simp only [List.mem_cons, List.not_mem_nil, or_false] at hl
    rcases hl with rfl | rfl
    · decide
    · rw [String.toList_append, List.mem_append]
      rintro (h | h)
      · exact absurd h (by decide)
      · exact h1 h
  · exact ⟨by simp, by simpa using h1⟩

/-- The script is accepted, with eight operations; the fourth is the OP_ELSE. -/
example : ∃ ops g, generateT fmt id true decl tree = .ok (ops, g) ∧ ops.length = 8 ∧
    ops[3]? = some ⟨.code .OP_ELSE, [(30, "//\n  OP_ELSE()"), (40, "OP_ELSE()"), (60, "OP_ELSE()"), (80, "OP_ELSE()")],
      some [], some []⟩ := by
  refine ⟨_, _, rfl, ?_, ?_⟩ <;> decide +kernel

end TextExample

example : ∃ ops g, generateT TextExample.fmt id true TextExample.decl TextExample.tree = .ok (ops, g) ∧
    List.Forall₂ (fun x op => Becomes x.2 op.op ∧ op.srcCode = recorded TextExample.lines x.1)
      (spoken TextExample.tree) ops := by
  refine ⟨_, _, rfl, ?_⟩
  exact (C90_texts _ _ _ _ (C90_blocks _ TextExample.nested).1 TextExample.formats id TextExample.decl _ _ rfl).1

example : (∃ r, generateT TextExample.fmt id false TextExample.decl TextExample.tree = .ok r) ↔
    ∃ r, generate id TextExample.decl (erase TextExample.tree) = .ok r :=
  ((C90_independent _).2 _ (C90_blocks _ TextExample.nested).1 _ _ TextExample.formats id false _).1

example : ∀ r, generateT (fun w stmts => if w = 60 then .error "rustfmt" else TextExample.fmt w stmts) id false
    TextExample.decl TextExample.tree ≠ .ok r :=
  C90_formatter _ _ _ (C90_blocks _ TextExample.nested).1 60 (by simp) "rustfmt" (by simp) _ _ _

end BCash
