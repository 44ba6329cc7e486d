import Mathlib.Data.List.Induction
import Verif.Spec.Source
import Verif.Props.Macro

/-! # Lemmas about reading a script function -/

namespace BCash
open Spec Spec.Macro Spec.Source Macro
namespace SourceProofs

/-! ### Identifiers of statements -/

theorem nameMap_entries : ∀ e ∈ Opcode.nameMap, e.1 = e.2.name ∧ e.2 ∉ [Opcode.OP_PUSHDATA1,
    .OP_PUSHDATA2, .OP_PUSHDATA4, .OP_RESERVED, .FIRST_UNDEFINED_OP_VALUE] := by decide +kernel

theorem nameMap_self : ∀ e ∈ Opcode.nameMap, Opcode.nameMap.lookup e.2.name = some e.2 := by
  decide +kernel

theorem inNameMap_or (o : Opcode) : inNameMap o = true ∨ o ∈ [Opcode.OP_PUSHDATA1,
    .OP_PUSHDATA2, .OP_PUSHDATA4, .OP_RESERVED, .FIRST_UNDEFINED_OP_VALUE] := by
  cases o <;> first | exact Or.inl rfl | exact Or.inr (by decide)

theorem ofByte_toByte' (o : Opcode) : Opcode.ofByte o.toByte = some o := by cases o <;> rfl

theorem mem_nameMap (o : Opcode) (h : inNameMap o = true) : (o.name, o) ∈ Opcode.nameMap := by
  unfold Opcode.nameMap
  simp only [inNameMap, Bool.or_eq_true, beq_iff_eq, Bool.and_eq_true, decide_eq_true_eq] at h
  rcases h with (h | h) | h
  · subst h; exact List.mem_cons_self
  · subst h; exact List.mem_cons_of_mem _ List.mem_cons_self
  · refine List.mem_cons_of_mem _ (List.mem_cons_of_mem _ (List.mem_filterMap.mpr ⟨o.toByte.toNat, ?_, ?_⟩))
    · rw [List.mem_range'_1]; omega
    · rw [UInt8.ofNat_toNat, ofByte_toByte' o]; rfl

theorem names_distinct : ∀ x ∈ ["depth_of", "depth_of_offset", "transmute"],
   Opcode.nameMap.lookup x = none := by decide +kernel

theorem lookup_iff (x : String) (o : Opcode) : Opcode.nameMap.lookup x = some o ↔
    x = o.name ∧ o ∉ [Opcode.OP_PUSHDATA1,
    .OP_PUSHDATA2, .OP_PUSHDATA4, .OP_RESERVED, .FIRST_UNDEFINED_OP_VALUE] := by
  constructor
  · intro hl
    obtain ⟨l1, l2, hm, _⟩ := List.lookup_eq_some_iff.mp hl
    exact nameMap_entries (x, o) (by rw [hm]; simp)
  · rintro ⟨rfl, hb⟩
    exact nameMap_self _ (mem_nameMap o ((inNameMap_or o).resolve_right hb))

theorem stands_ofName {x : String} {h : Head} (hs : Stands x h) : Head.ofName x = h := by
  unfold Head.ofName
  cases hs with
  | op o hb => rw [(lookup_iff _ o).mpr ⟨rfl, hb⟩]
  | depthOf => rw [names_distinct _ (by simp)]; rfl
  | depthOfOffset => rw [names_distinct _ (by simp)]; rfl
  | transmute => rw [names_distinct _ (by simp)]; rfl

theorem ofName_means (x : String) : Means x (Head.ofName x) := by
  by_cases hs : ∃ h, Stands x h
  · obtain ⟨h, hs⟩ := hs
    rw [stands_ofName hs]
    exact .inl hs
  · refine .inr ⟨?_, fun h' hh => hs ⟨h', hh⟩⟩
    unfold Head.ofName
    cases hl : Opcode.nameMap.lookup x with
    | some o =>
      obtain ⟨rfl, hb⟩ := (lookup_iff _ _).mp hl
      exact absurd ⟨_, .op o hb⟩ hs
    | none =>
      dsimp only
      rw [if_neg (fun e : x = "depth_of" => hs ⟨.depthOf, e ▸ Stands.depthOf⟩),
        if_neg (fun e : x = "depth_of_offset" => hs ⟨.depthOfOffset, e ▸ Stands.depthOfOffset⟩),
        if_neg (fun e : x = "transmute" => hs ⟨.transmute, e ▸ Stands.transmute⟩)]

theorem means_iff (x : String) (h : Head) : Means x h ↔ h = Head.ofName x := by
  constructor
  · rintro (hs | ⟨rfl, hn⟩)
    · exact (stands_ofName hs).symm
    · rcases ofName_means x with hs | ⟨hu, _⟩
      · exact absurd hs (hn _)
      · exact hu.symm
  · rintro rfl; exact ofName_means x

/-! ### Operations -/

theorem saysArg_iff (a : Arg) (i : OpcodeInput) : SaysArg a i ↔ i = parseOpcodeInput a := by
  constructor
  · intro h; cases h <;> rfl
  · rintro rfl
    cases a with
    | path p src =>
      obtain ⟨x, more⟩ := p
      cases more with
      | nil => exact .ident x src
      | cons y more => exact .path x y more src
    | other src => exact .other src

theorem saysArgs_iff (args : List Arg) (is : List OpcodeInput) :
    List.Forall₂ SaysArg args is ↔ is = args.map parseOpcodeInput := by
  induction args generalizing is with
  | nil => simp
  | cons a args ih =>
    simp only [List.forall₂_cons_left_iff, saysArg_iff, ih, List.map_cons]
    grind

theorem singlePath_some {p : Path} {x : String} : singlePath p = some x ↔ p = name x := by
  obtain ⟨y, more⟩ := p
  cases more <;> simp [singlePath, name]

theorem singlePath_name (x : String) : singlePath (name x) = some x := rfl

theorem saysOp_iff (e : Expr) (outs : Option (List String)) (o : OpcodeStmt) :
    parseOpcode e outs = .ok o ↔ SaysOp e outs o := by
  constructor
  · intro h
    unfold parseOpcode at h
    split at h
    · rename_i hasAttrs callee args
      split at h
      · simp at h
      · rename_i hna
        split at h
        · simp at h
        · rename_i p
          split at h
          · rename_i x hx
            rw [singlePath_some] at hx
            subst hx
            injection h with h; subst h
            have : hasAttrs = false := by simpa using hna
            subst this
            exact .call outs (ofName_means x) ((saysArgs_iff _ _).mpr rfl)
          · simp at h
    · rename_i p
      split at h
      · rename_i x hx
        rw [singlePath_some] at hx
        subst hx
        injection h with h; subst h
        exact .bare outs (ofName_means x)
      · simp at h
    · simp at h
  · intro h
    cases h with
    | bare _ hx => rw [means_iff] at hx; subst hx; rfl
    | call _ hx ha =>
      rw [means_iff] at hx; rw [saysArgs_iff] at ha; subst hx ha; rfl

theorem saysNames_iff (p : Pat) (xs : List String) : letNames p = .ok xs ↔ SaysNames p xs := by
  have htuple : ∀ (elems : List (Option String)) (xs : List String),
      elems.foldr (fun x (r : Except String (List String)) => r.bind fun names =>
        match x with
        | some name => .ok (name :: names)
        | none => .error "Expected `let x = ...`") (.ok []) = .ok xs ↔ elems = xs.map some := by
    intro elems
    induction elems with
    | nil => intro xs; cases xs <;> simp
    | cons a elems ih =>
      intro xs
      rw [List.foldr_cons]
      generalize hr : elems.foldr _ _ = r at ih ⊢
      cases r with
      | error m =>
        simp only [Except.bind, reduceCtorEq, false_iff] at ih ⊢
        intro h
        cases xs with
        | nil => simp at h
        | cons x xs =>
          simp only [List.map_cons, List.cons.injEq] at h
          exact ih xs h.2
      | ok names =>
        have hn := (ih names).mp rfl
        subst hn
        cases a with
        | none =>
          simp only [Except.bind, reduceCtorEq, false_iff]
          cases xs <;> simp
        | some a =>
          simp only [Except.bind, Except.ok.injEq]
          cases xs with
          | nil => simp
          | cons x xs =>
            simp only [List.cons.injEq, List.map_cons, Option.some.injEq]
            rw [List.map_inj_right (fun _ _ h => Option.some.inj h)]
  cases p with
  | ident x plain =>
    cases plain
    · simp only [letNames, Bool.false_eq_true, if_false, reduceCtorEq, false_iff]
      intro h; cases h
    · simp only [letNames, if_true, Except.ok.injEq]
      constructor
      · rintro rfl; exact .one x
      · intro h; cases h; rfl
  | tuple hasAttrs elems =>
    cases hasAttrs
    · refine Iff.trans (b := elems = xs.map some) (htuple elems xs) ?_
      constructor
      · rintro rfl; exact .tuple xs
      · intro h; cases h; rfl
    · simp only [letNames, if_true, reduceCtorEq, false_iff]
      intro h; cases h
  | other =>
    simp only [letNames, reduceCtorEq, false_iff]
    intro h; cases h

/-! ### Statements -/

theorem append_nil (p : Prog) : p ++ Prog.nil = p := by
  show p.append .nil = p
  induction p with
  | nil => rfl
  | leaf l rest ih => simp [Prog.append, ih]
  | scriptIf i t e el en rest _ _ ih => simp [Prog.append, ih]

/-- What a first statement contributes. -/
inductive Piece where
  | leaf (l : Leaf)
  | block (inner : Syn)

def Piece.before : Piece → Syn → Syn
  | .leaf l, s => .leaf l s
  | .block inner, s => .block inner s

/-- What an expression statement says. -/
inductive SaysExpr : Expr → Piece → Prop
  | op {e o} (ho : SaysOp e none o) : SaysExpr e (.leaf (.opcode o))
  | push (src : Src) : SaysExpr (.other src) (.leaf (.push src.op none))
  | block {body inner} (src : Src) (hb : Says body inner) : SaysExpr (.block src body) (.block inner)
  | forLoop {body inner p} (src : Src) (hb : Says body inner) (hp : parseStmts inner = .ok p) :
      SaysExpr (.forLoop src body) (.leaf .forLoop)
  | ifThen {t inner p} (src : Src) (ht : Says t inner) (hp : parseStmts inner = .ok p) :
      SaysExpr (.ifThen src t) (.leaf .rustIf)
  | ifElse {t e inner x p p'} (src : Src) (ht : Says t inner) (hp : parseStmts inner = .ok p)
      (he : SaysExpr e x) (hp' : parseList (x.before .nil) = .ok p') :
      SaysExpr (.ifElse src t e) (.leaf .rustIf)

theorem says_of_piece {e : Expr} {x : Piece} (h : SaysExpr e x) :
    ∀ {rest : Stmts} {s : Syn}, Says rest s → Says (.expr e rest) (x.before s) := by
  induction h with
  | op ho => exact fun hr => .op ho hr
  | push src => exact fun hr => .push src hr
  | block src hb => exact fun hr => .block src hb hr
  | forLoop src hb hp => exact fun hr => .forLoop src hb hp hr
  | ifThen src hb hp => exact fun hr => .ifThen src hb hp hr
  | ifElse src hb hp he hp' ih => exact fun hr => .ifElse src hb hp (ih .nil) hp' hr

theorem piece_of_says {ss : Stmts} {s : Syn} (h : Says ss s) :
    ∀ {e rest}, ss = .expr e rest → ∃ x s', SaysExpr e x ∧ Says rest s' ∧ s = x.before s' := by
  induction h with
  | op ho hr _ => intro e rest h; cases h; exact ⟨_, _, .op ho, hr, rfl⟩
  | push src hr _ => intro e rest h; cases h; exact ⟨_, _, .push src, hr, rfl⟩
  | block src hb hr _ _ => intro e rest h; cases h; exact ⟨_, _, .block src hb, hr, rfl⟩
  | forLoop src hb hp hr _ _ => intro e rest h; cases h; exact ⟨_, _, .forLoop src hb hp, hr, rfl⟩
  | ifThen src hb hp hr _ _ => intro e rest h; cases h; exact ⟨_, _, .ifThen src hb hp, hr, rfl⟩
  | ifElse src hb hp he hp' hr _ ih _ =>
    intro e rest h; cases h
    obtain ⟨x, s', hx, hn, rfl⟩ := ih rfl
    cases hn
    exact ⟨_, _, .ifElse src hb hp hx hp', hr, rfl⟩
  | _ => intro e rest h; cases h

theorem bind_ok {α β : Type} {x : Except String α} {f : α → Except String β} {b : β} :
    x.bind f = .ok b ↔ ∃ a, x = .ok a ∧ f a = .ok b := by
  cases x <;> simp [Except.bind]

theorem map_ok {α β : Type} {x : Except String α} {f : α → β} {b : β} :
    x.map f = .ok b ↔ ∃ a, x = .ok a ∧ f a = b := by
  cases x <;> simp [Except.map]

theorem before_parse (x : Piece) (s : Syn) (q : Prog) : parseList (x.before s) = .ok q ↔
    ∃ p r, parseList (x.before .nil) = .ok p ∧ parseList s = .ok r ∧ q = p ++ r := by
  cases x with
  | leaf l =>
    simp only [Piece.before, parseList, map_ok]
    constructor
    · rintro ⟨r, hr, rfl⟩; exact ⟨_, r, ⟨.nil, rfl, rfl⟩, hr, rfl⟩
    · rintro ⟨p, r, ⟨_, h, rfl⟩, hr, rfl⟩
      injection h with h; subst h
      exact ⟨r, hr, rfl⟩
  | block inner =>
    simp only [Piece.before, parseList, map_ok, bind_ok]
    constructor
    · rintro ⟨p, hp, r, hr, rfl⟩
      exact ⟨p, r, ⟨p, hp, .nil, rfl, append_nil p⟩, hr, rfl⟩
    · rintro ⟨p, r, ⟨p', hp, _, h, rfl⟩, hr, rfl⟩
      injection h with h; subst h
      exact ⟨p', hp, r, hr, by rw [append_nil]⟩

theorem parseLet_iff (pat : Pat) (e : Expr) (l : Leaf) : parseLet pat e = .ok l ↔
    (∃ names o, SaysNames pat names ∧ SaysOp e (some names) o ∧ l = .opcode o) ∨
    (∃ x op, SaysNames pat [x] ∧ SaysValue e op ∧ l = .push op (some x)) := by
  unfold parseLet
  rw [bind_ok]
  simp only [saysNames_iff]
  have hopval : ∀ {names o op}, SaysOp e (some names) o → SaysValue e op → False := by
    intro names o op h1 h2; cases h1 <;> cases h2
  have hval : (∀ p, e ≠ .path p) → (∀ a c as, e ≠ .call a c as) → ∀ op, SaysValue e op ↔ op = e.pushop := by
    intro h1 h2 op
    constructor
    · intro h; cases h <;> rfl
    · rintro rfl
      cases e with
      | path p => exact absurd rfl (h1 p)
      | call a c as => exact absurd rfl (h2 a c as)
      | _ => constructor
  have hop : ∀ (names : List String), (parseOpcode e (some names)).map Leaf.opcode = .ok l ↔
      ∃ o, SaysOp e (some names) o ∧ l = .opcode o := by
    intro names
    rw [map_ok]
    simp only [saysOp_iff]
    exact ⟨fun ⟨o, h1, h2⟩ => ⟨o, h1, h2.symm⟩, fun ⟨o, h1, h2⟩ => ⟨o, h1, h2.symm⟩⟩
  have hpush : (∀ p, e ≠ .path p) → (∀ a c as, e ≠ .call a c as) → ∀ names,
      (match names with
      | [name] => Except.ok (Leaf.push e.pushop (some name))
      | _ => .error "Expected single output") = .ok l ↔
      ∃ x op, names = [x] ∧ SaysValue e op ∧ l = .push op (some x) := by
    intro h1 h2 names
    match names with
    | [] => simp
    | [x] =>
      simp only [Except.ok.injEq, List.cons.injEq, and_true]
      constructor
      · rintro rfl; exact ⟨x, _, rfl, (hval h1 h2 _).mpr rfl, rfl⟩
      · rintro ⟨x, op, rfl, hv, rfl⟩; rw [(hval h1 h2 _).mp hv]
    | _ :: _ :: _ => simp
  have hnoop : (∀ p, e ≠ .path p) → (∀ a c as, e ≠ .call a c as) → ∀ names o, ¬ SaysOp e names o := by
    intro h1 h2 names o h
    cases h with
    | bare => exact h1 _ rfl
    | call => exact h2 _ _ _ rfl
  cases e with
  | path p =>
    constructor
    · rintro ⟨names, hn, h⟩
      obtain ⟨o, ho, rfl⟩ := (hop names).mp h
      exact .inl ⟨names, o, hn, ho, rfl⟩
    · rintro (⟨names, o, hn, ho, rfl⟩ | ⟨_, _, _, hv, _⟩)
      · exact ⟨names, hn, (hop names).mpr ⟨o, ho, rfl⟩⟩
      · cases hv
  | call a c as =>
    constructor
    · rintro ⟨names, hn, h⟩
      obtain ⟨o, ho, rfl⟩ := (hop names).mp h
      exact .inl ⟨names, o, hn, ho, rfl⟩
    · rintro (⟨names, o, hn, ho, rfl⟩ | ⟨_, _, _, hv, _⟩)
      · exact ⟨names, hn, (hop names).mpr ⟨o, ho, rfl⟩⟩
      · cases hv
  | _ =>
    constructor
    · rintro ⟨names, hn, h⟩
      obtain ⟨x, op, rfl, hv, rfl⟩ := (hpush (by simp) (by simp) names).mp h
      exact .inr ⟨x, op, hn, hv, rfl⟩
    · rintro (⟨names, o, _, ho, _⟩ | ⟨x, op, hn, hv, rfl⟩)
      · exact absurd ho (hnoop (by simp) (by simp) _ _)
      · exact ⟨[x], hn, (hpush (by simp) (by simp) [x]).mpr ⟨x, op, rfl, hv, rfl⟩⟩

mutual
theorem expr_iff : (e : Expr) → ∀ q, parseStmtExpr e = .ok q ↔
    ∃ x, SaysExpr e x ∧ parseList (x.before .nil) = .ok q
  | .forLoop src body => by
    intro q
    simp only [parseStmtExpr, map_ok, bind_ok]
    constructor
    · rintro ⟨p, ⟨p', hp', hp⟩, rfl⟩
      obtain ⟨s, hs, hps⟩ := (stmts_iff body p').mp hp'
      exact ⟨_, .forLoop src hs (p := p) (by rw [parseStmts, bind_ok]; exact ⟨p', hps, hp⟩), rfl⟩
    · rintro ⟨x, hx, hq⟩
      cases hx with
      | op ho => cases ho
      | forLoop _ hb hp =>
        rw [parseStmts, bind_ok] at hp
        obtain ⟨p', h1, h2⟩ := hp
        injection hq with hq
        exact ⟨_, ⟨p', (stmts_iff body p').mpr ⟨_, hb, h1⟩, h2⟩, hq⟩
  | .ifThen src body => by
    intro q
    simp only [parseStmtExpr, map_ok, bind_ok]
    constructor
    · rintro ⟨p, ⟨p', hp', hp⟩, rfl⟩
      obtain ⟨s, hs, hps⟩ := (stmts_iff body p').mp hp'
      exact ⟨_, .ifThen src hs (p := p) (by rw [parseStmts, bind_ok]; exact ⟨p', hps, hp⟩), rfl⟩
    · rintro ⟨x, hx, hq⟩
      cases hx with
      | op ho => cases ho
      | ifThen _ hb hp =>
        rw [parseStmts, bind_ok] at hp
        obtain ⟨p', h1, h2⟩ := hp
        injection hq with hq
        exact ⟨_, ⟨p', (stmts_iff body p').mpr ⟨_, hb, h1⟩, h2⟩, hq⟩
  | .ifElse src t e => by
    intro q
    simp only [parseStmtExpr, map_ok, bind_ok]
    constructor
    · rintro ⟨p, ⟨p', hp', hp⟩, r, hr, rfl⟩
      obtain ⟨s, hs, hps⟩ := (stmts_iff t p').mp hp'
      obtain ⟨x, hx, hxr⟩ := (expr_iff e r).mp hr
      exact ⟨_, .ifElse src hs (p := p) (by rw [parseStmts, bind_ok]; exact ⟨p', hps, hp⟩) hx hxr, rfl⟩
    · rintro ⟨x, hx, hq⟩
      cases hx with
      | op ho => cases ho
      | ifElse _ hb hp he hp' =>
        rw [parseStmts, bind_ok] at hp
        obtain ⟨p', h1, h2⟩ := hp
        injection hq with hq
        exact ⟨_, ⟨p', (stmts_iff t p').mpr ⟨_, hb, h1⟩, h2⟩, _, (expr_iff e _).mpr ⟨_, he, hp'⟩, hq⟩
  | .block src body => by
    intro q
    simp only [parseStmtExpr, bind_ok]
    constructor
    · rintro ⟨p', hp', hp⟩
      obtain ⟨s, hs, hps⟩ := (stmts_iff body p').mp hp'
      refine ⟨_, .block src hs, ?_⟩
      simp only [Piece.before, parseList, bind_ok, map_ok]
      exact ⟨q, ⟨p', hps, hp⟩, .nil, rfl, append_nil q⟩
    · rintro ⟨x, hx, hq⟩
      cases hx with
      | op ho => cases ho
      | block _ hb =>
        simp only [Piece.before, parseList, bind_ok, map_ok] at hq
        obtain ⟨p, ⟨p', h1, h2⟩, _, h3, rfl⟩ := hq
        injection h3 with h3; subst h3
        rw [append_nil]
        exact ⟨p', (stmts_iff body p').mpr ⟨_, hb, h1⟩, h2⟩
  | .call a c as => by
    intro q
    simp only [parseStmtExpr, map_ok, saysOp_iff]
    constructor
    · rintro ⟨o, ho, rfl⟩; exact ⟨_, .op ho, rfl⟩
    · rintro ⟨x, hx, hq⟩
      cases hx with
      | op ho => injection hq with hq; exact ⟨_, ho, hq⟩
  | .path p => by
    intro q
    simp only [parseStmtExpr, map_ok, saysOp_iff]
    constructor
    · rintro ⟨o, ho, rfl⟩; exact ⟨_, .op ho, rfl⟩
    · rintro ⟨x, hx, hq⟩
      cases hx with
      | op ho => injection hq with hq; exact ⟨_, ho, hq⟩
  | .other src => by
    intro q
    simp only [parseStmtExpr, Except.ok.injEq]
    constructor
    · rintro rfl; exact ⟨_, .push src, rfl⟩
    · rintro ⟨x, hx, hq⟩
      cases hx with
      | op ho => cases ho
      | push _ => injection hq with hq
theorem stmts_iff : (ss : Stmts) → ∀ q, parseStmtList ss = .ok q ↔
    ∃ syn, Says ss syn ∧ parseList syn = .ok q
  | .nil => by
    intro q
    constructor
    · intro h; exact ⟨_, .nil, h⟩
    · rintro ⟨_, h, hq⟩; cases h; exact hq
  | .letInit pat e rest => by
    intro q
    simp only [parseStmtList, bind_ok, map_ok, parseLet_iff]
    constructor
    · rintro ⟨l, hl, r, hr, rfl⟩
      obtain ⟨s, hs, hsr⟩ := (stmts_iff rest r).mp hr
      have hp : parseList (.leaf l s) = .ok (.leaf l r) := by rw [parseList, hsr]; rfl
      rcases hl with ⟨names, o, hn, ho, rfl⟩ | ⟨x, op, hn, hv, rfl⟩
      · exact ⟨_, .letOp hn ho hs, hp⟩
      · exact ⟨_, .letPush hn hv hs, hp⟩
    · rintro ⟨s, hs, hq⟩
      cases hs with
      | letOp hn ho hr =>
        simp only [parseList, map_ok] at hq
        obtain ⟨r, h, rfl⟩ := hq
        exact ⟨_, .inl ⟨_, _, hn, ho, rfl⟩, r, (stmts_iff rest r).mpr ⟨_, hr, h⟩, rfl⟩
      | letPush hn hv hr =>
        simp only [parseList, map_ok] at hq
        obtain ⟨r, h, rfl⟩ := hq
        exact ⟨_, .inr ⟨_, _, hn, hv, rfl⟩, r, (stmts_iff rest r).mpr ⟨_, hr, h⟩, rfl⟩
  | .letOnly pat rest => by
    intro q
    simp only [parseStmtList, reduceCtorEq, false_iff]
    rintro ⟨_, h, _⟩; cases h
  | .expr e rest => by
    intro q
    simp only [parseStmtList, bind_ok, map_ok]
    constructor
    · rintro ⟨p, hp, r, hr, rfl⟩
      obtain ⟨x, hx, hxp⟩ := (expr_iff e p).mp hp
      obtain ⟨s, hs, hsr⟩ := (stmts_iff rest r).mp hr
      exact ⟨_, says_of_piece hx hs, (before_parse x s _).mpr ⟨p, r, hxp, hsr, rfl⟩⟩
    · rintro ⟨s, hs, hq⟩
      obtain ⟨x, s', hx, hr, rfl⟩ := piece_of_says hs rfl
      obtain ⟨p, r, hp, hr', rfl⟩ := (before_parse x s' q).mp hq
      exact ⟨p, (expr_iff e p).mpr ⟨x, hx, hp⟩, r, (stmts_iff rest r).mpr ⟨s', hr, hr'⟩, rfl⟩
  | .item rest => by
    intro q
    simp only [parseStmtList, reduceCtorEq, false_iff]
    rintro ⟨_, h, _⟩; cases h
end

/-! ### Arguments of the attribute -/

/-- The effect of a setting. -/
def apply (s : Settings) : Setting → Settings
  | .variant v c => { s with variants := s.variants ++ [(v, c)] }
  | .crateName c => { s with crateName := some c }
  | .debug b => { s with debug := some b }

theorem parseSetting_iff {lx : Lex} (hl : LexOk lx) (s s' : Settings) (a : NestedMeta) :
    parseSetting lx s a = .ok s' ↔ ∃ st : Setting, a = st.written ∧ st.Ok lx ∧ s' = apply s st := by
  constructor
  · intro h
    unfold parseSetting at h
    split at h
    · rename_i path lit
      split at h
      · simp at h
      · rename_i x hx
        rw [singlePath_some] at hx
        subst hx
        split at h
        · rename_i hc
          subst hc
          cases lit <;> simp only [parseStringLit, reduceCtorEq] at h
          rename_i c
          split at h
          · rename_i hi
            injection h with h
            exact ⟨.crateName c, rfl, hi, h.symm⟩
          · simp at h
        · rename_i hnc
          split at h
          · rename_i hd
            subst hd
            cases lit <;> simp only [parseBoolLit, reduceCtorEq] at h
            rename_i b
            injection h with h
            exact ⟨.debug b, rfl, trivial, h.symm⟩
          · rename_i hnd
            rw [Res.bind_eq_ok] at h
            obtain ⟨p, hp, h⟩ := h
            injection h with h
            unfold parsePredicateLit at hp
            cases lit <;> simp only [parseStringLit, reduceCtorEq] at hp
            rename_i str
            obtain ⟨hw, hne, hg⟩ := (C47_parse_iff_partial lx.alnum hl.not hl.and hl.or _ _).mp hp
            refine ⟨.variant x p, ?_, ⟨hnc, hnd, hne, hg⟩, h.symm⟩
            simp only [Setting.written]
            rw [← hw, String.ofList_toList]
    · simp at h
  · rintro ⟨st, rfl, hok, rfl⟩
    cases st with
    | variant v c =>
      obtain ⟨h1, h2, h3, h4⟩ := hok
      simp only [Setting.written, parseSetting, singlePath_name, if_neg h1, if_neg h2, parsePredicateLit,
        parseStringLit]
      rw [(C47_parse_iff_partial lx.alnum hl.not hl.and hl.or _ c).mpr
        ⟨by rw [String.toList_ofList], h3, h4⟩]
      rfl
    | crateName c =>
      simp only [Setting.Ok] at hok
      simp only [Setting.written, parseSetting, singlePath_name, if_true, parseStringLit, hok]
      rfl
    | debug b => rfl

theorem parseSettings_iff {lx : Lex} (hl : LexOk lx) (as : List NestedMeta) (s s' : Settings) :
    parseSettings lx as s = .ok s' ↔
      ∃ l : List Setting, as = l.map Setting.written ∧ (∀ st ∈ l, st.Ok lx) ∧ s' = l.foldl apply s := by
  induction as generalizing s with
  | nil =>
    simp only [parseSettings, Res.ok.injEq]
    constructor
    · rintro rfl; exact ⟨[], rfl, by simp, rfl⟩
    · rintro ⟨l, h, _, rfl⟩
      cases l with
      | nil => rfl
      | cons _ _ => simp at h
  | cons a as ih =>
    simp only [parseSettings, Res.bind_eq_ok]
    constructor
    · rintro ⟨s1, h1, h2⟩
      obtain ⟨st, rfl, hok, rfl⟩ := (parseSetting_iff hl s s1 a).mp h1
      obtain ⟨l, rfl, hl', rfl⟩ := (ih _).mp h2
      exact ⟨st :: l, rfl, by simpa using ⟨hok, hl'⟩, rfl⟩
    · rintro ⟨l, h, hl', rfl⟩
      cases l with
      | nil => simp at h
      | cons st l =>
        simp only [List.map_cons, List.cons.injEq] at h
        obtain ⟨rfl, rfl⟩ := h
        exact ⟨apply s st, (parseSetting_iff hl _ _ _).mpr ⟨st, rfl, hl' st (by simp), rfl⟩,
          (ih _).mpr ⟨l, rfl, fun x hx => hl' x (by simp [hx]), rfl⟩⟩

theorem foldl_apply (l : List Setting) : l.foldl apply ⟨none, [], none⟩ =
    ⟨crateSetting l, variantSettings l, debugSetting l⟩ := by
  induction l using List.reverseRecOn with
  | nil => rfl
  | append_singleton l st ih =>
    rw [List.foldl_append, ih]
    simp only [crateSetting, variantSettings, debugSetting, List.filterMap_append]
    cases st <;> simp [apply]

/-! ### Parameters -/

theorem parseListed_iff (m : NestedMeta) (v : String) :
    parseListed m = .ok v ↔ m = .nested (.path (name v)) := by
  constructor
  · intro h
    unfold parseListed at h
    split at h
    · split at h
      · rename_i x hx
        rw [singlePath_some] at hx
        injection h with h
        rw [hx, h]
      · simp at h
    · simp at h
  · rintro rfl; rfl

theorem collectListed_iff (ms : List NestedMeta) (vs : List String) :
    collect parseListed ms = .ok vs ↔ ms = vs.map fun v => .nested (.path (name v)) := by
  induction ms generalizing vs with
  | nil =>
    simp only [collect, Res.ok.injEq]
    cases vs <;> simp
  | cons m ms ih =>
    simp only [collect, Res.bind_eq_ok]
    constructor
    · rintro ⟨v, hv, vs', hvs, h⟩
      injection h with h
      rw [parseListed_iff] at hv
      rw [ih] at hvs
      rw [← h, hv, hvs]; rfl
    · intro h
      cases vs with
      | nil => simp at h
      | cons v vs =>
        simp only [List.map_cons, List.cons.injEq] at h
        exact ⟨v, (parseListed_iff _ _).mpr h.1, vs, (ih vs).mpr h.2, rfl⟩

/-- The variants an attribute lists. -/
def markList : Mark → Option (List String)
  | .variants vs => some vs
  | .bare => some ["variant"]
  | .other _ => none

theorem listed_eq (marks : List Mark) : listed marks = (marks.filterMap markList).getLast? := by
  unfold listed
  congr 2
  funext m
  cases m <;> rfl

theorem listed_cons (m : Mark) (ms : List Mark) (vs : Option (List String)) :
    (listed (m :: ms)).or vs = (listed ms).or ((markList m).or vs) := by
  rw [listed_eq, listed_eq, List.filterMap_cons]
  cases hm : markList m with
  | none => simp
  | some x =>
    simp only [List.getLast?_cons, Option.some_or]
    cases (ms.filterMap markList).getLast? <;> simp

theorem parseInputAttrs_iff (as : List Attribute) (vs : Option (List String)) (attrs : List Attribute)
    (r : Option (List String) × List Attribute) :
    parseInputAttrs as vs attrs = .ok r ↔ ∃ marks : List Mark, as = marks.map Mark.written ∧
      (∀ m ∈ marks, m.Ok) ∧ r = ((listed marks).or vs, attrs ++ kept marks) := by
  induction as generalizing vs attrs with
  | nil =>
    simp only [parseInputAttrs, Res.ok.injEq]
    constructor
    · rintro rfl; exact ⟨[], rfl, by simp, by simp [listed, kept]⟩
    · rintro ⟨marks, h, _, rfl⟩
      cases marks with
      | nil => simp [listed, kept]
      | cons _ _ => simp at h
  | cons a as ih =>
    obtain ⟨path, content⟩ := a
    have step : ∀ (m : Mark), m.Ok → m.written = ⟨path, content⟩ →
        (parseInputAttrs as ((markList m).or vs) (attrs ++ kept [m]) = .ok r ↔
        ∃ marks : List Mark, (⟨path, content⟩ :: as : List Attribute) = marks.map Mark.written ∧
          (∀ m ∈ marks, m.Ok) ∧ r = ((listed marks).or vs, attrs ++ kept marks)) := by
      intro m hm hw
      rw [ih]
      constructor
      · rintro ⟨marks, rfl, hok, rfl⟩
        refine ⟨m :: marks, by simp [hw], by simpa using ⟨hm, hok⟩, ?_⟩
        rw [listed_cons]
        cases m <;> simp [kept]
      · rintro ⟨marks, h, hok, rfl⟩
        cases marks with
        | nil => simp at h
        | cons m' marks =>
          simp only [List.map_cons, List.cons.injEq] at h
          have hmm : m' = m := by
            have hw' := h.1
            rw [← hw] at hw'
            have hok' := hok m' (by simp)
            cases m <;> cases m' <;> simp only [Mark.written, Attribute.mk.injEq, Mark.Ok,
              AttrContent.list.injEq, true_and, reduceCtorEq, and_false] at hw' hm hok'
            · rename_i vs1 vs2
              congr 1
              exact (List.map_inj_right (fun a b h => by
                simpa [name] using h)).mp hw'.symm
            · subst hw'; exact absurd rfl hok'
            · rfl
            · subst hw'; exact absurd rfl hok'
            · subst hw'; exact absurd rfl hm
            · subst hw'; exact absurd rfl hm
            · rw [hw']
          subst hmm
          refine ⟨marks, h.2, fun x hx => hok x (by simp [hx]), ?_⟩
          rw [listed_cons]
          cases m' <;> simp [kept]
    by_cases hp : path = name "variant"
    · subst hp
      rw [parseInputAttrs, if_pos (singlePath_name _)]
      cases content with
      | none =>
        have := step .bare trivial rfl
        simp only [markList, Option.some_or, kept, List.filterMap_cons, List.filterMap_nil,
          List.append_nil] at this
        exact this
      | list nested =>
        by_cases hn : ∃ l : List String, nested = l.map fun v => NestedMeta.nested (.path (name v))
        · obtain ⟨l, rfl⟩ := hn
          simp only [Attribute.parseMeta]
          rw [(collectListed_iff _ l).mpr rfl]
          have := step (.variants l) trivial rfl
          simp only [markList, Option.some_or, kept, List.filterMap_cons, List.filterMap_nil,
            List.append_nil] at this
          exact this
        · constructor
          · intro h
            simp only [Attribute.parseMeta, Res.bind_eq_ok] at h
            obtain ⟨l, h1, _⟩ := h
            exact absurd ⟨l, (collectListed_iff _ _).mp h1⟩ hn
          · rintro ⟨marks, h, hok, rfl⟩
            exfalso
            cases marks with
            | nil => simp at h
            | cons m marks =>
              simp only [List.map_cons, List.cons.injEq] at h
              have hok' := hok m (by simp)
              have hw := h.1
              cases m <;> simp only [Mark.written, Attribute.mk.injEq, Mark.Ok,
                AttrContent.list.injEq, true_and, reduceCtorEq, and_false] at hw hok'
              · exact hn ⟨_, hw⟩
              · rw [← hw] at hok'; exact hok' rfl
      | value lit =>
        simp only [Attribute.parseMeta, reduceCtorEq, false_iff]
        rintro ⟨marks, h, hok, rfl⟩
        cases marks with
        | nil => simp at h
        | cons m marks =>
          simp only [List.map_cons, List.cons.injEq] at h
          have hok' := hok m (by simp)
          have hw := h.1
          cases m <;> simp only [Mark.written, Attribute.mk.injEq, Mark.Ok, reduceCtorEq, and_false] at hw hok'
          rw [← hw] at hok'; exact hok' rfl
      | other =>
        simp only [Attribute.parseMeta, reduceCtorEq, false_iff]
        rintro ⟨marks, h, hok, rfl⟩
        cases marks with
        | nil => simp at h
        | cons m marks =>
          simp only [List.map_cons, List.cons.injEq] at h
          have hok' := hok m (by simp)
          have hw := h.1
          cases m <;> simp only [Mark.written, Attribute.mk.injEq, Mark.Ok, reduceCtorEq, and_false] at hw hok'
          rw [← hw] at hok'; exact hok' rfl
    · rw [parseInputAttrs, if_neg (by rw [singlePath_some]; exact hp)]
      have := step (.other ⟨path, content⟩) hp rfl
      simp only [markList, Option.none_or, kept, List.filterMap_cons, List.filterMap_nil] at this
      exact this

theorem parseFnArg_iff (a : FnArg) (i : ScriptInput) : parseFnArg a = .ok i ↔ IsInput a i := by
  cases a with
  | receiver =>
    simp only [parseFnArg, reduceCtorEq, false_iff]
    rintro ⟨_, _, h, _⟩; cases h
  | typed attrs pat ty =>
    simp only [parseFnArg, parseScriptInput, Res.bind_eq_ok, parseInputAttrs_iff]
    constructor
    · rintro ⟨r, ⟨marks, rfl, hok, rfl⟩, h⟩
      cases pat <;> simp only [reduceCtorEq] at h
      rename_i x plain
      injection h with h
      subst h
      exact ⟨marks, plain, rfl, hok, by simp, by simp⟩
    · rintro ⟨marks, plain, h, hok, hv, ha⟩
      injection h with h1 h2 h3
      subst h1 h2 h3
      refine ⟨_, ⟨marks, rfl, hok, rfl⟩, ?_⟩
      obtain ⟨n, t, vs, as⟩ := i
      simp only at hv ha
      subst hv ha
      simp

theorem collectArgs_iff (as : List FnArg) (is : List ScriptInput) :
    collect parseFnArg as = .ok is ↔ List.Forall₂ IsInput as is := by
  induction as generalizing is with
  | nil =>
    simp only [collect, Res.ok.injEq]
    cases is <;> simp
  | cons a as ih =>
    simp only [collect, Res.bind_eq_ok, List.forall₂_cons_left_iff, ih, parseFnArg_iff]
    constructor
    · rintro ⟨i, hi, is', his, h⟩
      injection h with h
      exact ⟨i, is', hi, his, h.symm⟩
    · rintro ⟨i, is', hi, his, rfl⟩
      exact ⟨i, hi, is', his, rfl⟩

/-! ### Documentation -/

theorem dropWhile_append_all {p : Char → Bool} {l r : List Char} (hl : ∀ c ∈ l, p c = true) :
    (l ++ r).dropWhile p = r.dropWhile p := by
  induction l with
  | nil => rfl
  | cons a l ih =>
    rw [List.cons_append, List.dropWhile_cons, if_pos (hl a (by simp))]
    exact ih fun c hc => hl c (by simp [hc])

theorem trim_iff (lx : Lex) (s : String) (core : List Char) (a z : Char) (more : List Char)
    (hc : core = a :: more) (hz : core.getLast? = some z) (ha : lx.white a = false) (hw : lx.white z = false) :
    trim lx s = core ↔ ∃ before after : List Char, s.toList = before ++ core ++ after ∧
      (∀ c ∈ before, lx.white c = true) ∧ ∀ c ∈ after, lx.white c = true := by
  obtain ⟨init, hinit⟩ : ∃ init, core = init ++ [z] := by
    obtain ⟨init, h⟩ := List.getLast?_eq_some_iff.mp hz
    exact ⟨init, h⟩
  constructor
  · intro h
    unfold trim at h
    refine ⟨s.toList.takeWhile lx.white,
      (((s.toList.dropWhile lx.white).reverse).takeWhile lx.white).reverse, ?_, ?_, ?_⟩
    · rw [List.append_assoc, ← h, ← List.reverse_append, List.takeWhile_append_dropWhile (p := lx.white)
        (l := (s.toList.dropWhile lx.white).reverse), List.reverse_reverse,
        List.takeWhile_append_dropWhile]
    · intro c hc; exact List.all_eq_true.mp List.all_takeWhile c hc
    · intro c hc
      rw [List.mem_reverse] at hc
      exact List.all_eq_true.mp List.all_takeWhile c hc
  · rintro ⟨before, after, hs, hb, hf⟩
    unfold trim
    rw [hs, List.append_assoc, dropWhile_append_all hb]
    have h1 : (core ++ after).dropWhile lx.white = core ++ after := by
      rw [hc, List.cons_append, List.dropWhile_cons, if_neg (by simp [ha])]
    rw [h1, List.reverse_append, dropWhile_append_all (fun c hc => hf c (List.mem_reverse.mp hc))]
    have h2 : core.reverse.dropWhile lx.white = core.reverse := by
      rw [hinit, List.reverse_append]
      simp [hw]
    rw [h2, List.reverse_reverse]

theorem isHeading_iff {lx : Lex} (hl : LexOk lx) {x : String} (hx : Word lx x) (marker : String)
    (more : List Char) (hm : marker.toList = '#' :: more) (line : String) :
    isHeading lx marker.toList x line = true ↔ Heading lx marker x line := by
  obtain ⟨z, hz⟩ : ∃ z, x.toList.getLast? = some z := by
    cases h : x.toList.getLast? with
    | none => exact absurd (List.getLast?_eq_none_iff.mp h) hx.1
    | some z => exact ⟨z, rfl⟩
  unfold isHeading Heading
  rw [beq_iff_eq, trim_iff lx line _ '#' z (more ++ x.toList) (by rw [hm]; rfl)
    (by rw [List.getLast?_append, hz]; rfl) hl.hash (hx.2 z (List.mem_of_getLast? hz))]
  simp only [List.append_assoc]

/-- What is needed of the names in headings. -/
structure NamesOk (lx : Lex) (structName : String) (variants : List String) : Prop where
  lex : LexOk lx
  struct : Word lx structName
  variants : ∀ v ∈ variants, Word lx v

variable {lx : Lex} {structName : String} {variants : List String}

theorem structHeading_iff (h : NamesOk lx structName variants) (line : String) :
    isHeading lx ['#', ' '] structName line = true ↔ Heading lx "# " structName line :=
  isHeading_iff h.lex h.struct "# " [' '] rfl line

theorem variantHeading_iff (h : NamesOk lx structName variants) {v : String} (hv : v ∈ variants)
    (line : String) :
    isHeading lx ['#', '#', ' '] v line = true ↔ Heading lx "## " v line :=
  isHeading_iff h.lex (h.variants v hv) "## " ['#', ' '] rfl line

theorem not_both {u v : String} {line : String} (h1 : isHeading lx ['#', ' '] u line = true)
    (h2 : isHeading lx ['#', '#', ' '] v line = true) : False := by
  simp only [isHeading, beq_iff_eq] at h1 h2
  rw [h1] at h2
  simp at h2

theorem same_variant {u v : String} {line : String} (h1 : isHeading lx ['#', '#', ' '] u line = true)
    (h2 : isHeading lx ['#', '#', ' '] v line = true) : u = v := by
  simp only [isHeading, beq_iff_eq] at h1 h2
  rw [h1] at h2
  simp only [List.cons_append, List.nil_append, List.cons.injEq, true_and] at h2
  exact String.toList_inj.mp h2

theorem docLoop_append (l1 l2 : List String) (s : DocState) :
    docLoop lx structName variants (l1 ++ l2) s =
      (docLoop lx structName variants l1 s).bind (docLoop lx structName variants l2) := by
  induction l1 generalizing s with
  | nil => rfl
  | cons a l1 ih =>
    simp only [List.cons_append, docLoop]
    cases h : docLine lx structName variants s a with
    | ok s' => simp only [Res.bind]; exact ih s'
    | err e => rfl
    | panic => rfl

/-- Lines before the heading of the struct are dropped. -/
theorem docLoop_preamble (h : NamesOk lx structName variants) (ls : List String)
    (hls : ∀ l ∈ ls, ¬ Heading lx "# " structName l) :
    docLoop lx structName variants ls ⟨⟨[], []⟩, false, none⟩ = .ok ⟨⟨[], []⟩, false, none⟩ := by
  induction ls with
  | nil => rfl
  | cons l ls ih =>
    have h1 : isHeading lx ['#', ' '] structName l = false := by
      rw [← Bool.not_eq_true, structHeading_iff h]; exact hls l (by simp)
    simp only [docLoop, docLine, h1, Bool.false_eq_true, if_false, Res.bind]
    exact ih fun x hx => hls x (by simp [hx])

theorem find_plain (h : NamesOk lx structName variants) {l : String}
    (hl : Plain lx structName variants l) :
    isHeading lx ['#', ' '] structName l = false ∧
    (variants.find? fun v => isHeading lx ['#', '#', ' '] v l) = none := by
  constructor
  · rw [← Bool.not_eq_true, structHeading_iff h]; exact hl.1
  · rw [List.find?_eq_none]
    intro v hv
    rw [variantHeading_iff h hv]; exact hl.2 v hv

theorem docLoop_intro (h : NamesOk lx structName variants) (ls pre : List String)
    (hls : ∀ l ∈ ls, Plain lx structName variants l) :
    docLoop lx structName variants ls ⟨⟨pre, []⟩, true, none⟩ = .ok ⟨⟨pre ++ ls, []⟩, true, none⟩ := by
  induction ls generalizing pre with
  | nil => simp [docLoop]
  | cons l ls ih =>
    obtain ⟨h1, h2⟩ := find_plain h (hls l (by simp))
    simp only [docLoop, docLine, h1, Bool.false_eq_true, if_false, if_true, h2, Res.bind]
    rw [ih _ fun x hx => hls x (by simp [hx])]
    simp

/-- Updating the lines of a variant. -/
theorem lookup_update (l : List (String × List String)) (v w : String) (f : List String → List String) :
    (l.map fun p => if p.1 == v then (p.1, f p.2) else p).lookup w =
      if w = v then (l.lookup w).map f else l.lookup w := by
  induction l with
  | nil => split <;> rfl
  | cons a l ih =>
    obtain ⟨k, x⟩ := a
    simp only [List.map_cons]
    by_cases hk : k = v
    · subst hk
      simp only [beq_self_eq_true, if_true, List.lookup_cons]
      by_cases hw : w = k
      · subst hw; simp
      · rw [if_neg hw]
        have : (w == k) = false := by simpa using hw
        simp only [this]
        rw [ih, if_neg hw]
    · have h1 : (k == v) = false := by simpa using hk
      simp only [h1, Bool.false_eq_true, if_false, List.lookup_cons]
      by_cases hw : w = k
      · subst hw; simp [hk]
      · have : (w == k) = false := by simpa using hw
        simp only [this]
        exact ih

theorem any_lookup (l : List (String × List String)) (v : String) :
    (l.any fun p => p.1 == v) = (l.lookup v).isSome := by
  induction l with
  | nil => rfl
  | cons a l ih =>
    obtain ⟨k, x⟩ := a
    simp only [List.any_cons, List.lookup_cons]
    by_cases h : v = k
    · subst h; simp
    · have h1 : (v == k) = false := by simpa using h
      have h2 : (k == v) = false := by simpa using fun e : k = v => h e.symm
      simp only [h1, h2, Bool.false_or]
      exact ih

theorem lookup_append_single (l : List (String × List String)) (v w : String) (x : List String) :
    (l ++ [(v, x)]).lookup w = (l.lookup w).or (if w = v then some x else none) := by
  induction l with
  | nil =>
    simp only [List.nil_append, List.lookup_cons, List.lookup_nil, Option.none_or]
    by_cases h : w = v
    · subst h; simp
    · have : (w == v) = false := by simpa using h
      simp [this, h]
  | cons a l ih =>
    obtain ⟨k, y⟩ := a
    simp only [List.cons_append, List.lookup_cons]
    cases w == k
    · exact ih
    · rfl

theorem lookup_reset (l : List (String × List String)) (v w : String) :
    (resetDocs l v).lookup w = if w = v then some [] else l.lookup w := by
  unfold resetDocs
  rw [any_lookup]
  cases h : l.lookup v with
  | none =>
    rw [if_neg (by simp), lookup_append_single]
    by_cases hw : w = v
    · subst hw; simp [h]
    · simp [hw]
  | some x =>
    rw [if_pos (by simp)]
    have : (l.map fun p => if p.1 == v then (v, []) else p) =
        l.map fun p => if p.1 == v then (p.1, (fun _ => []) p.2) else p := by
      apply List.map_congr_left
      intro p _
      by_cases hp : p.1 = v <;> simp [hp]
    rw [this, lookup_update l v w (fun _ => [])]
    by_cases hw : w = v
    · subst hw; simp [h]
    · simp [hw]

/-- The lines of a section. -/
theorem docLoop_lines (h : NamesOk lx structName variants) (intro : List String) (v : String)
    (ls : List String) (hls : ∀ l ∈ ls, Plain lx structName variants l) :
    ∀ (vs : List (String × List String)) (x : List String), vs.lookup v = some x →
    ∃ vs', docLoop lx structName variants ls ⟨⟨intro, vs⟩, true, some v⟩ = .ok ⟨⟨intro, vs'⟩, true, some v⟩ ∧
      ∀ w, vs'.lookup w = if w = v then some (x ++ ls) else vs.lookup w := by
  induction ls with
  | nil =>
    intro vs x hx
    refine ⟨vs, rfl, fun w => ?_⟩
    split
    · rename_i e; subst e; simpa using hx
    · rfl
  | cons l ls ih =>
    intro vs x hx
    obtain ⟨h1, h2⟩ := find_plain h (hls l (by simp))
    have h3 : (vs.any fun p => p.1 == v) = true := by rw [any_lookup, hx]; rfl
    simp only [docLoop, docLine, h1, Bool.false_eq_true, if_false, if_true, h2, Res.bind, h3]
    obtain ⟨vs', hr, hv⟩ := ih (fun y hy => hls y (by simp [hy]))
      (vs.map fun p => if p.1 == v then (p.1, p.2 ++ [l]) else p) (x ++ [l]) (by
        rw [lookup_update vs v v (· ++ [l]), if_pos rfl, hx]; rfl)
    refine ⟨vs', hr, fun w => ?_⟩
    rw [hv, lookup_update vs v w (· ++ [l])]
    by_cases hw : w = v <;> simp [hw]

/-- Sections. -/
theorem docLoop_sections (h : NamesOk lx structName variants) (intro : List String)
    (ss : List (String × String × List String))
    (hss : ∀ s ∈ ss, s.1 ∈ variants ∧ Heading lx "## " s.1 s.2.1 ∧
      ∀ l ∈ s.2.2, Plain lx structName variants l) :
    ∀ (vs : List (String × List String)) (cur : Option String),
    ∃ vs' cur', docLoop lx structName variants (ss.flatMap fun s => s.2.1 :: s.2.2)
        ⟨⟨intro, vs⟩, true, cur⟩ = .ok ⟨⟨intro, vs'⟩, true, cur'⟩ ∧
      ∀ w, vs'.lookup w =
        (((ss.filter fun s => s.1 == w).getLast?).map fun s => s.2.2).or (vs.lookup w) := by
  induction ss with
  | nil => intro vs cur; exact ⟨vs, cur, rfl, fun w => rfl⟩
  | cons s ss ih =>
    intro vs cur
    obtain ⟨v, heading, lines⟩ := s
    obtain ⟨hv, hh, hlines⟩ := hss (v, heading, lines) (by simp)
    simp only at hv hh hlines
    have hh' := (variantHeading_iff h hv heading).mpr hh
    have h1 : isHeading lx ['#', ' '] structName heading = false := by
      rw [← Bool.not_eq_true]; exact fun e => not_both e hh'
    have h2 : (variants.find? fun v => isHeading lx ['#', '#', ' '] v heading) = some v := by
      cases hf : variants.find? fun v => isHeading lx ['#', '#', ' '] v heading with
      | none => exact absurd hh' (by simpa using (List.find?_eq_none.mp hf) v hv)
      | some u =>
        have hu : isHeading lx ['#', '#', ' '] u heading = true :=
          List.find?_some (p := fun v => isHeading lx ['#', '#', ' '] v heading) hf
        rw [same_variant hu hh']
    rw [List.flatMap_cons, docLoop_append]
    simp only [docLoop, docLine, h1, Bool.false_eq_true, if_false, if_true, h2, Res.bind]
    obtain ⟨vs1, hr, hv1⟩ := docLoop_lines h intro v lines hlines (resetDocs vs v) [] (by
      rw [lookup_reset, if_pos rfl])
    rw [hr]
    obtain ⟨vs', cur', hr', hv'⟩ := ih (fun s hs => hss s (by simp [hs])) vs1 (some v)
    refine ⟨vs', cur', hr', fun w => ?_⟩
    rw [hv', hv1, List.nil_append, lookup_reset]
    by_cases hw : w = v
    · subst hw
      simp only [if_true, List.filter_cons, beq_self_eq_true, List.getLast?_cons]
      cases (ss.filter fun s => s.1 == w).getLast? <;> simp
    · have : (v == w) = false := by simpa using fun e : v = w => hw e.symm
      simp only [if_neg hw, List.filter_cons, this, Bool.false_eq_true, if_false]

theorem docLine_total (s : DocState) (line : String)
    (hs : ∀ v, s.current = some v → (s.docs.variants.lookup v).isSome = true) :
    ∃ s', docLine lx structName variants s line = .ok s' ∧
      ∀ v, s'.current = some v → (s'.docs.variants.lookup v).isSome = true := by
  unfold docLine
  split
  · exact ⟨_, rfl, hs⟩
  · split
    · rename_i v _
      refine ⟨_, rfl, fun w hw => ?_⟩
      injection hw with hw
      subst hw
      simp only [lookup_reset, if_true, Option.isSome_some]
    · split
      · rename_i v hv
        rw [any_lookup, if_pos (hs v hv)]
        refine ⟨_, rfl, fun w hw => ?_⟩
        have := hs w hw
        rw [lookup_update s.docs.variants v w (· ++ [line])]
        split
        · simpa using this
        · exact this
      · split
        · exact ⟨_, rfl, hs⟩
        · exact ⟨_, rfl, hs⟩

theorem docLoop_total (ls : List String) (s : DocState)
    (hs : ∀ v, s.current = some v → (s.docs.variants.lookup v).isSome = true) :
    ∃ s', docLoop lx structName variants ls s = .ok s' := by
  induction ls generalizing s with
  | nil => exact ⟨s, rfl⟩
  | cons l ls ih =>
    obtain ⟨s1, h1, h2⟩ := docLine_total (lx := lx) (structName := structName) (variants := variants) s l hs
    obtain ⟨s', h'⟩ := ih s1 h2
    exact ⟨s', by rw [docLoop, h1]; exact h'⟩

theorem docLines_eq (attrs : List Attribute) : attrs.filterMap parseDocAttribute = docLines attrs := by
  unfold docLines
  congr 1
  funext a
  obtain ⟨⟨x, more⟩, content⟩ := a
  unfold parseDocAttribute
  cases content with
  | none => simp [Attribute.parseMeta]
  | list n => simp [Attribute.parseMeta]
  | other => simp [Attribute.parseMeta]
  | value lit =>
    cases more with
    | cons y ys => simp [Attribute.parseMeta, singlePath]
    | nil =>
      simp only [Attribute.parseMeta, singlePath, List.isEmpty_nil, if_true]
      by_cases hx : x = "doc"
      · subst hx
        cases lit <;> rfl
      · rw [if_neg hx]
        split
        · rename_i h
          simp only [Attribute.mk.injEq, Path.mk.injEq] at h
          exact absurd h.1.1 hx
        · rfl

end SourceProofs
end BCash
