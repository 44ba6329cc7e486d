import Verif.Spec.Typed
import Verif.Proofs.MacroTyped

/-! # Every accepted script gives checked code

The stacks of variables have the heights of the stacks of items in every variant, so whatever the macro
pops, the variables are there. -/

namespace BCash.TypeProofs
open Macro Spec Spec.Macro Spec.Named GenProofs

/-- Stacks of the same heights. -/
def Same2 (s : VState) (i : Idents) : Prop := i.stack.length = s.stack.length ∧ i.alt.length = s.alt.length

def Par (states : List (String × VState)) (is : List Idents) : Prop :=
  List.Forall₂ (fun p i => Same2 p.2 i) states is

/-- The keys and conditions. -/
def sig (states : List (String × VState)) : List (String × Predicate) := states.map fun p => (p.1, p.2.condition)

theorem active_of_sig {g g' : Gen} (h : sig g'.states = sig g.states) (ha : g'.atoms = g.atoms) :
    g'.active = g.active := by
  have := congrArg (List.map fun p : String × Predicate => p.2.holds g.atoms) h
  unfold Gen.active
  rw [ha]
  simpa [sig, Function.comp_def] using this

theorem takeLoop_par (f : VState → Except String (Item × VState)) (fi : Idents → Option (String × Idents))
    (hc : ∀ s i s', f s = .ok (i, s') → s'.condition = s.condition)
    (hf : ∀ s it s' i, f s = .ok (it, s') → Same2 s i → ∃ x i', fi i = some (x, i') ∧ Same2 s' i')
    (atoms : List Atom) (states states' : List (String × VState)) (prev last : Option Item)
    (is : List Idents) (h : Gen.takeLoop f atoms states prev = .ok (states', last)) (hp : Par states is) :
    ∃ xs is', takeIdents fi (states.map fun p => p.2.condition.holds atoms) is = some (xs, is') ∧
      Par states' is' ∧ sig states' = sig states ∧ (xs = [] → last = prev) := by
  induction hp generalizing states' prev with
  | nil => cases h; exact ⟨[], [], rfl, .nil, rfl, fun _ => rfl⟩
  | @cons p i l is hpi hrest ih =>
    obtain ⟨v, s⟩ := p
    simp only [Gen.takeLoop] at h
    split at h
    · next hh =>
      cases hfs : f s with
      | error m => rw [hfs] at h; cases h
      | ok r =>
        obtain ⟨item, s'⟩ := r
        rw [hfs] at h
        simp only [Except.bind] at h
        split at h
        · cases hr : Gen.takeLoop f atoms l (some item) with
          | error m => rw [hr] at h; cases h
          | ok r =>
            obtain ⟨sts, lst⟩ := r
            rw [hr] at h
            cases h
            obtain ⟨xs, is', h1, h2, h3, _⟩ := ih _ _ hr
            obtain ⟨x, i', h4, h5⟩ := hf _ _ _ _ hfs hpi
            refine ⟨x :: xs, i' :: is', ?_, .cons h5 h2, ?_, by simp⟩
            · simp only [List.map_cons, hh, takeIdents, h4, Option.bind_some, h1, Option.map_some]
            · have := hc _ _ _ hfs
              unfold sig at h3 ⊢
              simp [h3, this]
        · cases h
    · next hh =>
      cases hr : Gen.takeLoop f atoms l prev with
      | error m => rw [hr] at h; cases h
      | ok r =>
        obtain ⟨sts, lst⟩ := r
        rw [hr] at h
        cases h
        obtain ⟨xs, is', h1, h2, h3, h4⟩ := ih _ _ hr
        refine ⟨xs, i :: is', ?_, .cons hpi h2, ?_, h4⟩
        · simp only [Bool.not_eq_true] at hh
          simp only [List.map_cons, hh, takeIdents, h1, Option.map_some]
        · unfold sig at h3 ⊢
          simp [h3]

/-- What a step keeps. -/
structure Kept (g g' : Gen) (is' : List Idents) : Prop where
  par : Par g'.states is'
  sig : sig g'.states = sig g.states
  atoms : g'.atoms = g.atoms

theorem take_par {f : VState → Except String (Item × VState)} {fi : Idents → Option (String × Idents)}
    (hc : ∀ s i s', f s = .ok (i, s') → s'.condition = s.condition)
    (hf : ∀ s it s' i, f s = .ok (it, s') → Same2 s i → ∃ x i', fi i = some (x, i') ∧ Same2 s' i')
    {g g' : Gen} {item : Item} {is : List Idents} (h : Gen.take f g = .ok (item, g')) (hp : Par g.states is) :
    ∃ xs x is', takeIdents fi g.active is = some (xs, is') ∧ xs.getLast? = some x ∧ Kept g g' is' := by
  unfold Gen.take at h
  cases hr : Gen.takeLoop f g.atoms g.states none with
  | error m => rw [hr] at h; cases h
  | ok r =>
    obtain ⟨sts, last⟩ := r
    rw [hr] at h
    cases last with
    | none => cases h
    | some it =>
      cases h
      obtain ⟨xs, is', h1, h2, h3, h4⟩ := takeLoop_par f fi hc hf _ _ _ _ _ _ hr hp
      cases hx : xs.getLast? with
      | none => exact absurd (h4 (List.getLast?_eq_none_iff.mp hx)) (by simp)
      | some x => exact ⟨xs, x, is', h1, hx, h2, h3, rfl⟩

theorem pop_par {g g' : Gen} {item : Item} {is : List Idents} (h : g.pop = .ok (item, g'))
    (hp : Par g.states is) :
    ∃ xs x is', popIdents g.active is = some (xs, is') ∧ xs.getLast? = some x ∧ Kept g g' is' := by
  refine take_par ?_ ?_ h hp
  · intro s i s' hs; split at hs <;> cases hs; rfl
  · rintro ⟨c, st, al⟩ it s' ⟨ist, ial⟩ hs ⟨h1, h2⟩
    dsimp only at hs h1 h2
    cases st with
    | nil => cases hs
    | cons a st =>
      cases hs
      cases ist with
      | nil => simp at h1
      | cons x ist => exact ⟨x, _, rfl, by simpa using h1, h2⟩

theorem popAlt_par {g g' : Gen} {item : Item} {is : List Idents} (h : g.popAlt = .ok (item, g'))
    (hp : Par g.states is) :
    ∃ xs x is', popAltIdents g.active is = some (xs, is') ∧ xs.getLast? = some x ∧ Kept g g' is' := by
  refine take_par ?_ ?_ h hp
  · intro s i s' hs; split at hs <;> cases hs; rfl
  · rintro ⟨c, st, al⟩ it s' ⟨ist, ial⟩ hs ⟨h1, h2⟩
    dsimp only at hs h1 h2
    cases al with
    | nil => cases hs
    | cons a al =>
      cases hs
      cases ial with
      | nil => simp at h2
      | cons x ial => exact ⟨x, _, rfl, h1, by simpa using h2⟩

theorem pick_par {isRoll : Bool} {depth : Nat} {g g' : Gen} {item : Item} {is : List Idents}
    (h : (if isRoll then g.roll depth else g.pick depth) = .ok (item, g')) (hp : Par g.states is) :
    ∃ xs x is', pickIdents isRoll depth g.active is = some (xs, is') ∧ xs.getLast? = some x ∧ Kept g g' is' := by
  cases isRoll with
  | false =>
    refine take_par ?_ ?_ h hp
    · intro s i s' hs; split at hs <;> cases hs; rfl
    · rintro s it s' i hs ⟨h1, h2⟩
      split at hs
      · next hd =>
        cases hs
        obtain ⟨hlt, _⟩ := List.getElem?_eq_some_iff.mp hd
        have : depth < i.stack.length := by omega
        exact ⟨i.stack[depth], i, by simp [this], h1, h2⟩
      · cases hs
  | true =>
    refine take_par ?_ ?_ h hp
    · intro s i s' hs; split at hs <;> cases hs; rfl
    · rintro s it s' i hs ⟨h1, h2⟩
      split at hs
      · next hd =>
        cases hs
        obtain ⟨hlt, _⟩ := List.getElem?_eq_some_iff.mp hd
        have : depth < i.stack.length := by omega
        refine ⟨i.stack[depth], { i with stack := i.stack.eraseIdx depth }, by simp [this], ?_, h2⟩
        simp only [List.length_eraseIdx, h1]
      · cases hs

theorem find_par {name : String} {depth : Nat} {g : Gen} {is : List Idents}
    (h : g.findItem name = .ok depth) (hp : Par g.states is) :
    ∃ xs x is', pickIdents false depth g.active is = some (xs, is') ∧ xs.getLast? = some x := by
  have key : ∀ (states : List (String × VState)) (is : List Idents) prev r, Par states is →
      Gen.findLoop name g.atoms states prev = .ok (some r) →
      (∀ d, prev = some d → d = r) ∧
      ∃ xs is', pickIdents false r (states.map fun p => p.2.condition.holds g.atoms) is = some (xs, is') ∧
        (xs = [] → prev = some r) := by
    intro states is prev r hp
    induction hp generalizing prev with
    | nil =>
      intro h
      cases h
      exact ⟨fun d hd => (Option.some.inj hd).symm, [], [], rfl, fun _ => rfl⟩
    | @cons p i l is hpi hrest ih =>
      obtain ⟨v, s⟩ := p
      intro h
      simp only [Gen.findLoop] at h
      split at h
      · next hh =>
        split at h
        · cases h
        · next depth hd =>
          split at h
          · next hall =>
            obtain ⟨h1, xs, is', h2, _⟩ := ih _ h
            have := h1 depth rfl
            subst this
            refine ⟨?_, ?_⟩
            · intro d hd'
              subst hd'
              simpa using hall
            · have hlt : depth < i.stack.length := by
                rw [hpi.1]
                exact (List.findIdx?_eq_some_iff_getElem.mp hd).1
              refine ⟨i.stack[depth] :: xs, i :: is', ?_, by simp⟩
              unfold pickIdents at h2 ⊢
              simp only [List.map_cons, hh, takeIdents, List.getElem?_eq_getElem hlt, Option.map_some,
                Option.bind_some, h2]
              rfl
          · cases h
      · next hh =>
        simp only [Bool.not_eq_true] at hh
        obtain ⟨h1, xs, is', h2, h3⟩ := ih _ h
        refine ⟨h1, xs, i :: is', ?_, h3⟩
        unfold pickIdents at h2 ⊢
        simp only [List.map_cons, hh, takeIdents, h2, Option.map_some]
  unfold Gen.findItem at h
  cases hr : Gen.findLoop name g.atoms g.states none with
  | error m => rw [hr] at h; cases h
  | ok r =>
    rw [hr] at h
    cases r with
    | none => cases h
    | some d =>
      cases h
      obtain ⟨_, xs, is', h1, h2⟩ := key _ _ _ _ hp hr
      cases hx : xs.getLast? with
      | none => exact absurd (h2 (List.getLast?_eq_none_iff.mp hx)) (by simp)
      | some x => exact ⟨xs, x, is', h1, hx⟩

theorem push_par (x : String) (item : Item) {g : Gen} {is : List Idents} (hp : Par g.states is) :
    Kept g (g.push item) (pushIdent x g.active is) := by
  refine ⟨?_, ?_, rfl⟩
  · unfold Gen.push Gen.active
    dsimp only
    generalize g.states = l at hp
    induction hp with
    | nil => exact .nil
    | @cons p i l is hpi hrest ih =>
      simp only [List.map_cons]
      cases hh : p.2.condition.holds g.atoms with
      | true => exact .cons ⟨by simp [hpi.1], hpi.2⟩ ih
      | false => exact .cons hpi ih
  · unfold sig Gen.push
    simp only [List.map_map]
    refine List.map_congr_left fun p _ => ?_
    simp only [Function.comp_apply]
    split <;> rfl

theorem push_par' (n : Nat) (x : String) (item : Item) {g : Gen} {is : List Idents} (hp : Par g.states is) :
    Kept g (({ g with nIdent := n } : Gen).push item) (pushIdent x g.active is) := by
  obtain ⟨h1, h2, h3⟩ := push_par (g := { g with nIdent := n }) x item hp
  exact ⟨h1, h2, h3⟩

theorem pushAlt_par (x : String) (item : Item) {g : Gen} {is : List Idents} (hp : Par g.states is) :
    Kept g (g.pushAlt item) (pushAltIdent x g.active is) := by
  refine ⟨?_, ?_, rfl⟩
  · unfold Gen.pushAlt Gen.active
    dsimp only
    generalize g.states = l at hp
    induction hp with
    | nil => exact .nil
    | @cons p i l is hpi hrest ih =>
      simp only [List.map_cons]
      cases hh : p.2.condition.holds g.atoms with
      | true => exact .cons ⟨hpi.1, by simp [hpi.2]⟩ ih
      | false => exact .cons hpi ih
  · unfold sig Gen.pushAlt
    simp only [List.map_map]
    refine List.map_congr_left fun p _ => ?_
    simp only [Function.comp_apply]
    split <;> rfl

theorem Kept.trans {g g1 g2 : Gen} {is1 is2 : List Idents} (h1 : Kept g g1 is1) (h2 : Kept g1 g2 is2) :
    Kept g g2 is2 := ⟨h2.par, h2.sig.trans h1.sig, h2.atoms.trans h1.atoms⟩

theorem Kept.active {g g1 : Gen} {is1 : List Idents} (h : Kept g g1 is1) : g1.active = g.active :=
  active_of_sig h.sig h.atoms

theorem popN_par (n : Nat) {g g' : Gen} {items : List Item} {is : List Idents}
    (h : popN n g = .ok (items, g')) (hp : Par g.states is) :
    ∃ xss is', popNIdents g.active n is = some (xss, is') ∧ xss.length = n ∧ (∀ xs ∈ xss, xs ≠ []) ∧
      Kept g g' is' := by
  induction n generalizing g g' items is with
  | zero => cases h; exact ⟨[], is, rfl, rfl, by simp, hp, rfl, rfl⟩
  | succ n ih =>
    simp only [popN] at h
    obtain ⟨⟨item, g1⟩, h1, h⟩ := Res.bind_eq_ok.mp h
    obtain ⟨⟨items', g2⟩, h2, h⟩ := Res.bind_eq_ok.mp h
    cases h
    have h1' : g.pop = .ok (item, g1) := by
      cases hq : g.pop with
      | error m => rw [hq] at h1; cases h1
      | ok q => rw [hq] at h1; cases h1; rfl
    obtain ⟨xs, x, is1, p1, p2, p3⟩ := pop_par h1' hp
    obtain ⟨xss, is2, q1, q2, q3, q4⟩ := ih h2 p3.par
    rw [p3.active] at q1
    refine ⟨xss ++ [xs], is2, ?_, by simp [q2], ?_, p3.trans q4⟩
    · simp only [popNIdents, p1, Option.bind_some, q1, Option.map_some]
    · intro ys hy
      rcases List.mem_append.mp hy with hy | hy
      · exact q3 _ hy
      · simp only [List.mem_singleton] at hy
        subst hy
        rintro rfl
        simp at p2

theorem pushAll_par (outs : List String) (items : List Item) (hl : outs.length = items.length) {g : Gen}
    {is : List Idents} (hp : Par g.states is) :
    Kept g (items.foldl Gen.push g) (outs.foldl (fun is x => pushIdent x g.active is) is) := by
  induction outs generalizing items g is with
  | nil =>
    cases items with
    | nil => exact ⟨hp, rfl, rfl⟩
    | cons => simp at hl
  | cons x outs ih =>
    cases items with
    | nil => simp at hl
    | cons it items =>
      simp only [List.foldl_cons]
      have h1 := push_par x it hp
      have h2 := ih items (by simpa using hl) h1.par
      rw [h1.active] at h2
      exact h1.trans h2

theorem lift_ok {α : Type} {r : Except String α} {a : α} (h : lift r = .ok a) : r = .ok a := by
  cases r with
  | error m => cases h
  | ok b => cases h; rfl

theorem collect_length {α β : Type} {f : α → Res String β} {l : List α} {r : List β} (h : collect f l = .ok r) :
    r.length = l.length := by
  induction l generalizing r with
  | nil => cases h; rfl
  | cons a l ih =>
    simp only [collect] at h
    obtain ⟨b, _, h⟩ := Res.bind_eq_ok.mp h
    obtain ⟨bs, hbs, h⟩ := Res.bind_eq_ok.mp h
    cases h
    simp [ih hbs]

theorem outputItems_length {o : Opcode} {b : OpcodeBehavior} {items out : List Item}
    {names : Option (List String)} {n k : Nat} (h : outputItems o b items names n = .ok (out, k)) :
    out.length = outputCount b names := by
  unfold outputItems at h
  unfold outputCount
  split at h
  · split at h
    · cases h
    · obtain ⟨out', h1, h⟩ := Res.bind_eq_ok.mp h
      cases h
      simp [collect_length h1]
  · split at h
    · obtain ⟨out', h1, h⟩ := Res.bind_eq_ok.mp h
      cases h
      simp [collect_length h1, *]
    · obtain ⟨out', h1, h⟩ := Res.bind_eq_ok.mp h
      cases h
      simp [collect_length h1, *]

theorem opcode_calls (tyOf : String → Option FTy) (stmt : OpcodeStmt) (g g' : Gen) (e : List Emit)
    (is : List Idents) (h : runOpcode stmt g = .ok (e, g')) (hp : Par g.states is)
    (hty : Resolves tyOf (.opcode stmt)) :
    ∃ code is', identsOpcode tyOf stmt g is = some (code, is') ∧ Checks tyOf (.opcode stmt) code ∧
      Kept g g' is' := by
  obtain ⟨hd, inp, out⟩ := stmt
  have depth : ∀ name off hd', (hd' = .depthOf ∨ hd' = .depthOfOffset) →
      runDepthOf name off ⟨hd', inp, out⟩ g = .ok (e, g') →
      ∃ code is', identsOpcode tyOf ⟨hd', inp, out⟩ g is = some (code, is') ∧
        Checks tyOf (.opcode ⟨hd', inp, out⟩) code ∧ Kept g g' is' := by
    intro name off hd' hh h
    obtain ⟨_, _, _, _, _, _, _, rfl⟩ := runDepthOf_ok h
    have hx : ∃ x, identsOpcode tyOf ⟨hd', inp, out⟩ g is = some ([.bind x .integer], pushIdent x g.active is) := by
      rcases hh with rfl | rfl <;> exact ⟨_, rfl⟩
    obtain ⟨x, hx⟩ := hx
    refine ⟨_, _, hx, ?_, ?_⟩
    · rcases hh with rfl | rfl
      · exact .depthOf inp out x
      · exact .depthOfOffset inp out x
    exact push_par' _ _ _ hp
  have pick : ∀ o isRoll, (o = .OP_PICK ∨ o = .OP_ROLL) → runPickRoll o isRoll ⟨.op o, inp, out⟩ g = .ok (e, g') →
      ∃ ds xs is', identsOpcode.pickRoll g is o isRoll =
        some ([.call [] o [ds], .moved xs], is') ∧ Checks tyOf (.opcode ⟨.op o, inp, out⟩)
          [.call [] o [ds], .moved xs] ∧ Kept g g' is' := by
    intro o isRoll ho h
    unfold runPickRoll at h
    obtain ⟨⟨top, g1⟩, h1, h⟩ := Res.bind_eq_ok.mp h
    obtain ⟨_, _, h⟩ := Res.bind_eq_ok.mp h
    obtain ⟨dep, h3, h⟩ := Res.bind_eq_ok.mp h
    obtain ⟨⟨item, g2⟩, h4, h⟩ := Res.bind_eq_ok.mp h
    obtain ⟨item', _, h⟩ := Res.bind_eq_ok.mp h
    cases h
    have hdep : (top.integer.getD 0).toNat = dep := by
      split at h3
      · next i hi =>
        split at h3
        · cases h3; simp [hi]
        · cases h3
      · next hi => cases h3; simp [hi]
    obtain ⟨ds, y, is1, p1, p2, p3⟩ := pop_par (lift_ok h1) hp
    obtain ⟨xs, x, is2, q1, q2, q3⟩ := pick_par (lift_ok h4) p3.par
    have k := p3.trans q3
    have := push_par x item' q3.par
    rw [k.active] at this
    rw [p3.active] at q1
    refine ⟨ds, xs, pushIdent x g.active is2, ?_, ?_, k.trans this⟩
    · simp only [identsOpcode.pickRoll, lift_ok h1, p1, Option.bind_some, hdep, q1, q2, Option.map_some]
    · refine .pickRoll o ho inp out ds xs ?_ ?_
      · rintro rfl; simp at p2
      · rintro rfl; simp at q2
  cases hd with
  | depthOf =>
    simp only [runOpcode] at h
    split at h
    · exact depth _ _ _ (.inl rfl) h
    · cases h
  | depthOfOffset =>
    simp only [runOpcode] at h
    split at h
    · exact depth _ _ _ (.inr rfl) h
    · cases h
  | transmute =>
    simp only [runOpcode, runTransmute] at h
    split at h
    · next _ name ty =>
      replace h := of_ite_err h
      obtain ⟨dep, h1, h⟩ := Res.bind_eq_ok.mp h
      cases h
      obtain ⟨xs, x, is', p1, p2⟩ := find_par (lift_ok h1) hp
      obtain ⟨t, ht⟩ := hty name ty out rfl
      refine ⟨[.bind x t], is, ?_, .transmute name ty out x t ht, hp, rfl, rfl⟩
      simp only [identsOpcode, lift_ok h1, p1, Option.bind_some, p2, ht, Option.map_some]
    · cases h
  | unknown => cases h
  | op o =>
    have other : (o ≠ .OP_TOALTSTACK ∧ o ≠ .OP_FROMALTSTACK ∧ o ≠ .OP_PICK ∧ o ≠ .OP_ROLL) →
        runOther o ⟨.op o, inp, out⟩ g = .ok (e, g') →
        ∃ code is', ((o.behavior).bind fun b => (popNIdents g.active b.inputTypes.length is).map fun (xss, is) =>
          let outs := (List.range (outputCount b out)).map fun i => freshName (g.nIdent + i)
          ([RustStmt.call outs o xss], outs.foldl (fun is x => pushIdent x g.active is) is)) = some (code, is') ∧
          Checks tyOf (.opcode ⟨.op o, inp, out⟩) code ∧ Kept g g' is' := by
      intro ho h
      unfold runOther at h
      cases hb : o.behavior with
      | none => rw [hb] at h; cases h
      | some b =>
        rw [hb] at h
        dsimp only at h
        obtain ⟨⟨items, g1⟩, h1, h⟩ := Res.bind_eq_ok.mp h
        obtain ⟨_, _, h⟩ := Res.bind_eq_ok.mp h
        obtain ⟨⟨outItems, k⟩, h3, h⟩ := Res.bind_eq_ok.mp h
        cases h
        obtain ⟨xss, is1, p1, p2, p3, p4⟩ := popN_par _ h1 hp
        have hlen := outputItems_length h3
        have := pushAll_par ((List.range (outputCount b out)).map fun i => freshName (g.nIdent + i)) outItems
          (by simp [hlen]) (g := { g1 with nIdent := g1.nIdent + k }) p4.par
        have hact : ({ g1 with nIdent := g1.nIdent + k } : Gen).active = g.active := p4.active
        rw [hact] at this
        refine ⟨[RustStmt.call ((List.range (outputCount b out)).map fun i => freshName (g.nIdent + i)) o xss], _, by
            simp only [Option.bind_some, p1, Option.map_some], ?_,
          ⟨this.par, this.sig.trans p4.sig, this.atoms.trans p4.atoms⟩⟩
        exact .call o ho.1 ho.2.1 ho.2.2.1 ho.2.2.2 inp out _ xss b hb p2 p3
    unfold runOpcode at h
    dsimp only at h
    split at h
    · next q =>
      cases q
      obtain ⟨⟨item, g1⟩, h1, h⟩ := Res.bind_eq_ok.mp h
      obtain ⟨_, _, h⟩ := Res.bind_eq_ok.mp h
      obtain ⟨item', _, h⟩ := Res.bind_eq_ok.mp h
      cases h
      obtain ⟨xs, x, is1, p1, p2, p3⟩ := pop_par (lift_ok h1) hp
      have := pushAlt_par x item' p3.par
      rw [p3.active] at this
      refine ⟨[.moved xs], _, by simp only [identsOpcode, p1, Option.bind_some, p2, Option.map_some], ?_, p3.trans this⟩
      refine .moved _ (.inl rfl) inp out xs ?_
      rintro rfl; simp at p2
    · next q =>
      cases q
      obtain ⟨⟨item, g1⟩, h1, h⟩ := Res.bind_eq_ok.mp h
      obtain ⟨_, _, h⟩ := Res.bind_eq_ok.mp h
      obtain ⟨item', _, h⟩ := Res.bind_eq_ok.mp h
      cases h
      obtain ⟨xs, x, is1, p1, p2, p3⟩ := popAlt_par (lift_ok h1) hp
      have := push_par x item' p3.par
      rw [p3.active] at this
      refine ⟨[.moved xs], _, by simp only [identsOpcode, p1, Option.bind_some, p2, Option.map_some], ?_, p3.trans this⟩
      refine .moved _ (.inr rfl) inp out xs ?_
      rintro rfl; simp at p2
    · next q =>
      cases q
      obtain ⟨ds, xs, is', h1, h2, h3⟩ := pick _ _ (.inl rfl) h
      exact ⟨_, is', h1, h2, h3⟩
    · next q =>
      cases q
      obtain ⟨ds, xs, is', h1, h2, h3⟩ := pick _ _ (.inr rfl) h
      exact ⟨_, is', h1, h2, h3⟩
    · next o' n1 n2 n3 n4 q =>
      cases q
      split at h
      · obtain ⟨code, is', h1, h2, h3⟩ := other ⟨fun hh => n1 (by rw [hh]), fun hh => n2 (by rw [hh]),
          fun hh => n3 (by rw [hh]), fun hh => n4 (by rw [hh])⟩ h
        refine ⟨code, is', ?_, h2, h3⟩
        rw [← h1]
        unfold identsOpcode
        dsimp only
        split
        · next q => cases q; exact absurd rfl n1
        · next q => cases q; exact absurd rfl n2
        · next q => cases q; exact absurd rfl n3
        · next q => cases q; exact absurd rfl n4
        · next q => cases q; rfl
        · next q => cases q
        · next q => cases q
        · next q => cases q
        · next q => cases q
      · cases h
    · next q => cases q
    · next q => cases q
    · next q => cases q
    · next q => cases q

theorem leaf_calls (tyOf : String → Option FTy) (l : Leaf) (g g' : Gen) (e : List Emit)
    (is : List Idents) (h : runLeaf l g = .ok (e, g')) (hp : Par g.states is) (hty : Resolves tyOf l) :
    ∃ code is', identsLeaf tyOf l g is = some (code, is') ∧ Checks tyOf l code ∧ Kept g g' is' := by
  cases l with
  | push op name =>
    simp only [runLeaf, runPush, Res.ok.injEq, Prod.mk.injEq] at h
    obtain ⟨_, rfl⟩ := h
    obtain ⟨t, ht⟩ := hty
    have : pushType op = some t := by
      cases op <;> simp only [pushedType] at ht <;> first | (cases ht; rfl) | cases ht
    refine ⟨[.bind (name.getD (freshName g.nIdent)) t],
      pushIdent (name.getD (freshName g.nIdent)) g.active is, by
        simp only [identsLeaf, this, Option.map_some], ?_, ?_⟩
    · exact .push op name _ t ht (by rintro y rfl; rfl)
    · exact push_par' _ _ _ hp
  | opcode stmt => exact opcode_calls tyOf stmt g g' e is h hp hty
  | forLoop => cases h
  | rustIf => cases h

theorem merge_par (T : List (String × VState)) (hn : (T.map Prod.fst).Nodup) (hi he : List Atom) :
    ∀ (gt ge states : List (String × VState)) (ts es : List Idents), (∀ q ∈ gt, q ∈ T) → sig gt = sig ge →
      Par gt ts → Par ge es → merge T hi he ge = .ok states →
      Par states (mergeIdents (thenOnly hi he ge) ts es) ∧ sig states = sig ge := by
  intro gt ge
  induction ge generalizing gt with
  | nil =>
    intro states ts es _ _ _ h2 h
    cases h
    cases h2
    cases ts <;> exact ⟨.nil, rfl⟩
  | cons p ge ih =>
    obtain ⟨v, s⟩ := p
    intro states ts es hsub hsig h1 h2 h
    cases gt with
    | nil => cases hsig
    | cons q gt =>
      simp only [sig, List.map_cons, List.cons.injEq, Prod.mk.injEq] at hsig
      obtain ⟨⟨hk, hc⟩, hsig⟩ := hsig
      cases h1 with
      | @cons _ t _ ts h1 h1' =>
      cases h2 with
      | @cons _ e _ es h2 h2' =>
      unfold merge at h
      simp only [collect] at h
      obtain ⟨r, hr, h⟩ := Res.bind_eq_ok.mp h
      obtain ⟨rs, hrs, h⟩ := Res.bind_eq_ok.mp h
      cases h
      obtain ⟨i1, i2⟩ := ih gt rs ts es (fun q hq => hsub q (List.mem_cons_of_mem _ hq)) hsig h1' h2' hrs
      simp only [thenOnly, List.map_cons, mergeIdents]
      split at hr
      · next hcond =>
        obtain ⟨t', ht', hr⟩ := Res.bind_eq_ok.mp hr
        cases hr
        have hm := lookup_ok ht'
        have hq : (v, q.2) ∈ T := by
          have := hsub q List.mem_cons_self
          rw [← hk]; exact this
        have := key_unique hn hm hq
        subst this
        rw [if_pos hcond]
        refine ⟨.cons h1 i1, ?_⟩
        unfold sig at i2 ⊢
        simp [i2, hc]
      · next hcond =>
        cases hr
        rw [if_neg hcond]
        refine ⟨.cons h2 i1, ?_⟩
        unfold sig at i2 ⊢
        simp [i2]

theorem sig_keys {a b : List (String × VState)} (h : sig a = sig b) : a.map Prod.fst = b.map Prod.fst := by
  have := congrArg (List.map Prod.fst) h
  simpa [sig, Function.comp_def] using this

theorem prog_calls (tyOf : String → Option FTy) (p : Prog) :
    ∀ (g g' : Gen) (e : List Emit) (is : List Idents), runProg p g = .ok (e, g') → Par g.states is →
      (g.states.map Prod.fst).Nodup → (∀ l ∈ written p, Resolves tyOf l) →
      ∃ segs is', identsProg tyOf p g is = some (segs.flatten, is') ∧
        List.Forall₂ (Checks tyOf) (written p) segs ∧ Kept g g' is' := by
  induction p with
  | nil =>
    intro g g' e is h hp _ _
    cases h
    exact ⟨[], is, rfl, .nil, hp, rfl, rfl⟩
  | leaf l rest ih =>
    intro g g' e is h hp hn hty
    simp only [runProg] at h
    obtain ⟨⟨e1, g1⟩, h1, h⟩ := Res.bind_eq_ok.mp h
    obtain ⟨⟨e2, g2⟩, h2, h⟩ := Res.bind_eq_ok.mp h
    cases h
    obtain ⟨code, is1, p1, p2, p3⟩ := leaf_calls tyOf l g g1 e1 is h1 hp (hty l (by simp [written]))
    obtain ⟨segs, is2, q1, q2, q3⟩ := ih _ _ _ _ h2 p3.par (by rw [sig_keys p3.sig]; exact hn)
      (fun l hl => hty l (by simp [written, hl]))
    refine ⟨code :: segs, is2, ?_, .cons p2 q2, p3.trans q3⟩
    simp only [identsProg, h1, ok?, Option.bind_some, p1, q1, Option.map_some, List.flatten_cons]
  | scriptIf i t el elp en rest iht ihe ihr =>
    intro g g' e is h hp hn hty
    simp only [runProg] at h
    obtain ⟨⟨e1, g1⟩, h1, h⟩ := Res.bind_eq_ok.mp h
    obtain ⟨name, hname, h⟩ := Res.bind_eq_ok.mp h
    obtain ⟨⟨e2, gt⟩, h2, h⟩ := Res.bind_eq_ok.mp h
    obtain ⟨⟨e3, gt'⟩, h3, h⟩ := Res.bind_eq_ok.mp h
    obtain ⟨⟨e4, ge⟩, h4, h⟩ := Res.bind_eq_ok.mp h
    obtain ⟨⟨e5, ge'⟩, h5, h⟩ := Res.bind_eq_ok.mp h
    obtain ⟨states, h6, h⟩ := Res.bind_eq_ok.mp h
    obtain ⟨⟨e6, g6⟩, h7, h⟩ := Res.bind_eq_ok.mp h
    cases h
    obtain ⟨c1, is1, a1, a2, a3⟩ := opcode_calls tyOf i g g1 e1 is h1 hp (hty _ (by simp [written]))
    have hn1 : (g1.states.map Prod.fst).Nodup := by rw [sig_keys a3.sig]; exact hn
    obtain ⟨s2, is2, b1, b2, b3⟩ := iht _ _ _ is1 h2 a3.par hn1 (fun l hl => hty l (by simp [written, hl]))
    have hopt : ∃ s3 is3, identsOptional tyOf el gt is2 = some (s3.flatten, is3) ∧
        List.Forall₂ (Checks tyOf) (el.toList.map Leaf.opcode) s3 ∧ Kept gt gt' is3 := by
      cases el with
      | none => cases h3; exact ⟨[], is2, rfl, .nil, b3.par, rfl, rfl⟩
      | some el =>
        obtain ⟨c3, is3, x1, x2, x3⟩ := opcode_calls tyOf el gt gt' e3 is2 h3 b3.par (hty _ (by simp [written]))
        exact ⟨[c3], is3, by simp [identsOptional, x1], .cons x2 .nil, x3⟩
    obtain ⟨s3, is3, c1', c2', c3'⟩ := hopt
    obtain ⟨s4, is4, d1, d2, d3⟩ := ihe _ _ _ is1 h4 a3.par hn1 (fun l hl => hty l (by simp [written, hl]))
    obtain ⟨c5, is5, f1, f2, f3⟩ := opcode_calls tyOf en ge ge' e5 is4 h5 d3.par (hty _ (by simp [written]))
    have hst : sig gt'.states = sig g1.states := c3'.sig.trans b3.sig
    have hse : sig ge'.states = sig g1.states := f3.sig.trans d3.sig
    obtain ⟨m1, m2⟩ := merge_par gt'.states (by rw [sig_keys hst]; exact hn1) _ _ gt'.states ge'.states states is3 is5
      (fun _ h => h) (hst.trans hse.symm) c3'.par f3.par h6
    obtain ⟨s6, is6, g1', g2', g3'⟩ := ihr { ge' with states := states, atoms := g1.atoms } _ _ _ h7 m1 (by
      show (states.map Prod.fst).Nodup
      rw [sig_keys (m2.trans hse)]; exact hn1) (fun l hl => hty l (by simp [written, hl]))
    refine ⟨c1 :: (s2 ++ (s3 ++ s4)) ++ c5 :: s6, is6, ?_, ?_, ?_⟩
    · simp only [identsProg, h1, ok?, hname, Option.bind_some, a1, h2, b1, h3, c1', h4, d1, h5, f1, h6, g1',
        Option.map_some]
      simp
    · refine List.rel_append (.cons a2 (List.rel_append b2 (List.rel_append c2' d2))) (.cons f2 g2')
    · exact ⟨g3'.par, g3'.sig.trans ((m2.trans hse).trans a3.sig), g3'.atoms.trans a3.atoms⟩

end BCash.TypeProofs
