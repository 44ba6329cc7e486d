import Verif.Model.MacroDiag
import Verif.Proofs.MacroRecord

/-! # The two models of the generator agree; what the reports say about the tracked stacks -/

namespace BCash.DiagProofs
open BCash BCash.Macro BCash.Spec BCash.Spec.Macro BCash.Spec.Named BCash.GenProofs

/-- The error of `Model/MacroGen.lean` for a report. -/
def short : Diag → String
  | .emptyStack _ _ => "Empty stack"
  | .tooDeep _ _ _ => "Tried accessing too deep"
  | .namedInOne _ _ _ _ _ _ => "inconsistent stack item names"
  | .namedDifferently _ _ _ _ _ _ => "inconsistent stack item names"
  | .noVariant => "No variant for this op"
  | .noVariantFor _ => "No variant for this op"
  | .notFound _ _ => "Couldn't find item"
  | .depths _ _ _ _ _ _ _ _ => "Inconsistent item depths"
  | .inputCount _ _ => "Expected another number of input names"
  | .unnamed _ _ => "Mismatched stack item name"
  | .otherName _ _ _ => "Mismatched stack item name"
  | .outputCount _ _ _ => "Invalid number of output names"
  | .placeholder _ => "Cannot use `__` as output placeholder"
  | .argCount _ => "Expected 1 argument"
  | .notTop _ _ _ => "Expected another top item name"
  | .resultCount _ => "Pushes 1 item"
  | .negativeDepth => "out of range integral type conversion"
  | .integer _ => "depth is not an integer"
  | .oneVariable => "Expected 1 variable name"
  | .sameName => "Input and output name must be the same"
  | .oneParameter _ => "Expected 1 parameter"
  | .unknown _ => "Unknown opcode/function"
  | .forLoop => "For loops not implemented yet"
  | .rustIf => "`if` not implemented yet"
  | .conditionName => "Must provide variable name to `OP_IF`"
  | .undefinedVariant _ => "Undefined variant"
  | .inOpcode _ d => short d

theorem mapErr_bind {ε ε' α β : Type} (h : ε → ε') (x : Res ε α) (f : α → Res ε β) :
    (x.bind f).mapErr h = (x.mapErr h).bind fun a => (f a).mapErr h := by
  cases x <;> rfl

theorem mapErr_mapErr {ε ε' ε'' α : Type} (h : ε → ε') (h' : ε' → ε'') (x : Res ε α) :
    (x.mapErr h).mapErr h' = x.mapErr fun e => h' (h e) := by
  cases x <;> rfl

theorem bind_congr {ε α β : Type} {x y : Res ε α} {f f' : α → Res ε β} (h : x = y) (hf : ∀ a, f a = f' a) :
    x.bind f = y.bind f' := by
  subst h
  cases x with
  | ok a => exact hf a
  | _ => rfl

theorem short_differing (roll : Option (Nat × Bool)) (place : Place) (v v' : String) (i i' : Item) :
    short (Gen.differing roll place v i v' i') = "inconsistent stack item names" := by
  unfold Gen.differing
  split <;> rfl

theorem takeLoop_link (f : String → VState → Except Diag (Item × VState)) (f' : VState → Except String (Item × VState))
    (hf : ∀ v s, (f v s).mapError short = f' s) (roll : Option (Nat × Bool)) (place : Place) (atoms : List Atom)
    (l : List (String × VState)) (prev : Option (String × Item)) :
    (Gen.takeLoopD f roll place atoms l prev).mapError short = Gen.takeLoop f' atoms l (prev.map Prod.snd) := by
  induction l generalizing prev with
  | nil => rfl
  | cons p l ih =>
    obtain ⟨v, s⟩ := p
    unfold Gen.takeLoopD Gen.takeLoop
    have hfs := hf v s
    split
    · rw [← hfs]
      cases f v s with
      | error d => rfl
      | ok r =>
        obtain ⟨item, s'⟩ := r
        have ih' := ih (some (v, item))
        simp only [Option.map_some] at ih'
        cases prev with
        | none =>
          simp only [Option.map_none, Except.mapError, Except.bind, Gen.consistent, if_true]
          rw [← ih']
          cases Gen.takeLoopD f roll place atoms l (some (v, item)) <;> rfl
        | some q =>
          obtain ⟨w, p⟩ := q
          simp only [Option.map_some, Except.bind]
          by_cases hc : Gen.consistent (some p) item = true
          · simp only [hc, if_true, Except.mapError]
            rw [← ih']
            cases Gen.takeLoopD f roll place atoms l (some (v, item)) <;> rfl
          · simp only [hc, Bool.false_eq_true, if_false, Except.mapError, short_differing]
    · rw [← ih prev]
      cases Gen.takeLoopD f roll place atoms l prev <;> rfl

theorem take_link (f : String → VState → Except Diag (Item × VState)) (f' : VState → Except String (Item × VState))
    (hf : ∀ v s, (f v s).mapError short = f' s) (roll : Option (Nat × Bool)) (place : Place) (g : Gen) :
    (Gen.takeD f roll place g).mapErr short = lift (Gen.take f' g) := by
  have h := takeLoop_link f f' hf roll place g.atoms g.states none
  simp only [Option.map_none] at h
  unfold Gen.takeD Gen.take
  rw [← h]
  cases Gen.takeLoopD f roll place g.atoms g.states none with
  | error d => rfl
  | ok r =>
    obtain ⟨states, last⟩ := r
    cases last with
    | some i => rfl
    | none => cases roll <;> rfl

theorem pop_link (n : Nat) (g : Gen) : (Gen.popD n g).mapErr short = lift g.pop := by
  refine take_link _ _ (fun v s => ?_) _ _ g
  cases s.stack <;> rfl

theorem popAlt_link (g : Gen) : (Gen.popAltD g).mapErr short = lift g.popAlt := by
  refine take_link _ _ (fun v s => ?_) _ _ g
  cases s.alt <;> rfl

theorem pickRoll_link (isRoll : Bool) (depth : Nat) (g : Gen) :
    (Gen.pickRollD isRoll depth g).mapErr short = lift (if isRoll then g.roll depth else g.pick depth) := by
  cases isRoll with
  | true =>
    refine take_link _ _ (fun v s => ?_) _ _ g
    cases s.stack[depth]? <;> rfl
  | false =>
    refine take_link _ _ (fun v s => ?_) _ _ g
    cases s.stack[depth]? <;> rfl

theorem findLoop_link (x : String) (atoms : List Atom) (l : List (String × VState))
    (prev : Option (Nat × String × List Item)) :
    (Gen.findLoopD x atoms l prev).mapError short = Gen.findLoop x atoms l (prev.map Prod.fst) := by
  induction l generalizing prev with
  | nil => rfl
  | cons p l ih =>
    obtain ⟨v, s⟩ := p
    unfold Gen.findLoopD Gen.findLoop
    split
    · cases s.stack.findIdx? (fun item => item.name == x) with
      | none => rfl
      | some depth =>
        have ih' := ih (some (depth, v, s.stack))
        cases prev with
        | none =>
          simp only [Option.map_none, Option.all_none, if_true]
          exact ih'
        | some q =>
          obtain ⟨d, w, st⟩ := q
          simp only [Option.map_some, Option.all_some, beq_iff_eq]
          split
          · exact ih'
          · rfl
    · exact ih prev

theorem find_link (g : Gen) (x : String) : (Gen.findItemD g x).mapErr short = lift (g.findItem x) := by
  have h := findLoop_link x g.atoms g.states none
  simp only [Option.map_none] at h
  unfold Gen.findItemD Gen.findItem
  rw [← h]
  cases Gen.findLoopD x g.atoms g.states none with
  | error d => rfl
  | ok r => cases r <;> rfl

theorem verify_link (o : Opcode) (stmt : OpcodeStmt) (item : Item) (place : Place) :
    (verifyItemNameD o stmt item place).mapErr short = verifyItemName stmt item := by
  unfold verifyItemNameD verifyItemName
  cases stmt.inputNames with
  | none => rfl
  | some l =>
    match l with
    | [] => rfl
    | [a] => dsimp only; split <;> rfl
    | _ :: _ :: _ => rfl

theorem update_link (o : Opcode) (stmt : OpcodeStmt) (item : Item) :
    (updateItemNameD o stmt item).mapErr short = updateItemName stmt item := by
  unfold updateItemNameD updateItemName
  cases stmt.outputNames with
  | none => rfl
  | some l =>
    match l with
    | [] => rfl
    | [a] => rfl
    | _ :: _ :: _ => rfl

theorem short_inOpcode (o : Opcode) : (fun e => short (Diag.inOpcode o e)) = short := rfl

theorem popN_link (o : Opcode) (k n : Nat) (g : Gen) : (popND o k n g).mapErr short = popN k g := by
  induction k generalizing n g with
  | zero => rfl
  | succ k ih =>
    unfold popND popN
    rw [mapErr_bind, mapErr_mapErr, short_inOpcode, pop_link]
    refine bind_congr rfl fun a => ?_
    rw [mapErr_bind, ih]
    rfl

theorem inputNames_link (items : List Item) (names : List OpcodeInput) :
    (inputNamesD items names).mapErr short =
      if (items.zip names).all fun q => inputNameOk q.1 q.2 then .ok ()
      else .err "Mismatched stack item name" := by
  induction items generalizing names with
  | nil => simp [inputNamesD, Res.mapErr]
  | cons item items ih =>
    cases names with
    | nil => simp [inputNamesD, Res.mapErr]
    | cons name names =>
      simp only [inputNamesD, List.zip_cons_cons, List.all_cons]
      rw [mapErr_bind, ih]
      have key : (inputNameD item (.main items.length) name).mapErr short =
          if inputNameOk item name then .ok () else .err "Mismatched stack item name" := by
        cases name with
        | expr t v => rfl
        | ident x =>
          obtain ⟨n, gen, int⟩ := item
          simp only [inputNameD, inputNameOk]
          by_cases h1 : x = "__"
          · subst h1; rfl
          · cases gen with
            | true => simp [h1, Res.mapErr, short]
            | false =>
              by_cases h2 : x = n
              · simp [h2, Res.mapErr]
              · simp [h1, h2, Ne.symm h2, Res.mapErr, short]
      rw [key]
      by_cases hi : inputNameOk item name = true
      · simp only [hi, if_true, Bool.true_and, Res.bind]
      · simp only [hi, Bool.false_eq_true, if_false, Bool.false_and, Res.bind]

theorem checkInput_link (items : List Item) (names : Option (List OpcodeInput)) :
    (checkInputNamesD items names).mapErr short = checkInputNames items names := by
  unfold checkInputNamesD checkInputNames
  cases names with
  | none => rfl
  | some names =>
    dsimp only
    split
    · rfl
    · exact inputNames_link items names

theorem index_link {α : Type} (l : List α) (i : Nat) : (indexD l i).mapErr short = index l i := by
  unfold indexD index
  cases l[i]? <;> rfl

theorem collect_link {α β ε ε' : Type} (h : ε → ε') (f : α → Res ε β) (f' : α → Res ε' β)
    (hf : ∀ a, (f a).mapErr h = f' a) (l : List α) : (collect f l).mapErr h = collect f' l := by
  induction l with
  | nil => rfl
  | cons a l ih =>
    simp only [collect]
    rw [mapErr_bind, hf]
    refine bind_congr rfl fun b => ?_
    rw [mapErr_bind, ih]
    rfl

theorem namedOutput_link (o : Opcode) (b : OpcodeBehavior) (items : List Item) (name : String) (idx : Nat) :
    (namedOutputD o b items name idx).mapErr short = namedOutput o b items name idx := by
  unfold namedOutputD namedOutput
  split
  · split
    · exact index_link _ _
    · cases b.outputOrder with
      | none => rfl
      | some order =>
        dsimp only
        rw [mapErr_bind, index_link]
        exact bind_congr rfl fun _ => index_link _ _
  · rfl

theorem outputItems_link (o : Opcode) (b : OpcodeBehavior) (items : List Item) (names : Option (List String))
    (n : Nat) : (outputItemsD o b items names n).mapErr short = outputItems o b items names n := by
  unfold outputItemsD outputItems
  cases names with
  | some names =>
    dsimp only
    split
    · rfl
    · rw [mapErr_bind, collect_link short _ _ (fun a : String × Nat => namedOutput_link o b items a.1 a.2)]
      rfl
  | none =>
    dsimp only
    cases b.outputOrder with
    | some order =>
      dsimp only
      rw [mapErr_bind, collect_link short _ _ (index_link items)]
      rfl
    | none =>
      dsimp only
      rw [mapErr_bind, collect_link short _
        (fun i => if o.retainsInput then index items 0 else .ok ⟨freshName (n + i), true, none⟩) (fun i => by
          split
          · exact index_link _ _
          · rfl)]
      rfl

theorem other_link (o : Opcode) (stmt : OpcodeStmt) (g : Gen) :
    (runOtherD o stmt g).mapErr short = runOther o stmt g := by
  unfold runOtherD runOther
  cases o.behavior with
  | none => rfl
  | some b =>
    dsimp only
    rw [mapErr_bind, popN_link]
    refine bind_congr rfl fun a => ?_
    rw [mapErr_bind, checkInput_link]
    refine bind_congr rfl fun _ => ?_
    rw [mapErr_bind, outputItems_link]
    rfl

theorem runPickRoll_link (o : Opcode) (isRoll : Bool) (stmt : OpcodeStmt) (g : Gen) :
    (runPickRollD o isRoll stmt g).mapErr short = runPickRoll o isRoll stmt g := by
  unfold runPickRollD runPickRoll
  rw [mapErr_bind, mapErr_mapErr, short_inOpcode, pop_link]
  refine bind_congr rfl fun a => ?_
  rw [mapErr_bind, verify_link]
  refine bind_congr rfl fun _ => ?_
  rw [mapErr_bind]
  refine bind_congr ?_ fun depth => ?_
  · cases a.1.integer with
    | none => rfl
    | some i => dsimp only; split <;> rfl
  · rw [mapErr_bind, mapErr_mapErr, short_inOpcode, pickRoll_link]
    refine bind_congr rfl fun _ => ?_
    rw [mapErr_bind, update_link]
    rfl

theorem depthOf_link (x : String) (offset : Int) (stmt : OpcodeStmt) (g : Gen) :
    (runDepthOfD x offset stmt g).mapErr short = runDepthOf x offset stmt g := by
  unfold runDepthOfD runDepthOf
  rw [mapErr_bind, find_link]
  refine bind_congr rfl fun depth => ?_
  cases Integer.new depth with
  | error _ => rfl
  | ok d =>
    dsimp only
    split
    · rfl
    · cases Integer.new (d + offset) <;> rfl

theorem transmute_link (stmt : OpcodeStmt) (g : Gen) :
    (runTransmuteD stmt g).mapErr short = runTransmute stmt g := by
  have key : ∀ (c : Bool) x, (if c = true then Res.err Diag.sameName
      else (g.findItemD x).bind fun _ => Res.ok (([] : List Emit), g)).mapErr short =
      if c = true then Res.err "Input and output name must be the same"
      else (lift (g.findItem x)).bind fun _ => Res.ok (([] : List Emit), g) := by
    intro c x
    cases c with
    | true => rfl
    | false =>
      simp only [Bool.false_eq_true, if_false]
      rw [mapErr_bind, find_link]
      rfl
  obtain ⟨head, i, o⟩ := stmt
  unfold runTransmuteD runTransmute
  dsimp only
  split
  · exact key _ _
  · next l h =>
    split
    · next x t => exact absurd rfl (h x t)
    · rfl

theorem toalt_link (i : Option (List OpcodeInput)) (o : Option (List String)) (g : Gen) :
    (runOpcodeD ⟨.op .OP_TOALTSTACK, i, o⟩ g).mapErr short = runOpcode ⟨.op .OP_TOALTSTACK, i, o⟩ g := by
  simp only [runOpcodeD, runOpcode]
  rw [mapErr_bind, mapErr_mapErr, short_inOpcode, pop_link]
  refine bind_congr rfl fun _ => ?_
  rw [mapErr_bind, verify_link]
  refine bind_congr rfl fun _ => ?_
  rw [mapErr_bind, update_link]
  rfl

theorem fromalt_link (i : Option (List OpcodeInput)) (o : Option (List String)) (g : Gen) :
    (runOpcodeD ⟨.op .OP_FROMALTSTACK, i, o⟩ g).mapErr short = runOpcode ⟨.op .OP_FROMALTSTACK, i, o⟩ g := by
  simp only [runOpcodeD, runOpcode]
  rw [mapErr_bind, mapErr_mapErr, short_inOpcode, popAlt_link]
  refine bind_congr rfl fun _ => ?_
  rw [mapErr_bind, verify_link]
  refine bind_congr rfl fun _ => ?_
  rw [mapErr_bind, update_link]
  rfl

theorem rest_link (o : Opcode) (stmt : OpcodeStmt) (g : Gen) :
    (if inNameMap o = true then runOtherD o stmt g else .err (.unknown o.name)).mapErr short =
      if inNameMap o = true then runOther o stmt g else .err "Unknown opcode/function" := by
  by_cases h : inNameMap o = true
  · simp only [h, if_true]
    exact other_link _ _ _
  · simp only [h, Bool.false_eq_true, if_false]
    rfl

theorem opcode_link (stmt : OpcodeStmt) (g : Gen) : (runOpcodeD stmt g).mapErr short = runOpcode stmt g := by
  obtain ⟨head, i, outs⟩ := stmt
  cases head with
  | op o =>
    by_cases h1 : o = .OP_TOALTSTACK
    · subst h1; exact toalt_link _ _ _
    by_cases h2 : o = .OP_FROMALTSTACK
    · subst h2; exact fromalt_link _ _ _
    by_cases h3 : o = .OP_PICK
    · subst h3; exact runPickRoll_link _ _ _ _
    by_cases h4 : o = .OP_ROLL
    · subst h4; exact runPickRoll_link _ _ _ _
    have e1 : runOpcodeD ⟨.op o, i, outs⟩ g =
        if inNameMap o = true then runOtherD o ⟨.op o, i, outs⟩ g else .err (.unknown o.name) := by
      unfold runOpcodeD
      split <;> simp_all
    have e2 : runOpcode ⟨.op o, i, outs⟩ g =
        if inNameMap o = true then runOther o ⟨.op o, i, outs⟩ g else .err "Unknown opcode/function" := by
      unfold runOpcode
      split <;> simp_all
    rw [e1, e2]
    exact rest_link _ _ _
  | depthOf =>
    simp only [runOpcodeD, runOpcode]
    split
    · exact depthOf_link _ _ _ _
    · next h =>
      split
      · next x => exact absurd rfl (h x)
      · rfl
  | depthOfOffset =>
    simp only [runOpcodeD, runOpcode]
    split
    · exact depthOf_link _ _ _ _
    · next h =>
      split
      · next x t v => exact absurd rfl (h x t v)
      · rfl
  | transmute => exact transmute_link _ _
  | unknown => rfl

theorem leaf_link (l : Leaf) (g : Gen) : (runLeafD l g).mapErr short = runLeaf l g := by
  cases l with
  | push op name => rfl
  | opcode stmt => exact opcode_link stmt g
  | forLoop => rfl
  | rustIf => rfl

theorem prog_link (p : Prog) (n : Nat) (g : Gen) :
    (runProgD p n g).mapErr (fun e => short e.2) = runProg p g := by
  induction p generalizing n g with
  | nil => rfl
  | leaf l rest ih =>
    unfold runProgD runProg
    rw [mapErr_bind, mapErr_mapErr]
    refine bind_congr (leaf_link l g) fun a => ?_
    rw [mapErr_bind, ih]
    rfl
  | scriptIf i t e el en rest iht ihe ihr =>
    unfold runProgD runProg
    rw [mapErr_bind, mapErr_mapErr]
    refine bind_congr (opcode_link i g) fun a => ?_
    dsimp only
    rw [mapErr_bind, mapErr_mapErr]
    refine bind_congr ?_ fun name => ?_
    · unfold predicateNameD predicateName
      cases i.inputNames with
      | none => rfl
      | some l =>
        match l with
        | [] => rfl
        | .ident _ :: _ => rfl
        | .expr _ _ :: _ => rfl
    rw [mapErr_bind, iht]
    refine bind_congr rfl fun b => ?_
    rw [mapErr_bind, mapErr_mapErr]
    refine bind_congr ?_ fun c => ?_
    · cases e with
      | none => rfl
      | some s => exact opcode_link s _
    rw [mapErr_bind, ihe]
    refine bind_congr rfl fun q => ?_
    rw [mapErr_bind, mapErr_mapErr]
    refine bind_congr (opcode_link en _) fun r => ?_
    rw [mapErr_bind]
    refine bind_congr ?_ fun states => ?_
    · refine collect_link _ _ _ (fun x => ?_) _
      dsimp only
      split
      · rw [mapErr_bind]
        refine bind_congr ?_ fun _ => rfl
        unfold lookupD lookup
        cases List.find? (fun p => p.1 == x.1) c.2.states <;> rfl
      · rfl
    rw [mapErr_bind, ihr]
    rfl

theorem pushOn_link (item : Item) (vs : List String) (states : List (String × VState)) :
    (pushOnD item vs states).mapErr short = pushOn item vs states := by
  induction vs generalizing states with
  | nil => rfl
  | cons v vs ih =>
    unfold pushOnD pushOn
    split
    · exact ih _
    · rfl

theorem pushInputs_link (nv : Bool) (is : List Input) (states : List (String × VState)) :
    (pushInputsD nv is states).mapErr short = pushInputs nv is states := by
  induction is generalizing states with
  | nil => rfl
  | cons i is ih =>
    unfold pushInputsD pushInputs
    rw [mapErr_bind]
    refine bind_congr ?_ fun _ => ih _
    cases i.variants with
    | none => rfl
    | some vs =>
      dsimp only
      rw [mapErr_bind, pushOn_link]
      refine bind_congr rfl fun _ => ?_
      split <;> rfl

/-- The two models agree. -/
theorem generate_link (order : List (String × VState) → List (String × VState)) (d : Decl) (p : Prog) :
    (generateD order d p).mapErr (fun e => short e.2) = generate order d p := by
  unfold generateD generate initialStates
  rw [mapErr_bind, mapErr_mapErr]
  refine bind_congr (pushInputs_link _ _ _) fun states => ?_
  rw [mapErr_mapErr]
  exact prog_link p 0 _

theorem ok_of_link {ε ε' α : Type} {h : ε → ε'} {x : Res ε α} {y : Res ε' α} (hl : x.mapErr h = y) {a : α}
    (hx : x = .ok a) : y = .ok a := by
  subst hx; exact hl.symm

end BCash.DiagProofs
