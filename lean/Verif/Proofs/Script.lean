import Verif.Model.Script
import Verif.Spec.Script
import Verif.Proofs.LE
import Verif.Proofs.Byte
import Verif.Props.VarInt

/-! Lemmas about script parsing and serialisation. -/

namespace BCash
open Spec

theorem ofNat_toNat_lt {n : Nat} (h : n < 256) : (UInt8.ofNat n).toNat = n := by
  rw [UInt8.toNat_ofNat']; omega

theorem leBytes_one (n : Nat) : leBytes 1 n = [UInt8.ofNat n] := rfl

/-! ### Opcode table -/

theorem ofByte_toByte (o : Opcode) : Opcode.ofByte o.toByte = some o := by cases o <;> rfl

theorem toByte_ofByte {b : UInt8} {o : Opcode} (h : Opcode.ofByte b = some o) : o.toByte = b := by
  unfold Opcode.ofByte at h
  split at h <;> first | (simp at h; done) | (obtain rfl := Option.some.inj h; rfl)

set_option maxRecDepth 100000 in
/-- The defined opcode bytes. -/
theorem ofByte_isSome : ∀ b : UInt8, ((Opcode.ofByte b).isSome = true ↔
    b = 0 ∨ (0x4c ≤ b.toNat ∧ b.toNat ≤ 0xbd)) := forall_u8 (by decide)

/-! ### Fuel -/

theorem deserializeOp_length {byte : UInt8} {rest : Bytes} {op rest'}
    (h : deserializeOp byte rest = .ok (op, rest')) : rest'.length ≤ rest.length := by
  unfold deserializeOp at h
  split at h
  · simp only [Res.ok.injEq, Prod.mk.injEq] at h; rw [h.2]; exact Nat.le_refl _
  · next r hr =>
    simp only [Res.bind_eq_ok, Prod.exists] at h
    obtain ⟨n, r1, h1, p, r2, h2, o, h3, h4⟩ := h
    simp only [Res.ok.injEq, Prod.mk.injEq] at h4
    have hr1 : r1.length ≤ rest.length := by
      subst h1
      unfold pushLen at hr
      split at hr
      · simp at hr
      split at hr
      · simp at hr; rw [hr.2]; exact Nat.le_refl _
      have key : ∀ k, Res.ofExcept Error.io (readLE k rest) = Res.ok (n, r1) → r1.length ≤ rest.length := by
        intro k hk
        unfold readLE at hk
        split at hk
        · simp at hk
        · simp at hk; rw [← hk.2]; simp
      split at hr
      · exact key 1 (by simpa using hr)
      split at hr
      · exact key 2 (by simpa using hr)
      split at hr
      · exact key 4 (by simpa using hr)
      · simp at hr
    unfold readExact at h2
    split at h2
    · simp at h2
    · simp at h2
      rw [← h4.2, ← h2.2]
      simp; omega

theorem deserializeOpsLoop_fuel (n : Nat) (bs : Bytes) (h : bs.length ≤ n) :
    deserializeOpsLoop n bs = deserializeOps bs := by
  unfold deserializeOps
  suffices ∀ m n (bs : Bytes), bs.length ≤ n → bs.length ≤ m →
      deserializeOpsLoop n bs = deserializeOpsLoop m bs from this _ _ _ h (Nat.le_refl _)
  intro m
  induction m with
  | zero =>
    intro n bs _ h0
    have : bs = [] := List.length_eq_zero_iff.mp (by omega)
    subst this
    cases n <;> rfl
  | succ m ih =>
    intro n bs h1 h2
    cases bs with
    | nil => cases n <;> rfl
    | cons b rest =>
      simp only [List.length_cons] at h1 h2
      cases n with
      | zero => omega
      | succ n =>
        simp only [deserializeOpsLoop]
        cases hd : deserializeOp b rest with
        | err e => rfl
        | panic => rfl
        | ok p =>
          obtain ⟨op, r⟩ := p
          have := deserializeOp_length hd
          simp only [Res.bind_ok]
          rw [ih n r (by omega) (by omega)]

@[simp] theorem deserializeOps_nil : deserializeOps [] = .ok [] := rfl

/-- The loop equation, free of fuel. -/
theorem deserializeOps_cons (b : UInt8) (rest : Bytes) :
    deserializeOps (b :: rest) =
      (deserializeOp b rest).bind fun (op, r) => (deserializeOps r).bind fun ops => .ok (op :: ops) := by
  conv => lhs; unfold deserializeOps
  simp only [List.length_cons, deserializeOpsLoop]
  cases hd : deserializeOp b rest with
  | err e => rfl
  | panic => rfl
  | ok p =>
    obtain ⟨op, r⟩ := p
    simp only [Res.bind_ok]
    rw [deserializeOpsLoop_fuel _ _ (deserializeOp_length hd)]

/-! ### Push prefixes -/

/-- The data pushed by a one-byte opcode under the minimal rule. -/
def special (d : Bytes) : Bool :=
  decide (d.length = 0) || decide (d.length = 1 ∧ (1 ≤ (d.getD 0 0).toNat ∧ (d.getD 0 0).toNat ≤ 16 ∨ d.getD 0 0 = 0x81))

/-- The shortest form by length. -/
def formOf (n : Nat) : PushForm :=
  if n ≤ 75 then .direct else if n ≤ 255 then .pushdata1 else if n ≤ 65535 then .pushdata2 else .pushdata4

theorem minimalPush_iff (form : PushForm) (d : Bytes) :
    MinimalPush form d ↔ special d = false ∧ form = formOf d.length := by
  unfold MinimalPush special formOf
  by_cases h0 : d.length = 0
  · simp [h0]
  by_cases h1 : d.length = 1 ∧ (1 ≤ (d.getD 0 0).toNat ∧ (d.getD 0 0).toNat ≤ 16 ∨ d.getD 0 0 = 0x81)
  · rw [if_neg h0, if_pos h1]
    exact ⟨False.elim, fun h => by
      have := h.1; rw [decide_eq_true h1, Bool.or_true] at this; cases this⟩
  · rw [if_neg h0, if_neg h1]
    simp only [h0, h1, decide_false, Bool.or_self, true_and]
    split
    · simp
    split
    · simp
    split <;> simp

/-- The one-byte opcode for special data. -/
def specialByte (d : Bytes) : UInt8 :=
  if d.length = 0 then 0 else if d.getD 0 0 = 0x81 then 0x4f else 0x50 + d.getD 0 0

/-- The token a push is serialised to. -/
def pushToken (d : Bytes) (m : Bool) : Token :=
  if m && special d then .op (specialByte d)
  else if d.length = 0 then .push .pushdata1 d
  else .push (formOf d.length) d

theorem prefix_special (d : Bytes) (h : special d = true) :
    serializePushPrefix d true = some ([specialByte d], .noTail) := by
  unfold special at h
  simp only [Bool.or_eq_true, decide_eq_true_eq] at h
  unfold serializePushPrefix specialByte
  rcases h with h | ⟨h1, h2⟩
  · simp [h, Opcode.toByte]
  · simp only [h1, Nat.one_ne_zero, false_and, if_false, and_self, if_true]
    rcases h2 with h2 | h2
    · have h3 : d.getD 0 0 ≠ 0x81 := by intro h; rw [h] at h2; exact absurd h2 (by decide)
      rw [if_pos (show 0 < (d.getD 0 0).toNat ∧ _ by omega), if_neg h3]
      simp [Opcode.toByte]
    · rw [h2]; simp [Opcode.toByte]

theorem prefix_general (d : Bytes) (m : Bool) (h : (m && special d) = false) (hne : d.length ≠ 0)
    (hlen : d.length < 2 ^ 32) :
    ∃ pre, serializePushPrefix d m = some (pre, .pushedData) ∧
      pre ++ d = (Token.push (formOf d.length) d).encode := by
  unfold serializePushPrefix formOf
  simp only [hne, false_and, if_false]
  by_cases h1 : d.length = 1 ∧ m
  · obtain ⟨h1, hm⟩ := h1
    subst hm
    simp only [Bool.true_and] at h
    unfold special at h
    simp only [h1, Nat.one_ne_zero, decide_false, true_and, Bool.false_or, decide_eq_false_iff_not,
      not_or] at h
    simp only [h1, true_and, if_true]
    rw [if_neg (by omega), if_neg h.2]
    exact ⟨_, rfl, by simp [Token.encode, h1]⟩
  · rw [if_neg h1]
    by_cases h2 : d.length ≤ 75
    · simp only [h2, if_true]
      exact ⟨_, rfl, rfl⟩
    simp only [h2, if_false]
    by_cases h3 : d.length ≤ 255
    · simp only [h3, if_true]
      exact ⟨_, rfl, rfl⟩
    simp only [h3, if_false]
    by_cases h4 : d.length ≤ 65535
    · simp only [h4, if_true]
      exact ⟨_, rfl, rfl⟩
    simp only [h4, if_false]
    rw [if_pos (by omega)]
    exact ⟨_, rfl, rfl⟩

theorem prefix_empty_nonminimal (d : Bytes) (h : d.length = 0) :
    serializePushPrefix d false = some ([0x4c, 0], .pushedData) := by
  simp [serializePushPrefix, h, Opcode.toByte]

theorem special_length {d : Bytes} (h : special d = true) : d.length ≤ 1 := by
  unfold special at h
  simp only [Bool.or_eq_true, decide_eq_true_eq] at h
  omega

theorem serializePushBytes_token (d : Bytes) (m : Bool) (hlen : d.length < 2 ^ 32) :
    serializePushBytes d m = .ok (pushToken d m).encode := by
  unfold serializePushBytes pushToken
  by_cases hs : (m && special d) = true
  · simp only [Bool.and_eq_true] at hs
    obtain ⟨hm, hs⟩ := hs
    subst hm
    rw [prefix_special d hs]; simp [hs, Token.encode]
  · simp only [Bool.not_eq_true] at hs
    rw [hs]
    by_cases h0 : d.length = 0
    · have hm : m = false := by
        cases m with
        | false => rfl
        | true => simp [special, h0] at hs
      subst hm
      rw [prefix_empty_nonminimal d h0]
      have : d = [] := List.length_eq_zero_iff.mp h0
      subst this; rfl
    · obtain ⟨pre, h1, h2⟩ := prefix_general d m hs h0 hlen
      rw [h1]; simp [h0, h2]

theorem serializePushBytes_err (d : Bytes) (m : Bool) (hlen : 2 ^ 32 ≤ d.length) :
    serializePushBytes d m = .err .pushTooLarge := by
  unfold serializePushBytes serializePushPrefix
  simp only
  rw [if_neg (by omega), if_neg (by omega), if_neg (by omega), if_neg (by omega), if_neg (by omega),
    if_neg (by omega), if_neg (by omega)]

theorem pushToken_valid (d : Bytes) (m : Bool) (hlen : d.length < 2 ^ 32) : (pushToken d m).Valid := by
  unfold pushToken
  by_cases hs : (m && special d) = true
  · rw [if_pos hs]
    simp only [Bool.and_eq_true] at hs
    have h := hs.2
    unfold special at h
    simp only [Bool.or_eq_true, decide_eq_true_eq] at h
    unfold Token.Valid specialByte
    rcases h with h | ⟨h1, h2⟩
    · simp [h]
    · rw [if_neg (by omega)]
      right
      rcases h2 with h2 | h2
      · have h3 : d.getD 0 0 ≠ 0x81 := by intro h; rw [h] at h2; exact absurd h2 (by decide)
        rw [if_neg h3, UInt8.toNat_add]
        have : (0x50 : UInt8).toNat = 80 := rfl
        omega
      · rw [if_pos h2]; decide
  · rw [if_neg hs]
    split
    · next h => simp [Token.Valid, h]
    · unfold formOf
      split
      · simp only [Token.Valid]; omega
      split
      · simp only [Token.Valid]; omega
      split
      · simp only [Token.Valid]; omega
      · simp only [Token.Valid]; omega

/-! ### Tokens and the parser -/

/-- The leading byte of a data push. -/
def leadByte : PushForm → Bytes → UInt8
  | .direct, d => UInt8.ofNat d.length
  | .pushdata1, _ => 0x4c
  | .pushdata2, _ => 0x4d
  | .pushdata4, _ => 0x4e

/-- The operation a token is parsed to. -/
def tokenOp : Token → Op Bytes
  | .op b => codeOrInvalid b
  | .push form d => .pushByteArray d (decide (MinimalPush form d))

theorem mkPush_ok (form : PushForm) (d : Bytes) (hv : (Token.push form d).Valid) :
    mkPush (leadByte form d) d = .ok (tokenOp (.push form d)) := by
  have hlen : d.length < 2 ^ 32 := by
    cases form <;> simp only [Token.Valid] at hv <;> omega
  unfold mkPush tokenOp
  by_cases hs : special d = true
  · rw [prefix_special d hs]
    simp only [Res.ok.injEq, Op.pushByteArray.injEq, true_and, decide_eq_decide]
    rw [minimalPush_iff, hs]
    simp only [Bool.true_eq_false, false_and, iff_false]
    have hl := special_length hs
    -- the special byte is never the leading byte of a valid push
    unfold special at hs
    simp only [Bool.or_eq_true, decide_eq_true_eq] at hs
    unfold specialByte
    rcases hs with hs | ⟨h1, h2⟩
    · rw [if_pos hs]
      cases form
      · simp only [Token.Valid] at hv; omega
      all_goals (simp only [leadByte]; decide)
    · rw [if_neg (by omega)]
      have hb : ∀ x : UInt8, (x = 0x4f ∨ (0x51 ≤ x.toNat ∧ x.toNat ≤ 0x60)) → x ≠ leadByte form d := by
        intro x hx
        have h3 : (leadByte form d).toNat < 0x4f := by
          cases form
          · simp only [leadByte, h1]; decide
          all_goals (simp only [leadByte]; decide)
        intro h
        subst h
        rcases hx with h | h
        · rw [h] at h3; exact absurd h3 (by decide)
        · omega
      apply hb
      by_cases h3 : d.getD 0 0 = 0x81
      · rw [if_pos h3]; exact .inl rfl
      · rw [if_neg h3]
        right
        have h4 : 1 ≤ (d.getD 0 0).toNat ∧ (d.getD 0 0).toNat ≤ 16 := by
          rcases h2 with h | h
          · exact h
          · exact absurd h h3
        rw [UInt8.toNat_add]
        have : (0x50 : UInt8).toNat = 80 := rfl
        omega
  · simp only [Bool.not_eq_true] at hs
    have hne : d.length ≠ 0 := by
      intro h; simp [special, h] at hs
    obtain ⟨pre, h1, h2⟩ := prefix_general d true (by simp [hs]) hne hlen
    rw [h1]
    simp only
    have hpre : ∃ tl, pre = leadByte (formOf d.length) d :: tl := by
      cases pre with
      | nil =>
        exfalso
        have := congrArg List.length h2
        simp only [List.nil_append] at this
        revert this
        cases formOf d.length <;> simp [Token.encode] <;> omega
      | cons p tl =>
        refine ⟨tl, ?_⟩
        have := congrArg List.head? h2
        simp only [List.cons_append, List.head?_cons] at this
        revert this
        cases formOf d.length <;> simp [Token.encode, leadByte]
    obtain ⟨tl, rfl⟩ := hpre
    simp only [Res.ok.injEq, Op.pushByteArray.injEq, true_and, decide_eq_decide]
    rw [minimalPush_iff, hs]
    simp only [true_and]
    constructor
    · intro h
      unfold formOf at h ⊢
      by_cases c1 : d.length ≤ 75
      · rw [if_pos c1] at h ⊢
        have hb : (UInt8.ofNat d.length).toNat ≤ 75 := by rw [ofNat_toNat_lt (by omega)]; exact c1
        cases form
        · rfl
        all_goals (simp only [leadByte] at h; rw [h] at hb; exact absurd hb (by decide))
      · rw [if_neg c1] at h ⊢
        have hd : form ≠ .direct := by
          intro hf; subst hf; simp only [Token.Valid] at hv; omega
        split at h <;> rename_i c2
        · rw [if_pos c2]
          cases form <;> first | exact absurd rfl hd | rfl | exact absurd h (by simp only [leadByte]; decide)
        · rw [if_neg c2]
          split at h <;> rename_i c3
          · rw [if_pos c3]
            cases form <;> first | exact absurd rfl hd | rfl | exact absurd h (by simp only [leadByte]; decide)
          · rw [if_neg c3]
            cases form <;> first | exact absurd rfl hd | rfl | exact absurd h (by simp only [leadByte]; decide)
    · intro h; rw [h]

theorem readExact_append {n : Nat} {d : Bytes} (h : d.length = n) (rest : Bytes) :
    readExact n (d ++ rest) = .ok (d, rest) := by
  subst h; simp [readExact]

theorem encode_cons (t : Token) : ∃ b tl, t.encode = b :: tl := by
  cases t with
  | op b => exact ⟨_, _, rfl⟩
  | push f d => cases f <;> exact ⟨_, _, rfl⟩

/-- Parsing one token. -/
theorem deserializeOp_token (t : Token) (hv : t.Valid) (b : UInt8) (tl rest : Bytes)
    (he : t.encode = b :: tl) :
    deserializeOp b (tl ++ rest) = .ok (tokenOp t, rest) := by
  unfold deserializeOp
  cases t with
  | op x =>
    simp only [Token.encode, List.cons.injEq] at he
    obtain ⟨rfl, rfl⟩ := he
    have hp : pushLen x ([] ++ rest) = none := by
      unfold pushLen
      simp only [Token.Valid] at hv
      by_cases h0 : x = 0
      · rw [if_pos h0]
      · have h1 : 0x4f ≤ x.toNat := by rcases hv with h | h; exact absurd h h0; exact h
        have e : ∀ y : UInt8, y.toNat < 0x4f → x ≠ y := by intro y hy h; subst h; omega
        rw [if_neg h0, if_neg (by omega), if_neg (e _ (by decide)), if_neg (e _ (by decide)),
          if_neg (e _ (by decide))]
    rw [hp]
    simp [tokenOp]
  | push f d =>
    have hm := mkPush_ok f d hv
    cases f with
    | direct =>
      simp only [Token.encode, List.cons.injEq] at he
      obtain ⟨rfl, rfl⟩ := he
      simp only [Token.Valid] at hv
      have hb : (UInt8.ofNat d.length).toNat = d.length := ofNat_toNat_lt (by omega)
      have hp : pushLen (UInt8.ofNat d.length) (d ++ rest) = some (.ok (d.length, d ++ rest)) := by
        unfold pushLen
        have h0 : UInt8.ofNat d.length ≠ 0 := by
          intro h; rw [h] at hb; have : (0 : UInt8).toNat = 0 := rfl; omega
        rw [if_neg h0, if_pos (by omega), hb]
      rw [hp]
      simp only [Res.bind_ok, readExact_append rfl]
      simp only [leadByte] at hm
      rw [hm]; rfl
    | pushdata1 =>
      simp only [Token.encode, List.cons.injEq] at he
      obtain ⟨rfl, rfl⟩ := he
      simp only [Token.Valid] at hv
      have hp : pushLen 0x4c (leBytes 1 d.length ++ d ++ rest) = some (.ok (d.length, d ++ rest)) := by
        unfold pushLen
        rw [if_neg (by decide), if_neg (by decide), if_pos (by decide), List.append_assoc,
          readLE_append (by simp), leVal_leBytes_of_lt (by omega)]; rfl
      rw [hp]
      simp only [Res.bind_ok, readExact_append rfl]
      simp only [leadByte] at hm
      rw [hm]; rfl
    | pushdata2 =>
      simp only [Token.encode, List.cons.injEq] at he
      obtain ⟨rfl, rfl⟩ := he
      simp only [Token.Valid] at hv
      have hp : pushLen 0x4d (leBytes 2 d.length ++ d ++ rest) = some (.ok (d.length, d ++ rest)) := by
        unfold pushLen
        rw [if_neg (by decide), if_neg (by decide), if_neg (by decide), if_pos (by decide),
          List.append_assoc, readLE_append (by simp), leVal_leBytes_of_lt (by omega)]; rfl
      rw [hp]
      simp only [Res.bind_ok, readExact_append rfl]
      simp only [leadByte] at hm
      rw [hm]; rfl
    | pushdata4 =>
      simp only [Token.encode, List.cons.injEq] at he
      obtain ⟨rfl, rfl⟩ := he
      simp only [Token.Valid] at hv
      have hp : pushLen 0x4e (leBytes 4 d.length ++ d ++ rest) = some (.ok (d.length, d ++ rest)) := by
        unfold pushLen
        rw [if_neg (by decide), if_neg (by decide), if_neg (by decide), if_neg (by decide),
          if_pos (by decide), List.append_assoc, readLE_append (by simp),
          leVal_leBytes_of_lt (by omega)]; rfl
      rw [hp]
      simp only [Res.bind_ok, readExact_append rfl]
      simp only [leadByte] at hm
      rw [hm]; rfl

theorem readExact_ok {n : Nat} {input d rest : Bytes} (h : readExact n input = .ok (d, rest)) :
    d.length = n ∧ input = d ++ rest := by
  unfold readExact at h
  split at h
  · simp at h
  · next hlt =>
    simp only [Res.ok.injEq, Prod.mk.injEq] at h
    rw [← h.1, ← h.2]
    exact ⟨by simp; omega, by simp⟩

theorem toNat_inj {a b : UInt8} (h : a.toNat = b.toNat) : a = b := UInt8.toNat_inj.mp h

/-- Everything the parser accepts is a token. -/
theorem deserializeOp_ok (b : UInt8) (input rest : Bytes) (op : Op Bytes)
    (h : deserializeOp b input = .ok (op, rest)) :
    ∃ t : Token, t.Valid ∧ b :: input = t.encode ++ rest ∧ op = tokenOp t := by
  unfold deserializeOp at h
  unfold pushLen at h
  by_cases h0 : b = 0
  · rw [if_pos h0] at h
    simp only [Res.ok.injEq, Prod.mk.injEq] at h
    exact ⟨.op b, .inl h0, by simp [Token.encode, h.2], h.1.symm⟩
  rw [if_neg h0] at h
  have build : ∀ (f : PushForm) (n : Nat) (r1 : Bytes),
      ((readExact n r1).bind fun x => (mkPush b x.1).bind fun op => .ok (op, x.2)) = .ok (op, rest) →
      (∀ d, d.length = n → (Token.push f d).Valid ∧ leadByte f d = b ∧
        b :: input = (Token.push f d).encode.take ((Token.push f d).encode.length - n) ++ r1) →
      ∃ t : Token, t.Valid ∧ b :: input = t.encode ++ rest ∧ op = tokenOp t := by
    intro f n r1 h1 h2
    simp only [Res.bind_eq_ok, Prod.exists] at h1
    obtain ⟨d, r2, h3, o, h4, h5⟩ := h1
    obtain ⟨hl, hr⟩ := readExact_ok h3
    obtain ⟨hv, hlead, henc⟩ := h2 d hl
    simp only [Res.ok.injEq, Prod.mk.injEq] at h5
    rw [← hlead, mkPush_ok f d hv] at h4
    simp only [Res.ok.injEq] at h4
    refine ⟨.push f d, hv, ?_, by rw [← h5.1, ← h4]⟩
    rw [henc, hr, ← h5.2, ← List.append_assoc]
    congr 1
    subst hl
    cases f
    · simp [Token.encode]
    all_goals (
      simp only [Token.encode, List.length_cons, List.length_append, leBytes_length]
      rw [show ∀ k, k + d.length + 1 - d.length = k + 1 by intro k; omega]
      simp)
  by_cases h1 : b.toNat ≤ 0x4b
  · rw [if_pos h1] at h
    simp only [Res.bind_ok] at h
    refine build .direct b.toNat input h ?_
    intro d hd
    have hb0 : b.toNat ≠ 0 := (ne_zero_toNat b).mp h0
    have : UInt8.ofNat d.length = b := toNat_inj (by rw [hd, ofNat_toNat_lt (by omega)])
    refine ⟨by simp only [Token.Valid]; omega, this, ?_⟩
    simp only [Token.encode, List.length_cons, this]
    rw [hd, show b.toNat + 1 - b.toNat = 1 by omega]
    rfl
  rw [if_neg h1] at h
  have lenCase : ∀ (f : PushForm) (k : Nat) (hf : f ≠ .direct),
      (∀ d, (Token.push f d).encode = b :: (leBytes k d.length ++ d)) →
      (∀ d, d.length < 256 ^ k → (Token.push f d).Valid) → (∀ d, leadByte f d = b) →
      ((Res.ofExcept Error.io (readLE k input)).bind fun x =>
        (readExact x.1 x.2).bind fun x => (mkPush b x.1).bind fun op => .ok (op, x.2)) = .ok (op, rest) →
      ∃ t : Token, t.Valid ∧ b :: input = t.encode ++ rest ∧ op = tokenOp t := by
    intro f k hf henc hval hlead h
    cases hr : readLE k input with
    | error e => rw [hr] at h; simp at h
    | ok p =>
      obtain ⟨n, r1⟩ := p
      rw [hr] at h
      simp only [Res.ofExcept_ok, Res.bind_ok] at h
      obtain ⟨xs, hxl, hin, hn⟩ := readLE_ok hr
      refine build f n r1 h ?_
      intro d hd
      have hlt : d.length < 256 ^ k := by rw [hd, hn, ← hxl]; exact leVal_lt xs
      refine ⟨hval d hlt, hlead d, ?_⟩
      rw [henc d]
      simp only [List.length_cons, List.length_append, leBytes_length, hd]
      rw [show k + n + 1 - n = k + 1 by omega]
      simp only [List.take_succ_cons, List.cons_append]
      rw [List.take_append_of_le_length (by simp), List.take_of_length_le (by simp), hn, ← hxl,
        leBytes_leVal, hin]
  split at h
  · next hc =>
    split at hc
    · next hb =>
      simp at hc
    · split at hc
      · simp at hc
      · split at hc
        · simp at hc
        · next n1 n2 n3 =>
          simp only [Res.ok.injEq, Prod.mk.injEq] at h
          refine ⟨.op b, .inr ?_, by simp [Token.encode, h.2], h.1.symm⟩
          simp only [Opcode.toByte] at n1 n2 n3
          have e : ∀ y : UInt8, b ≠ y → b.toNat ≠ y.toNat := fun y hy h => hy (toNat_inj h)
          have e1 := e _ n1
          have e2 := e _ n2
          have e3 := e _ n3
          simp at e1 e2 e3
          omega
  · next r hc =>
    split at hc
    · next hb =>
      simp only [Opcode.toByte] at hb
      subst hb
      simp only [Option.some.injEq] at hc
      subst hc
      exact lenCase .pushdata1 1 (by simp) (fun d => rfl) (fun d hd => by simpa [Token.Valid] using hd)
        (fun d => rfl) h
    · split at hc
      · next hb =>
        simp only [Opcode.toByte] at hb
        subst hb
        simp only [Option.some.injEq] at hc
        subst hc
        exact lenCase .pushdata2 2 (by simp) (fun d => rfl) (fun d hd => by simpa [Token.Valid] using hd)
          (fun d => rfl) h
      · split at hc
        · next hb =>
          simp only [Opcode.toByte] at hb
          subst hb
          simp only [Option.some.injEq] at hc
          subst hc
          exact lenCase .pushdata4 4 (by simp) (fun d => rfl)
            (fun d hd => by simpa [Token.Valid] using hd) (fun d => rfl) h
        · simp at hc

/-- The parser accepts exactly the sequences of valid tokens. -/
theorem deserializeOps_tokens (ts : List Token) (hv : ∀ t ∈ ts, t.Valid) :
    deserializeOps (encodeTokens ts) = .ok (ts.map tokenOp) := by
  induction ts with
  | nil => rfl
  | cons t ts ih =>
    obtain ⟨b, tl, he⟩ := encode_cons t
    have : encodeTokens (t :: ts) = b :: (tl ++ encodeTokens ts) := by
      simp [encodeTokens, he]
    rw [this, deserializeOps_cons, deserializeOp_token t (hv t (by simp)) b tl _ he]
    simp only [Res.bind_ok]
    rw [ih (fun t ht => hv t (by simp [ht]))]
    rfl

theorem deserializeOps_ok (bs : Bytes) (ops : List (Op Bytes)) (h : deserializeOps bs = .ok ops) :
    ∃ ts : List Token, (∀ t ∈ ts, t.Valid) ∧ bs = encodeTokens ts ∧ ops = ts.map tokenOp := by
  induction hn : bs.length using Nat.strongRecOn generalizing bs ops with
  | ind n ih =>
    cases bs with
    | nil =>
      simp only [deserializeOps_nil, Res.ok.injEq] at h
      exact ⟨[], by simp, rfl, by rw [← h]; rfl⟩
    | cons b rest =>
      rw [deserializeOps_cons] at h
      simp only [Res.bind_eq_ok, Prod.exists] at h
      obtain ⟨op, r, h1, ops', h2, h3⟩ := h
      have hl := deserializeOp_length h1
      obtain ⟨t, tv, te, to⟩ := deserializeOp_ok b rest r op h1
      obtain ⟨ts, tsv, tse, tso⟩ := ih r.length (by simp at hn; omega) r ops' h2 rfl
      refine ⟨t :: ts, ?_, ?_, ?_⟩
      · intro x hx
        simp only [List.mem_cons] at hx
        rcases hx with rfl | hx
        · exact tv
        · exact tsv x hx
      · rw [te, tse]; simp [encodeTokens]
      · simp only [Res.ok.injEq] at h3
        rw [← h3, to, tso]; rfl

end BCash
