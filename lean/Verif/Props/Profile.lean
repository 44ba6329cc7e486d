import Verif.Model.Profile
import Verif.Props.TxBuilder
import Verif.Props.ByteArray
import Verif.Props.ScriptNum

/-! # C89: release builds

The other properties are about debug builds, where an arithmetic overflow panics. In a release build it wraps
around. -/

namespace BCash
open Spec TxBuilder
variable {Dyn : Type}

namespace Profile

/-- Two builds of the same code agree on a call: whatever the debug build returns (without panicking), the
release build returns. -/
def Agree {ε α : Type} (debug release : Res ε α) : Prop := debug ≠ .panic → release = debug

theorem Agree.refl {ε α : Type} (x : Res ε α) : Agree x x := fun _ => rfl

theorem Agree.bind {ε α β : Type} {x y : Res ε α} {f g : α → Res ε β} (h : Agree x y)
    (hf : ∀ a, Agree (f a) (g a)) : Agree (x.bind f) (y.bind g) := by
  intro hp
  cases x with
  | ok a => rw [h (by simp)]; exact hf a hp
  | err e => rw [h (by simp)]; rfl
  | panic => exact absurd rfl hp

theorem i32_agree {ε : Type} (x : Int) : Agree (Res.ofOption (debug.i32 x) : Res ε Int)
    (Res.ofOption (release.i32 x)) := by
  intro h
  unfold i32 at h ⊢
  split
  · rfl
  · next hx => rw [if_neg hx] at h; exact absurd rfl h

theorem u32_agree {ε : Type} (x : Nat) : Agree (Res.ofOption (debug.u32 x) : Res ε Nat)
    (Res.ofOption (release.u32 x)) := by
  intro h
  unfold u32 at h ⊢
  split
  · rfl
  · next hx => rw [if_neg hx] at h; exact absurd rfl h

theorem shlOne_agree {ε : Type} (x : Nat) : Agree (Res.ofOption (debug.shlOne x) : Res ε Nat)
    (Res.ofOption (release.shlOne x)) := by
  intro h
  unfold shlOne at h ⊢
  split
  · rfl
  · next hx => rw [if_neg hx] at h; exact absurd rfl h

theorem u64_some {x y : Nat} (h : debug.u64 x = some y) (p : Profile) : p.u64 x = some y := by
  unfold u64 at h ⊢
  split
  · next hx => rwa [if_pos hx] at h
  · next hx => rw [if_neg hx] at h; cases h

/-! ## The debug profile is the one of the other models -/

theorem encodeInt_debug (x : Int) (hx : InI32 x) : debug.encodeInt x = BCash.encodeInt x := by
  unfold encodeInt BCash.encodeInt i32
  unfold InI32 at *
  by_cases h : x = -2 ^ 31
  · subst h; simp [Res.ofOption, Res.bind]
  · rw [if_pos (by omega), if_neg h]
    have e : Int.toNat ((x.natAbs : Int) % 2 ^ 32) = x.natAbs := by omega
    simp only [Res.ofOption, Res.bind]
    rw [e]

theorem checkI32_eq (x : Int) : (Res.ofOption (debug.i32 x) : Res VecToIntError Int) = checkI32 x := by
  unfold i32 checkI32
  split <;> rfl

theorem vecToIntLoop_debug (bs : Bytes) (shift : Nat) (acc : Int) :
    debug.vecToIntLoop bs shift acc = BCash.vecToIntLoop bs shift acc := by
  induction bs generalizing shift acc with
  | nil => rfl
  | cons b rest ih =>
    cases rest with
    | nil =>
      simp only [vecToIntLoop, BCash.vecToIntLoop, checkI32_eq, u32]
      split
      · rfl
      · show Res.bind _ _ = Res.bind _ _
        congr 1
        funext a
        split
        · next h => rw [if_neg (by omega)]; rfl
        · next h => rw [if_pos (by omega)]; rfl
    | cons b' rest =>
      simp only [vecToIntLoop, BCash.vecToIntLoop, checkI32_eq, u32]
      show Res.bind _ _ = Res.bind _ _
      congr 1
      funext a
      split
      · next h => rw [if_neg (by omega)]; exact ih _ _
      · next h => rw [if_pos (by omega)]; rfl

theorem ofOption_bind {ε α β : Type} (a : α) (f : α → Res ε β) :
    (Res.ofOption (some a) : Res ε α).bind f = f a := rfl

theorem fromInt_debug (x n : Int) (hx : InScriptRange x) :
    debug.fromInt x n = ByteArray.fromInt x n := by
  unfold fromInt ByteArray.fromInt
  split
  · rfl
  · next hn =>
    unfold InScriptRange at hx
    by_cases h8 : InI32 (n * 8)
    · rw [if_neg (not_not_intro h8)]
      have hmin : InI32 (n * 8 - 1) := by unfold InI32 at *; omega
      have hb : ((min (n * 8 - 1) 31) % 2 ^ 128).toNat = (min (n * 8 - 1) 31).toNat := by omega
      have hlt : (min (n * 8 - 1) 31).toNat < 128 := by omega
      have e1 : debug.i32 (n * 8) = some (n * 8) := if_pos h8
      have e2 : debug.i32 (n * 8 - 1) = some (n * 8 - 1) := if_pos hmin
      have e3 : debug.shlOne (min (n * 8 - 1) 31).toNat = some (2 ^ (min (n * 8 - 1) 31).toNat) := if_pos hlt
      rw [e1, ofOption_bind, e2, ofOption_bind, hb, e3, ofOption_bind]
      have hp : (2 : Nat) ^ (min (n * 8 - 1) 31).toNat ≤ 2 ^ 31 :=
        Nat.pow_le_pow_right (by decide) (by omega)
      have hp0 : 0 < (2 : Nat) ^ (min (n * 8 - 1) 31).toNat := Nat.two_pow_pos _
      have hcast : ((2 : Int) ^ (min (n * 8 - 1) 31).toNat) = ((2 ^ (min (n * 8 - 1) 31).toNat : Nat) : Int) := by
        norm_cast
      dsimp only
      rw [hcast]
      generalize 2 ^ (min (n * 8 - 1) 31).toNat = m at *
      have hw : wrap32 ((m - 1 : Nat) : Int) = (m : Int) - 1 := by
        rw [wrap32_small _ (by unfold InI32; omega)]; omega
      have e4 : debug.i32 (-((m : Int) - 1)) = some (-((m : Int) - 1)) := if_pos (by unfold InI32; omega)
      rw [hw, e4, ofOption_bind]
      split
      · rfl
      · have e5 : debug.i32 (x.natAbs : Int) = some (x.natAbs : Int) := if_pos (by unfold InI32; omega)
        rw [e5, ofOption_bind]
        have e : Int.toNat ((x.natAbs : Int) % 2 ^ 32) = x.natAbs := by omega
        rw [e]
    · rw [if_pos h8]
      have e1 : debug.i32 (n * 8) = none := if_neg h8
      rw [e1]; rfl

theorem sum_eq (p : Profile) (l : List UInt64) (acc : Nat)
    (h : acc + (l.map UInt64.toNat).sum < 2 ^ 64) : p.sum l acc = some (acc + (l.map UInt64.toNat).sum) := by
  induction l generalizing acc with
  | nil => rfl
  | cons x xs ih =>
    rw [List.map_cons, List.sum_cons] at h ⊢
    unfold sum u64
    rw [if_pos (by omega)]
    show p.sum xs (acc + x.toNat) = _
    rw [ih _ (by omega)]
    congr 1; omega

theorem sum_debug (l : List UInt64) (acc : Nat) (hacc : acc < 2 ^ 64) : debug.sum l acc =
    if acc + (l.map UInt64.toNat).sum < 2 ^ 64 then some (acc + (l.map UInt64.toNat).sum) else none := by
  induction l generalizing acc with
  | nil => simp [sum, hacc]
  | cons x xs ih =>
    rw [List.map_cons, List.sum_cons]
    unfold sum u64
    split
    · next h =>
      show debug.sum xs (acc + x.toNat) = _
      rw [ih _ h, Nat.add_assoc]
    · next h => rw [if_neg (by omega)]; rfl

theorem sumU64_eq (l : List UInt64) : debug.sum l 0 = sumU64 l := by
  rw [sum_debug _ _ (by decide)]
  unfold sumU64
  simp

theorem buildStep_debug (sz : Layout) (b : TxBuilder Dyn) (st : BuildState) (idx : Nat) :
    debug.buildStep sz b st idx = TxBuilder.buildStep sz b st idx := by
  unfold buildStep TxBuilder.buildStep
  cases b.outputs[idx]? with
  | none => rfl
  | some o =>
    cases o with
    | knownValue o => rfl
    | leftover lower upper prec script =>
    dsimp only
    split
    · rfl
    · congr 1
      funext size
      unfold u64
      by_cases h : size * b.feePerKb.toNat < 2 ^ 64
      · rw [if_pos h, if_neg (by omega)]; rfl
      · rw [if_neg h, if_pos (by omega)]; rfl

theorem buildLoop_debug (sz : Layout) (b : TxBuilder Dyn) (st : BuildState) (l : List (Nat × Int)) :
    debug.buildLoop sz b st l = TxBuilder.buildLoop sz b st l := by
  induction l generalizing st with
  | nil => rfl
  | cons x xs ih =>
    simp only [buildLoop, TxBuilder.buildLoop, buildStep_debug, ih]

theorem build_debug (sz : Layout) (H : Bytes → Hash256) (b : TxBuilder Dyn) :
    debug.build sz H b = b.build sz H := by
  unfold build TxBuilder.build knownOutputSum inputSum TxBuilder.knownOutputSum TxBuilder.inputSum
  simp only [sumU64_eq, buildLoop_debug]
  rfl

/-! ## Release and debug -/

theorem vecToIntLoop_agree (bs : Bytes) (shift : Nat) (acc : Int) :
    Agree (debug.vecToIntLoop bs shift acc) (release.vecToIntLoop bs shift acc) := by
  induction bs generalizing shift acc with
  | nil => exact .refl _
  | cons b rest ih =>
    have hstep : Agree
        (if b ≠ 0 then (tryShl (b.toNat : Int) shift).bind fun d => Res.ofOption (debug.i32 (acc + d))
          else .ok acc)
        (if b ≠ 0 then (tryShl (b.toNat : Int) shift).bind fun d => Res.ofOption (release.i32 (acc + d))
          else .ok acc) := by
      split
      · exact (Agree.refl _).bind fun d => i32_agree _
      · exact .refl _
    cases rest with
    | nil =>
      simp only [vecToIntLoop]
      split
      · exact (Agree.refl _).bind fun d => (i32_agree _).bind fun a => i32_agree _
      · exact hstep.bind fun a => (u32_agree _).bind fun _ => .refl _
    | cons b' rest =>
      simp only [vecToIntLoop]
      exact hstep.bind fun a => (u32_agree _).bind fun s => ih _ _

theorem fromInt_agree (x n : Int) : Agree (debug.fromInt x n) (release.fromInt x n) := by
  unfold fromInt
  split
  · exact .refl _
  · refine (i32_agree _).bind fun _ => (i32_agree _).bind fun _ => (shlOne_agree _).bind fun s =>
      (i32_agree _).bind fun _ => ?_
    split
    · exact .refl _
    · exact (i32_agree _).bind fun _ => .refl _

theorem sum_some (l : List UInt64) (acc n : Nat) (h : debug.sum l acc = some n) (p : Profile) :
    p.sum l acc = some n := by
  induction l generalizing acc with
  | nil => exact h
  | cons x xs ih =>
    unfold sum at h ⊢
    obtain ⟨a, ha, h⟩ := Option.bind_eq_some_iff.mp h
    rw [u64_some ha p]
    exact ih _ h

theorem buildStep_some (sz : Layout) (b : TxBuilder Dyn) (st st' : BuildState) (idx : Nat)
    (h : debug.buildStep sz b st idx = some st') (p : Profile) : p.buildStep sz b st idx = some st' := by
  unfold buildStep at h ⊢
  split
  · next hi => rw [hi] at h; exact h
  · next hi => rw [hi] at h; exact h
  · next hi =>
    rw [hi] at h
    dsimp only at h ⊢
    split
    · next ht => rwa [if_pos ht] at h
    · next ht =>
      rw [if_neg ht] at h
      obtain ⟨size, hs, h⟩ := Option.bind_eq_some_iff.mp h
      obtain ⟨product, hp, h⟩ := Option.bind_eq_some_iff.mp h
      rw [hs]
      show (p.u64 _).bind _ = _
      rw [u64_some hp p]
      exact h

theorem buildLoop_some (sz : Layout) (b : TxBuilder Dyn) (st st' : BuildState) (l : List (Nat × Int))
    (h : debug.buildLoop sz b st l = some st') (p : Profile) : p.buildLoop sz b st l = some st' := by
  induction l generalizing st with
  | nil => exact h
  | cons x xs ih =>
    unfold buildLoop at h ⊢
    obtain ⟨s, hs, h⟩ := Option.bind_eq_some_iff.mp h
    rw [buildStep_some sz b st s x.1 hs p]
    exact ih _ h

theorem ofOption_agree {ε α : Type} {x y : Option α} (h : ∀ a, x = some a → y = some a) :
    Agree (Res.ofOption x : Res ε α) (Res.ofOption y) := by
  intro hx
  cases x with
  | none => exact absurd rfl hx
  | some a => rw [h a rfl]

theorem build_agree (sz : Layout) (H : Bytes → Hash256) (b : TxBuilder Dyn) :
    Agree (debug.build sz H b) (release.build sz H b) := by
  unfold build
  refine (ofOption_agree fun a h => sum_some _ _ _ h _).bind fun known =>
    (ofOption_agree fun a h => sum_some _ _ _ h _).bind fun inputs => ?_
  split
  · exact .refl _
  · exact (ofOption_agree fun a h => buildLoop_some sz b _ _ _ h _).bind fun st => .refl _

theorem buildLoop_free (sz : Layout) (b : TxBuilder Dyn)
    (hfee : ∀ amt size, b.estimateSize sz (chosenOutputs b.outputs amt) = some size →
      size * b.feePerKb.toNat < 2 ^ 64)
    (p q : Profile) (st : BuildState) (l : List (Nat × Int)) :
    p.buildLoop sz b st l = q.buildLoop sz b st l := by
  induction l generalizing st with
  | nil => rfl
  | cons x xs ih =>
    unfold buildLoop
    have : p.buildStep sz b st x.1 = q.buildStep sz b st x.1 := by
      unfold buildStep
      split
      · rfl
      · rfl
      · split
        · rfl
        · dsimp only
          cases hs : b.estimateSize sz _ with
          | none => rfl
          | some size =>
            rw [makeOutputs_chosen] at hs
            have := hfee _ _ hs
            simp only [Option.bind_some, u64, if_pos this]
    rw [this]
    congr 1
    funext s
    exact ih s

end Profile

open Profile

/-- **C89** (debug): in the debug profile the functions with the profile as a parameter are those the other
properties are about. -/
theorem C89_debug (sz : Layout) (H : Bytes → Hash256) (b : TxBuilder Dyn) (bs : Bytes) (x n : Int)
    (hx : InScriptRange x) :
    debug.build sz H b = b.build sz H ∧ debug.encodeInt x = encodeInt x ∧ debug.vecToInt bs = vecToInt bs ∧
    debug.neg x = Integer.neg x ∧ debug.fromInt x n = ByteArray.fromInt x n := by
  refine ⟨build_debug sz H b, encodeInt_debug x ?_, ?_, ?_, fromInt_debug x n hx⟩
  · unfold InScriptRange at hx; unfold InI32; omega
  · unfold Profile.vecToInt vecToInt
    rw [vecToIntLoop_debug]
  · unfold Profile.neg Integer.neg i32
    split <;> rfl

/-- **C89**: a call that returns (a result or an error) in a debug build returns the same in a release build:
building a transaction, encoding and decoding numbers, negating, and encoding with a fixed width. -/
theorem C89_same (sz : Layout) (H : Bytes → Hash256) (b : TxBuilder Dyn) (bs : Bytes) (x n : Int) :
    (debug.build sz H b ≠ .panic → release.build sz H b = debug.build sz H b) ∧
    (debug.encodeInt x ≠ .panic → release.encodeInt x = debug.encodeInt x) ∧
    (debug.vecToInt bs ≠ .panic → release.vecToInt bs = debug.vecToInt bs) ∧
    (debug.neg x ≠ .panic → release.neg x = debug.neg x) ∧
    (debug.fromInt x n ≠ .panic → release.fromInt x n = debug.fromInt x n) := by
  refine ⟨build_agree sz H b, ?_, ?_, i32_agree _, fromInt_agree x n⟩
  · exact (i32_agree _).bind fun a => .refl _
  · unfold Profile.vecToInt
    split
    · exact fun _ => rfl
    · exact vecToIntLoop_agree _ _ _

/-- **C89** (numbers): in a release build every `i32` is encoded as the minimal script number of its value
(also `i32::MIN`, for which a debug build panics). -/
theorem C89_encode (x : Int) (hx : InI32 x) :
    ∃ bs, release.encodeInt x = .ok bs ∧ scriptNum bs = x ∧ IsMinimalNum bs := by
  by_cases h : x = -2 ^ 31
  · subst h
    exact ⟨[0, 0, 0, 0x80, 0x80], by decide +kernel, by decide +kernel, by simp [IsMinimalNum]⟩
  · unfold InI32 at hx
    obtain ⟨bs, hb, _, hv, hm, _⟩ := C03_script_int_roundtrip x ⟨by omega, by omega⟩
    refine ⟨bs, ?_, hv, hm⟩
    rw [← hb, ← encodeInt_debug x (by unfold InI32; omega)]
    refine (C89_same (Dyn := Unit) ⟨1, 1⟩ (fun _ => Hash256.zero) .newSimple [] x 0).2.1 ?_
    rw [encodeInt_debug x (by unfold InI32; omega), hb]
    simp

/-- **C89** (operands): for operands below 2^29 bytes and widths below 2^28 bytes, decoding and fixed-width encoding
do the same in both builds. -/
theorem C89_operands (p : Profile) (bs : Bytes) (x n : Int) (hlen : 8 * bs.length < 2 ^ 32)
    (hx : InScriptRange x) (hn : n < 2 ^ 28) :
    p.vecToInt bs = vecToInt bs ∧ p.fromInt x n = ByteArray.fromInt x n := by
  obtain ⟨-, -, hd, -, hf⟩ := C89_debug (Dyn := Unit) ⟨1, 1⟩ (fun _ => Hash256.zero) .newSimple bs x n hx
  cases p with
  | debug => exact ⟨hd, hf⟩
  | release =>
    obtain ⟨-, -, h1, -, h2⟩ := C89_same (Dyn := Unit) ⟨1, 1⟩ (fun _ => Hash256.zero) .newSimple bs x n
    rw [← hd, ← hf]
    refine ⟨h1 ?_, h2 ?_⟩
    · rw [hd]
      rcases C04_decode_value_partial bs hlen with ⟨h, _⟩ | h | ⟨_, _, _, h⟩ <;> rw [h] <;> simp
    · rw [hf]
      rcases (C06_num2bin_partial x n hx hn).2.2 with ⟨b, h⟩ | h <;> rw [h] <;> simp

/-- **C89** (building): if neither the inputs nor the fixed outputs exceed 64 bits, nor does the fee rate times
the estimated size with any amounts for the leftover outputs, both builds do the same, so that in particular C32 to C37 hold of both. -/
theorem C89_build_partial (p : Profile) (sz : Layout) (H : Bytes → Hash256) (b : TxBuilder Dyn)
    (hin : b.inputTotal < 2 ^ 64) (hout : outputSum b.fixedOutputs < 2 ^ 64)
    (hfee : ∀ amt size, b.estimateSize sz (chosenOutputs b.outputs amt) = some size →
      size * b.feePerKb.toNat < 2 ^ 64) :
    p.build sz H b = b.build sz H ∧
    ∀ u, p.build sz H b = .ok u → outputSum u.outputs ≤ b.inputTotal := by
  have hk : p.build sz H b = b.build sz H := by
    rw [← build_debug]
    unfold Profile.build Profile.knownOutputSum Profile.inputSum
    have h1 : ((b.outputs.map (·.getValue)).map UInt64.toNat).sum < 2 ^ 64 := by
      rw [knownSum_fixed]; exact hout
    have h2 : ((b.inputs.map (·.input.value)).map UInt64.toNat).sum < 2 ^ 64 := by
      rw [List.map_map]; exact hin
    rw [sum_eq p _ 0 (by omega), sum_eq p _ 0 (by omega), sum_eq debug _ 0 (by omega),
      sum_eq debug _ 0 (by omega)]
    simp only [buildLoop_free sz b hfee p debug]
  exact ⟨hk, fun u hu => C32_conservation sz H b u (by rw [← hk]; exact hu)⟩

/-- Non-vacuity: the hypotheses hold of the builder with leftover outputs of `C36`, in which the size is at most
93 bytes. -/
example (sz : Layout) : (exampleBuilder : TxBuilder Dyn).inputTotal < 2 ^ 64 ∧
    outputSum (exampleBuilder : TxBuilder Dyn).fixedOutputs < 2 ^ 64 ∧
    ∀ amt size, (exampleBuilder : TxBuilder Dyn).estimateSize sz (chosenOutputs
      (exampleBuilder : TxBuilder Dyn).outputs amt) = some size →
      size * (exampleBuilder : TxBuilder Dyn).feePerKb.toNat < 2 ^ 64 := by
  have hin : (exampleBuilder : TxBuilder Dyn).inputTotal = 10000 := rfl
  have hout : outputSum (exampleBuilder : TxBuilder Dyn).fixedOutputs = 2000 := rfl
  have hfee : (exampleBuilder : TxBuilder Dyn).feePerKb.toNat = 1000 := rfl
  refine ⟨by omega, by omega, ?_⟩
  intro amt size h
  rw [← makeOutputs_chosen] at h
  change (exampleBuilder : TxBuilder Dyn).estimateSize sz (makeOutputsFrom amt 0
    [.leftover 546 0xffffffffffffffff 1 [.code .OP_2], .knownValue ⟨2000, [.code .OP_3]⟩,
      .leftover 1000 3000 0 [.code .OP_4]]) = some size at h
  have hsize : size ≤ 93 := by
    simp only [makeOutputsFrom] at h
    cases h0 : amt 0 <;> cases h2 : amt 2 <;> rw [h0] at h <;> rw [show 0 + 1 + 1 = 2 from rfl, h2] at h <;>
      · injection (show some _ = some size from h) with h
        subst h
        exact Nat.le_of_ble_eq_true rfl
  rw [hfee]
  omega

/-- A transaction with two outputs of 2^63 each spending one output of 1000. -/
def wrappingTx : UnhashedTx :=
  { feelessTx with outputs := [⟨0x8000000000000000, [.code .OP_1]⟩, ⟨0x8000000000000000, [.code .OP_1]⟩] }

/-- **C89 fails** (sums): in a release build the sum of the fixed outputs can wrap around to 0, and a transaction
is built that spends far more than its inputs. A debug build panics. -/
theorem C89_build_fails (sz : Layout) (H : Bytes → Hash256) :
    debug.build sz H (fromTx wrappingTx : TxBuilder Dyn) = .panic ∧
    ∃ u, release.build sz H (fromTx wrappingTx : TxBuilder Dyn) = .ok u ∧
      (fromTx wrappingTx : TxBuilder Dyn).inputTotal = 1000 ∧ outputSum u.outputs = 2 ^ 64 := by
  have hd : debug.knownOutputSum (fromTx wrappingTx : TxBuilder Dyn) = none := by
    show debug.sum [0x8000000000000000, 0x8000000000000000] 0 = none
    decide +kernel
  have hk : release.knownOutputSum (fromTx wrappingTx : TxBuilder Dyn) = some 0 := by
    show release.sum [0x8000000000000000, 0x8000000000000000] 0 = some 0
    decide +kernel
  have hi : release.inputSum (fromTx wrappingTx : TxBuilder Dyn) = some 1000 := by
    show release.sum [1000] 0 = some 1000
    decide +kernel
  obtain ⟨size, hs⟩ : ∃ size, (fromTx wrappingTx : TxBuilder Dyn).estimateSize sz wrappingTx.outputs = some size :=
    ⟨_, rfl⟩
  obtain ⟨pre, hp⟩ : ∃ pre, buildPreimages H ((fromTx wrappingTx : TxBuilder Dyn).toPreimageTx
      wrappingTx.outputs) = some pre := ⟨_, rfl⟩
  have hsum : outputSum wrappingTx.outputs = 2 ^ 64 := by decide +kernel
  refine ⟨?_, Exists.intro (UnsignedTx.mk (fromTx wrappingTx) wrappingTx.outputs pre
    (fromTx wrappingTx : TxBuilder Dyn).prefilled size) (And.intro ?_ (And.intro rfl hsum))⟩
  · unfold Profile.build
    rw [hd]; rfl
  · unfold Profile.build
    rw [hk, hi]
    simp only [ofOption_bind]
    rw [if_neg (by decide)]
    have hl : sortByKey (leftoverIndices 0 (fromTx wrappingTx : TxBuilder Dyn).outputs) = [] := rfl
    have ho : (fromTx wrappingTx : TxBuilder Dyn).makeOutputs (fun _ => none) = wrappingTx.outputs := rfl
    rw [hl]
    unfold Profile.buildLoop
    simp only [ofOption_bind]
    rw [ho, hs, ofOption_bind, hp, ofOption_bind]

/-- A builder with one leftover output and a fee rate of 2^63. -/
def wrappingFee : TxBuilder Dyn :=
  ((fromTx { feelessTx with outputs := [] } : TxBuilder Dyn).addLeftoverOutput [.code .OP_1]).setFeePerKb
    0x8000000000000000

/-- **C89 fails** (fees): in a release build the product of size and fee rate can wrap around to 0, and the
leftover output gets everything, although the rate asks for a fee that no input could pay. -/
theorem C89_fee_fails (sz : Layout) (H : Bytes → Hash256) :
    debug.build sz H (wrappingFee : TxBuilder Dyn) = .panic ∧
    ∃ u, release.build sz H (wrappingFee : TxBuilder Dyn) = .ok u ∧
      (wrappingFee : TxBuilder Dyn).inputTotal = 1000 ∧ outputSum u.outputs = 1000 ∧
      u.estimatedSize = 62 := by
  have hk : ∀ p : Profile, p.knownOutputSum (wrappingFee : TxBuilder Dyn) = some 0 := by
    intro p
    show p.sum [0] 0 = some 0
    cases p <;> decide +kernel
  have hi : ∀ p : Profile, p.inputSum (wrappingFee : TxBuilder Dyn) = some 1000 := by
    intro p
    show p.sum [1000] 0 = some 1000
    cases p <;> decide +kernel
  have hs : (wrappingFee : TxBuilder Dyn).estimateSize sz [⟨1000, [.code .OP_1]⟩] = some 62 := rfl
  have hl : sortByKey (leftoverIndices 0 (wrappingFee : TxBuilder Dyn).outputs) = [(0, 0)] := rfl
  have hm : ∀ f : Nat → Option Nat, f 0 = some 1000 →
      (wrappingFee : TxBuilder Dyn).makeOutputs f = [⟨1000, [.code .OP_1]⟩] := by
    intro f hf
    show makeOutputsFrom f 0 [.leftover DUST_AMOUNT (UInt64.ofNat (2 ^ 64 - 1)) 0 [.code .OP_1]] = _
    simp [makeOutputsFrom, hf]
  have hmin : min 1000 (UInt64.ofNat (2 ^ 64 - 1)).toNat = 1000 := by decide +kernel
  have hfee : (wrappingFee : TxBuilder Dyn).feePerKb.toNat = 2 ^ 63 := by
    show (0x8000000000000000 : UInt64).toNat = 2 ^ 63
    decide +kernel
  have ho : (wrappingFee : TxBuilder Dyn).outputs[0]? =
    some (.leftover DUST_AMOUNT (UInt64.ofNat (2 ^ 64 - 1)) 0 [.code .OP_1]) := rfl
  have hd : debug.buildStep sz (wrappingFee : TxBuilder Dyn) ⟨1000, fun _ => none, none⟩ 0 = none := by
    unfold Profile.buildStep
    rw [ho]
    dsimp only
    rw [if_neg (show ¬ 1000 ≤ DUST_AMOUNT.toNat by decide), hmin, hm _ rfl, hs, Option.bind_some, hfee,
      show debug.u64 (62 * 2 ^ 63) = none by decide +kernel]
    rfl
  have hr : release.buildStep sz (wrappingFee : TxBuilder Dyn) ⟨1000, fun _ => none, none⟩ 0 =
      some ⟨0, setAmount (fun _ => none) 0 (some 1000), some 62⟩ := by
    unfold Profile.buildStep
    rw [ho]
    dsimp only
    rw [if_neg (show ¬ 1000 ≤ DUST_AMOUNT.toNat by decide), hmin, hm _ rfl, hs, Option.bind_some, hfee,
      show release.u64 (62 * 2 ^ 63) = some 0 by decide +kernel, Option.bind_some, if_pos (by decide),
      show 1000 - 0 / 1000 = 1000 from rfl, hmin, if_neg (by decide)]
  have hm' := hm (setAmount (fun _ => none) 0 (some 1000)) rfl
  obtain ⟨pre, hp⟩ : ∃ pre, buildPreimages H ((wrappingFee : TxBuilder Dyn).toPreimageTx
      [⟨1000, [.code .OP_1]⟩]) = some pre := ⟨_, rfl⟩
  refine ⟨?_, Exists.intro (UnsignedTx.mk wrappingFee [⟨1000, [.code .OP_1]⟩] pre
    (wrappingFee : TxBuilder Dyn).prefilled 62) ⟨?_, rfl, rfl, rfl⟩⟩
  · unfold Profile.build
    rw [hk, hi, hl]
    simp only [ofOption_bind]
    rw [if_neg (by decide)]
    unfold Profile.buildLoop
    rw [hd]; rfl
  · unfold Profile.build
    rw [hk, hi, hl]
    simp only [ofOption_bind]
    rw [if_neg (by decide)]
    unfold Profile.buildLoop
    rw [hr, Option.bind_some]
    unfold Profile.buildLoop
    simp only [ofOption_bind]
    rw [hm', hp, ofOption_bind]

/-- **C89 fails** (wide encodings): in a release build the width check can wrap around for widths above 2^28
bytes, and a number that fits is refused (a debug build panics). -/
theorem C89_num2bin_fails : debug.fromInt 128 (2 ^ 28 + 1) = .panic ∧
    release.fromInt 128 (2 ^ 28 + 1) = .err (.fromInteger 128 (2 ^ 28 + 1)) :=
  ⟨rfl, rfl⟩

namespace Profile

theorem u32_release (x : Nat) : release.u32 x = some (x % 2 ^ 32) := by
  unfold u32
  split
  · next h => rw [Nat.mod_eq_of_lt h]
  · rfl

/-- In a release build zero bytes only advance the shift, modulo 2^32. -/
theorem vecToIntLoop_zeros (n : Nat) (rest : Bytes) (b : UInt8) (shift : Nat) (acc : Int)
    (hs : shift < 2 ^ 32) :
    release.vecToIntLoop (List.replicate n 0 ++ b :: rest) shift acc =
      release.vecToIntLoop (b :: rest) ((shift + 8 * n) % 2 ^ 32) acc := by
  induction n generalizing shift with
  | zero => rw [Nat.mul_zero, Nat.add_zero, Nat.mod_eq_of_lt hs]; rfl
  | succ n ih =>
    have hstep : release.vecToIntLoop (List.replicate (n + 1) 0 ++ b :: rest) shift acc =
        release.vecToIntLoop (List.replicate n 0 ++ b :: rest) ((shift + 8) % 2 ^ 32) acc := by
      rw [List.replicate_succ, List.cons_append]
      cases hr : List.replicate n 0 ++ b :: rest with
      | nil => simp at hr
      | cons c cs =>
        rw [vecToIntLoop, if_neg (by decide), u32_release]
        rfl
    rw [hstep, ih _ (Nat.mod_lt _ (by decide)), Nat.mod_add_mod]
    congr 2
    omega

/-- In a debug build too many zero bytes overflow the shift. -/
theorem vecToIntLoop_zeros_debug (n : Nat) (rest : Bytes) (b : UInt8) (shift : Nat) (acc : Int)
    (hs : shift < 2 ^ 32) (hn : 2 ^ 32 ≤ shift + 8 * n) :
    debug.vecToIntLoop (List.replicate n 0 ++ b :: rest) shift acc = .panic := by
  induction n generalizing shift with
  | zero => omega
  | succ n ih =>
    rw [List.replicate_succ, List.cons_append]
    cases hr : List.replicate n 0 ++ b :: rest with
    | nil => simp at hr
    | cons c cs =>
      rw [vecToIntLoop, if_neg (by decide)]
      by_cases h : shift + 8 < 2 ^ 32
      · have hu : debug.u32 (shift + 8) = some (shift + 8) := if_pos h
        rw [hu, ← hr]
        exact ih (shift + 8) h (by omega)
      · have hu : debug.u32 (shift + 8) = none := if_neg h
        rw [hu]
        rfl

end Profile

/-- As `C89_decode_fails`, with the number of zeros as a variable. -/
theorem Profile.vecToInt_zeros (n : Nat) (hn : 8 * n = 2 ^ 32) (bs : Bytes) (hbs : bs ≠ []) :
    release.vecToInt (List.replicate n 0 ++ bs) = release.vecToInt bs ∧
    debug.vecToInt (List.replicate n 0 ++ bs) = .panic := by
  obtain ⟨b, rest, rfl⟩ : ∃ b rest, bs = b :: rest := by
    cases bs with
    | nil => exact absurd rfl hbs
    | cons b rest => exact ⟨b, rest, rfl⟩
  have hne : (List.replicate n 0 ++ b :: rest).isEmpty = false := by simp
  have hne' : (b :: rest).isEmpty = false := rfl
  unfold Profile.vecToInt
  rw [hne, hne', if_neg (by decide), if_neg (by decide)]
  constructor
  · rw [Profile.vecToIntLoop_zeros _ _ _ _ _ (by decide), Nat.zero_add, hn,
      Nat.mod_self]
  · exact Profile.vecToIntLoop_zeros_debug _ _ _ _ _ (by decide) (by omega)

/-- **C89** (long operands): in a release build 2^29 zero bytes (half a gigabyte) in front of an operand do not
change what it decodes to, although they multiply its number by 2^(2^32); a debug build panics. -/
theorem C89_decode_fails (n : Nat) (hn : n = 2 ^ 29) (bs : Bytes) (hbs : bs ≠ []) :
    release.vecToInt (List.replicate n 0 ++ bs) = release.vecToInt bs ∧
    debug.vecToInt (List.replicate n 0 ++ bs) = .panic :=
  Profile.vecToInt_zeros n (by rw [hn]) bs hbs

/-- Non-vacuity: so in a release build half a gigabyte of zeros and then 5 decodes to 5, as 5 itself does. -/
example : ∃ n, n = 2 ^ 29 ∧ release.vecToInt (List.replicate n 0 ++ [5]) = .ok 5 := by
  refine ⟨_, rfl, ?_⟩
  generalize hn : 2 ^ 29 = n
  exact (C89_decode_fails n hn.symm [5] (by decide)).1.trans (by decide +kernel)

/-! ### What a release build does beyond 64 bits and 2^28 bytes -/

namespace Profile

theorem sum_release (l : List UInt64) (acc : Nat) (hacc : acc < 2 ^ 64) :
    release.sum l acc = some ((acc + (l.map UInt64.toNat).sum) % 2 ^ 64) := by
  induction l generalizing acc with
  | nil => simp only [sum, List.map_nil, List.sum_nil, Nat.add_zero]; rw [Nat.mod_eq_of_lt hacc]
  | cons x xs ih =>
    rw [List.map_cons, List.sum_cons]
    unfold sum
    have hu : release.u64 (acc + x.toNat) = some ((acc + x.toNat) % 2 ^ 64) := by
      unfold u64
      split
      · next h => rw [Nat.mod_eq_of_lt h]
      · rfl
    rw [hu, Option.bind_some, ih _ (Nat.mod_lt _ (by decide)), Nat.mod_add_mod, Nat.add_assoc]

theorem u64_release (x : Nat) : release.u64 x = some (x % 2 ^ 64) := by
  unfold u64
  split
  · next h => rw [Nat.mod_eq_of_lt h]
  · rfl

theorem makeOutputsFrom_unset (k : Nat) (outs : List TxBuilderOutput) :
    makeOutputsFrom (fun _ => none) k outs = outs.filterMap TxBuilderOutput.known? := by
  induction outs generalizing k with
  | nil => rfl
  | cons o rest ih =>
    cases o with
    | knownValue o => simp [makeOutputsFrom, ih, TxBuilderOutput.known?]
    | leftover l u p s => simp only [makeOutputsFrom, ih]; rfl

/-- What holds during the loop of a release build; `total` is what there is to distribute at the start. -/
structure RInv (b : TxBuilder Dyn) (sz : Layout) (sum : Nat) (st : BuildState) : Prop where
  sum : allocSum st.amounts 0 b.outputs + st.total = sum
  bounds : ∀ i v, st.amounts i = some v → ∃ l u p s,
    b.outputs[i]? = some (.leftover l u p s) ∧ l.toNat < v ∧ v ≤ u.toNat
  fee : ∀ s, st.estimated = some s → s * b.feePerKb.toNat % 2 ^ 64 / 1000 ≤ st.total
  none : st.estimated = none → ∀ i, st.amounts i = none

theorem RInv.step {b : TxBuilder Dyn} {sz : Layout} {c : Nat} {st st' : BuildState} {idx : Nat}
    (hi : RInv b sz c st) (hf : st.amounts idx = Option.none) (h : release.buildStep sz b st idx = some st') :
    RInv b sz c st' ∧ ∀ j, j ≠ idx → st'.amounts j = st.amounts j := by
  unfold buildStep at h
  split at h
  · cases h
  · cases h; exact ⟨hi, fun _ _ => rfl⟩
  · next l u p s ho =>
    split at h
    · cases h; exact ⟨hi, fun _ _ => rfl⟩
    · obtain ⟨size, hsize, h⟩ := Option.bind_eq_some_iff.mp h
      rw [u64_release, Option.bind_some] at h
      dsimp only at h
      split at h
      · next hfee =>
        split at h
        · cases h
          rw [setAmount_none_self hf]
          exact ⟨⟨hi.sum, hi.bounds, hi.fee, hi.none⟩, fun _ _ => rfl⟩
        · next hl =>
          cases h
          refine ⟨⟨?_, ?_, ?_, ?_⟩, ?_⟩
          · have := allocSum_set hf (min (st.total - size * b.feePerKb.toNat % 2 ^ 64 / 1000) u.toNat) 0 b.outputs
              ⟨Nat.zero_le _, l, u, p, s, by simpa using ho⟩
            dsimp only
            rw [this]
            have := hi.sum
            omega
          · intro i v hv
            simp only [setAmount] at hv
            split at hv
            · next e =>
              subst e
              injection hv with hv
              exact ⟨l, u, p, s, ho, by omega, by omega⟩
            · exact hi.bounds i v hv
          · intro s' hs
            injection hs with hs
            subst hs
            dsimp only
            omega
          · intro hn; cases hn
          · intro j hj
            simp only [setAmount]
            rw [if_neg hj]
      · cases h
        rw [setAmount_none_self hf]
        exact ⟨⟨hi.sum, hi.bounds, hi.fee, hi.none⟩, fun _ _ => rfl⟩

theorem RInv.loop {b : TxBuilder Dyn} {sz : Layout} {c : Nat} :
    ∀ (idxs : List (Nat × Int)) {st st' : BuildState}, RInv b sz c st →
    (idxs.map (·.1)).Nodup → (∀ x ∈ idxs, st.amounts x.1 = Option.none) →
    release.buildLoop sz b st idxs = some st' → RInv b sz c st' := by
  intro idxs
  induction idxs with
  | nil => intro st st' hi _ _ h; cases h; exact hi
  | cons x rest ih =>
    intro st st' hi hnd hnone h
    simp only [buildLoop, Option.bind_eq_some_iff] at h
    obtain ⟨st1, h1, h2⟩ := h
    obtain ⟨hi1, hsame⟩ := hi.step (hnone _ List.mem_cons_self) h1
    simp only [List.map_cons, List.nodup_cons] at hnd
    exact ih hi1 hnd.2 (fun y hy => by
      rw [hsame y.1 (by rintro e; exact hnd.1 (e ▸ List.mem_map_of_mem hy))]
      exact hnone y (List.mem_cons_of_mem _ hy)) h2

end Profile

/-- **C89** (release, building): in a release build the sums and the fee are those modulo 2^64: building is refused
exactly if the fixed outputs so reduced exceed the inputs so reduced, with the difference as missing amount;
otherwise the leftover outputs are within their bounds, get together at most what the reduced sums leave, and if
there is one, the reduced fee for the estimated size remains. -/
theorem C89_release_build (sz : Layout) (H : Bytes → Hash256) (b : TxBuilder Dyn) :
    (∀ e, release.build sz H b = .err e ↔
      outputSum b.fixedOutputs % 2 ^ 64 > b.inputTotal % 2 ^ 64 ∧
      e = .insufficientInputAmount (outputSum b.fixedOutputs % 2 ^ 64 - b.inputTotal % 2 ^ 64)) ∧
    ∀ u, release.build sz H b = .ok u →
      outputSum u.outputs + outputSum b.fixedOutputs % 2 ^ 64 ≤ outputSum b.fixedOutputs + b.inputTotal % 2 ^ 64 ∧
      (u.outputs = b.fixedOutputs ∨ outputSum u.outputs + outputSum b.fixedOutputs % 2 ^ 64 +
        u.estimatedSize * b.feePerKb.toNat % 2 ^ 64 / 1000 ≤ outputSum b.fixedOutputs + b.inputTotal % 2 ^ 64) ∧
      ∃ amt : Nat → Option Nat, u.outputs = chosenOutputs b.outputs amt ∧
        ∀ i lower upper prec script, b.outputs[i]? = some (.leftover lower upper prec script) →
          ∀ v, amt i = some v → lower.toNat < v ∧ v ≤ upper.toNat := by
  have h1 : release.knownOutputSum b = some (outputSum b.fixedOutputs % 2 ^ 64) := by
    unfold Profile.knownOutputSum
    rw [sum_release _ _ (by decide), Nat.zero_add, knownSum_fixed]
  have h2 : release.inputSum b = some (b.inputTotal % 2 ^ 64) := by
    unfold Profile.inputSum
    rw [sum_release _ _ (by decide), Nat.zero_add, List.map_map]
    rfl
  unfold Profile.build
  rw [h1, h2, ofOption_bind, ofOption_bind]
  by_cases hgt : outputSum b.fixedOutputs % 2 ^ 64 > b.inputTotal % 2 ^ 64
  · rw [if_pos hgt]
    refine ⟨fun e => ⟨fun h => ?_, fun h => by rw [h.2]⟩, fun u h => by cases h⟩
    cases h
    exact ⟨hgt, rfl⟩
  · rw [if_neg hgt]
    refine ⟨fun e => ⟨fun he => ?_, fun h => absurd h.1 hgt⟩, fun u h => ?_⟩
    · obtain ⟨_, _, he⟩ := Res.ofOption_bind_err he
      obtain ⟨_, _, he⟩ := Res.ofOption_bind_err he
      obtain ⟨_, _, he⟩ := Res.ofOption_bind_err he
      cases he
    · simp only [Res.bind_eq_ok, Res.ofOption_eq_ok] at h
      obtain ⟨st, hloop, est, hest, preimages, hpre, h⟩ := h
      injection h with h
      have hfix := allocSum_none 0 b.outputs
      rw [knownSum_fixed] at hfix
      have inv0 : RInv b sz (outputSum b.fixedOutputs + (b.inputTotal % 2 ^ 64 - outputSum b.fixedOutputs % 2 ^ 64))
          ⟨b.inputTotal % 2 ^ 64 - outputSum b.fixedOutputs % 2 ^ 64, fun _ => none, none⟩ := by
        refine ⟨?_, ?_, ?_, fun _ _ => rfl⟩
        · dsimp only; rw [hfix]
        · intro i v hv; cases hv
        · intro s hs; cases hs
      have inv := RInv.loop _ inv0 (order_nodup _) (fun _ _ => rfl) hloop
      have hlt : ∀ i v, st.amounts i = some v → v < 2 ^ 64 := by
        intro i v hv
        obtain ⟨l, u, p, s, _, _, hu⟩ := inv.bounds i v hv
        have := u.toNat_lt
        omega
      have hout : outputSum (b.makeOutputs st.amounts) = allocSum st.amounts 0 b.outputs :=
        outputSum_make hlt 0 b.outputs
      have hsum := inv.sum
      rw [← hout] at hsum
      subst h
      refine ⟨?_, ?_, st.amounts, makeOutputs_chosen b st.amounts, ?_⟩
      · dsimp only; omega
      · dsimp only
        cases hs : st.estimated with
        | none =>
          left
          have hn : st.amounts = fun _ => none := funext fun i => inv.none hs i
          rw [hn]
          exact makeOutputsFrom_unset 0 b.outputs
        | some s =>
          right
          rw [hs] at hest
          injection hest with hest
          subst hest
          have := inv.fee _ hs
          omega
      · intro i lower upper prec script ho v hv
        obtain ⟨l, u', p, s, ho', h1, h2⟩ := inv.bounds i v hv
        rw [ho] at ho'
        cases ho'
        exact ⟨h1, h2⟩

/-- The largest magnitude a release build accepts for a width of `n` bytes (`none`: not even 0). The number of bits,
`8n - 1`, is a 32-bit integer; if it is negative it counts modulo 128, and more than 31 bits then leave nothing. -/
def releaseBound (n : Int) : Option Nat :=
  let bits := Int.bmod (8 * n - 1) (2 ^ 32)
  if 0 ≤ bits then some (2 ^ (min bits 31).toNat - 1)
  else if bits % 128 ≤ 31 then some (2 ^ (bits % 128).toNat - 1)
  else none

/-- **C89** (release, fixed width): in a release build, encoding an integer with a fixed positive width never
panics; it succeeds exactly within `releaseBound`, with exactly this width and value, and is the range error
otherwise. -/
theorem C89_release_width (x n : Int) (hx : InScriptRange x) (hn : 0 < n) :
    (∀ b, release.fromInt x n = .ok b → b.len = n.toNat ∧ scriptNum b.data = x) ∧
    ((∃ b, release.fromInt x n = .ok b) ↔ ∃ m, releaseBound n = some m ∧ x.natAbs ≤ m) ∧
    ((∃ b, release.fromInt x n = .ok b) ∨ release.fromInt x n = .err (.fromInteger x n)) := by
  have hx31 : x.natAbs < 2 ^ 31 := by unfold InScriptRange at hx; omega
  have i32r : ∀ y, release.i32 y = some (wrap32 y) := by
    intro y
    unfold i32
    split
    · next h => rw [wrap32_small y h]
    · rfl
  have hw : ∀ y, InI32 (wrap32 y) := by intro y; unfold wrap32 InI32; omega
  have hbits : wrap32 (wrap32 (n * 8) - 1) = Int.bmod (8 * n - 1) (2 ^ 32) := by
    unfold wrap32 Int.bmod
    dsimp only
    split <;> omega
  have shl : ∀ y, release.shlOne y = some (2 ^ (y % 128)) := by
    intro y
    unfold shlOne
    split
    · next h => rw [Nat.mod_eq_of_lt h]
    · rfl
  unfold fromInt
  rw [if_neg (by omega), i32r, ofOption_bind, i32r, ofOption_bind, hbits, shl, ofOption_bind]
  have hbr : InI32 (Int.bmod (8 * n - 1) (2 ^ 32)) := hbits ▸ hw _
  dsimp only
  unfold releaseBound
  dsimp only
  have hb8 : (Int.bmod (8 * n - 1) (2 ^ 32)) % 8 = 7 := by
    rw [← hbits]; unfold wrap32; omega
  have hsmall : n < 4 → Int.bmod (8 * n - 1) (2 ^ 32) = 8 * n - 1 := by
    intro h; rw [← hbits]; unfold wrap32; omega
  generalize Int.bmod (8 * n - 1) (2 ^ 32) = bits at hbr hb8 hsmall
  obtain ⟨k, hk⟩ : ∃ k : Nat, n = (k : Int) + 1 := ⟨(n - 1).toNat, by omega⟩
  have hkn : n.toNat = k + 1 := by omega
  have habs : release.i32 (x.natAbs : Int) = some (x.natAbs : Int) := if_pos (by unfold InI32; omega)
  have hmod : Int.toNat ((x.natAbs : Int) % 2 ^ 32) = x.natAbs := by omega
  rw [habs, ofOption_bind, hmod]
  simp only [fromInt_bytes x.natAbs n.toNat hx31]
  -- the bound in terms of the number of bits `e`
  have main : ∀ (e : Nat), e % 128 = e → ((min bits 31) % 2 ^ 128).toNat % 128 = e → e ≤ 127 → e % 8 = 7 →
      (e ≤ 31 → n < 4 → (e : Int) = 8 * n - 1) →
      ∃ mn mx : Int, wrap32 ((2 ^ e - 1 : Nat) : Int) = mx ∧ release.i32 (-mx) = some mn ∧
        ((x < mn ∨ x > mx) ↔ ¬ (e ≤ 31 ∧ x.natAbs ≤ 2 ^ e - 1)) := by
    intro e _ _ he he8 _
    by_cases h31 : e ≤ 31
    · have hp : (2 : Nat) ^ e ≤ 2 ^ 31 := Nat.pow_le_pow_right (by decide) h31
      have hp0 : 0 < (2 : Nat) ^ e := Nat.two_pow_pos _
      generalize 2 ^ e = m at *
      refine ⟨-((m : Int) - 1), (m : Int) - 1, ?_, ?_, ?_⟩
      · rw [wrap32_small _ (by unfold InI32; omega)]; omega
      · exact if_pos (by unfold InI32; omega)
      · omega
    · refine ⟨1, -1, ?_, rfl, ?_⟩
      · have hd : (2 : Nat) ^ 32 ∣ 2 ^ e := Nat.pow_dvd_pow 2 (by omega)
        obtain ⟨c, hc⟩ := hd
        have hp0 : 0 < (2 : Nat) ^ e := Nat.two_pow_pos _
        generalize 2 ^ e = m at *
        unfold wrap32
        omega
      · constructor
        · intro _ h; exact h31 h.1
        · intro _; omega
  have fin : ∀ (e : Nat), ((min bits 31) % 2 ^ 128).toNat % 128 = e → e ≤ 127 → e % 8 = 7 →
      (e ≤ 31 → n < 4 → (e : Int) = 8 * n - 1) → ∀ (Q : Prop), (Q ↔ (e ≤ 31 ∧ x.natAbs ≤ 2 ^ e - 1)) →
      (∀ b, ((Res.ofOption (release.i32 (-wrap32 ((2 ^ (((min bits 31) % 2 ^ 128).toNat % 128) - 1 : Nat) : Int)))).bind
          fun minNum => if x < minNum ∨ x > wrap32 ((2 ^ (((min bits 31) % 2 ^ 128).toNat % 128) - 1 : Nat) : Int) then
            Res.err (ByteArrayError.fromInteger x n)
          else Res.ok (ByteArray.mk (if x < 0 then (leBytes n.toNat x.natAbs).set ((leBytes n.toNat x.natAbs).length - 1)
            ((leBytes n.toNat x.natAbs).getD ((leBytes n.toNat x.natAbs).length - 1) 0 ||| 0x80)
            else leBytes n.toNat x.natAbs) none .num2bin none)) = .ok b → b.len = n.toNat ∧ scriptNum b.data = x) ∧
      ((∃ b, ((Res.ofOption (release.i32 (-wrap32 ((2 ^ (((min bits 31) % 2 ^ 128).toNat % 128) - 1 : Nat) : Int)))).bind
          fun minNum => if x < minNum ∨ x > wrap32 ((2 ^ (((min bits 31) % 2 ^ 128).toNat % 128) - 1 : Nat) : Int) then
            Res.err (ByteArrayError.fromInteger x n)
          else Res.ok (ByteArray.mk (if x < 0 then (leBytes n.toNat x.natAbs).set ((leBytes n.toNat x.natAbs).length - 1)
            ((leBytes n.toNat x.natAbs).getD ((leBytes n.toNat x.natAbs).length - 1) 0 ||| 0x80)
            else leBytes n.toNat x.natAbs) none .num2bin none)) = .ok b) ↔ Q) ∧
      ((∃ b, ((Res.ofOption (release.i32 (-wrap32 ((2 ^ (((min bits 31) % 2 ^ 128).toNat % 128) - 1 : Nat) : Int)))).bind
          fun minNum => if x < minNum ∨ x > wrap32 ((2 ^ (((min bits 31) % 2 ^ 128).toNat % 128) - 1 : Nat) : Int) then
            Res.err (ByteArrayError.fromInteger x n)
          else Res.ok (ByteArray.mk (if x < 0 then (leBytes n.toNat x.natAbs).set ((leBytes n.toNat x.natAbs).length - 1)
            ((leBytes n.toNat x.natAbs).getD ((leBytes n.toNat x.natAbs).length - 1) 0 ||| 0x80)
            else leBytes n.toNat x.natAbs) none .num2bin none)) = .ok b) ∨
        ((Res.ofOption (release.i32 (-wrap32 ((2 ^ (((min bits 31) % 2 ^ 128).toNat % 128) - 1 : Nat) : Int)))).bind
          fun minNum => if x < minNum ∨ x > wrap32 ((2 ^ (((min bits 31) % 2 ^ 128).toNat % 128) - 1 : Nat) : Int) then
            Res.err (ByteArrayError.fromInteger x n)
          else Res.ok (ByteArray.mk (if x < 0 then (leBytes n.toNat x.natAbs).set ((leBytes n.toNat x.natAbs).length - 1)
            ((leBytes n.toNat x.natAbs).getD ((leBytes n.toNat x.natAbs).length - 1) 0 ||| 0x80)
            else leBytes n.toNat x.natAbs) none .num2bin none)) = .err (.fromInteger x n)) := by
    intro e he1 he2 he3 he4 Q hQ
    obtain ⟨mn, mx, m1, m2, m3⟩ := main e (by omega) he1 he2 he3 he4
    rw [he1, m1, m2]
    simp only [ofOption_bind]
    by_cases hc : e ≤ 31 ∧ x.natAbs ≤ 2 ^ e - 1
    · rw [if_neg (fun h => m3.mp h hc)]
      refine ⟨?_, ⟨fun _ => hQ.mpr hc, fun _ => ⟨_, rfl⟩⟩, .inl ⟨_, rfl⟩⟩
      intro b hb
      simp only [Res.ok.injEq] at hb
      subst hb
      constructor
      · simp only [ByteArray.len, ByteArray.data_mk]; split <;> simp
      · simp only [ByteArray.data_mk]
        rw [hkn]
        apply scriptNum_fixed k x
        by_cases h4 : n < 4
        · have : e = 8 * (k + 1) - 1 := by have := he4 hc.1 h4; omega
          rw [← this]
          have := Nat.two_pow_pos e
          omega
        · exact Nat.lt_of_lt_of_le hx31 (Nat.pow_le_pow_right (by decide) (by omega))
    · rw [if_pos (m3.mpr hc)]
      exact ⟨by simp, ⟨by simp, fun h => absurd (hQ.mp h) hc⟩, .inr rfl⟩
  unfold InI32 at hbr
  by_cases h0 : 0 ≤ bits
  · refine fin (min bits 31).toNat (by omega) (by omega) (by omega) (fun h h4 => by have := hsmall h4; omega) _ ?_
    rw [if_pos h0]
    constructor
    · rintro ⟨m, hm, h⟩; cases hm; exact ⟨by omega, h⟩
    · rintro ⟨_, h⟩; exact ⟨_, rfl, h⟩
  · refine fin (bits % 128).toNat (by omega) (by omega) (by omega) (fun h h4 => by have := hsmall h4; omega) _ ?_
    rw [if_neg h0]
    by_cases h1 : bits % 128 ≤ 31
    · rw [if_pos h1]
      constructor
      · rintro ⟨m, hm, h⟩; cases hm; exact ⟨by omega, h⟩
      · rintro ⟨_, h⟩; exact ⟨_, rfl, h⟩
    · rw [if_neg h1]
      constructor
      · rintro ⟨m, hm, h⟩; cases hm
      · rintro ⟨h, _⟩; omega

example : releaseBound (2 ^ 28 + 1) = some 127 ∧ releaseBound (2 ^ 28 + 5) = none ∧ releaseBound 3 = some (2 ^ 23 - 1) ∧
    releaseBound (2 ^ 29 - 1) = none := by decide

end BCash
