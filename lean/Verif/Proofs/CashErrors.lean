import Verif.Spec.CashAddr
import Verif.Proofs.CashErrorsTab

/-! # The checksum code has distance six

Any five columns of the parity check matrix are linearly independent, for words of up to 56 values. The
columns are eliminated one by one; the last two are compared after scaling. -/

namespace BCash.CashErr
open BCash.Spec

/-! ## Arithmetic in GF(32), all laws by enumeration -/

theorem gm_eq_all : ∀ a b : Fin 32, gfMul a.val b.val = gm a.val b.val := by decide +kernel
theorem gm_lt_all : ∀ a b : Fin 32, gm a.val b.val < 32 := by decide +kernel
theorem gd_lt_all : ∀ a b : Fin 32, gd a.val b.val < 32 := by decide +kernel
theorem gm_assoc_all : ∀ a b c : Fin 32, gm a.val (gm b.val c.val) = gm (gm a.val b.val) c.val := by
  decide +kernel
theorem gm_comm_all : ∀ a b : Fin 32, gm a.val b.val = gm b.val a.val := by decide +kernel
theorem gm_add_all : ∀ a b c : Fin 32, gm a.val (b.val ^^^ c.val) = gm a.val b.val ^^^ gm a.val c.val := by
  decide +kernel
theorem gm_zero_all : ∀ a b : Fin 32, gm a.val b.val = 0 → a.val = 0 ∨ b.val = 0 := by decide +kernel
theorem gd_gm_all : ∀ a b : Fin 32, b.val ≠ 0 → gm (gd a.val b.val) b.val = a.val := by decide +kernel
theorem gd_scale_all : ∀ s a b : Fin 32, gd (gm s.val a.val) b.val = gm s.val (gd a.val b.val) := by
  decide +kernel
theorem gd_add_all : ∀ a b c : Fin 32, gd (a.val ^^^ b.val) c.val = gd a.val c.val ^^^ gd b.val c.val := by
  decide +kernel
theorem gd_cancel_all : ∀ s a b : Fin 32, s.val ≠ 0 → gd (gm s.val a.val) (gm s.val b.val) = gd a.val b.val := by
  decide +kernel

variable {a b c s : Nat}

theorem gm_eq (ha : a < 32) (hb : b < 32) : gfMul a b = gm a b := gm_eq_all ⟨a, ha⟩ ⟨b, hb⟩
theorem gm_lt (ha : a < 32) (hb : b < 32) : gm a b < 32 := gm_lt_all ⟨a, ha⟩ ⟨b, hb⟩
theorem gd_lt (ha : a < 32) (hb : b < 32) : gd a b < 32 := gd_lt_all ⟨a, ha⟩ ⟨b, hb⟩
theorem gm_assoc (ha : a < 32) (hb : b < 32) (hc : c < 32) : gm a (gm b c) = gm (gm a b) c :=
  gm_assoc_all ⟨a, ha⟩ ⟨b, hb⟩ ⟨c, hc⟩
theorem gm_comm (ha : a < 32) (hb : b < 32) : gm a b = gm b a := gm_comm_all ⟨a, ha⟩ ⟨b, hb⟩
theorem gm_add (ha : a < 32) (hb : b < 32) (hc : c < 32) : gm a (b ^^^ c) = gm a b ^^^ gm a c :=
  gm_add_all ⟨a, ha⟩ ⟨b, hb⟩ ⟨c, hc⟩
theorem xor_lt (ha : a < 32) (hb : b < 32) : a ^^^ b < 32 := Nat.xor_lt_two_pow (n := 5) ha hb
theorem gm_add_left (ha : a < 32) (hb : b < 32) (hc : c < 32) : gm (a ^^^ b) c = gm a c ^^^ gm b c := by
  rw [gm_comm (xor_lt ha hb) hc, gm_add hc ha hb, gm_comm hc ha, gm_comm hc hb]
theorem gm_zero (ha : a < 32) (hb : b < 32) (h : gm a b = 0) : a = 0 ∨ b = 0 := gm_zero_all ⟨a, ha⟩ ⟨b, hb⟩ h
theorem gm_zero_right (ha : a < 32) : gm a 0 = 0 := by
  have := gm_add (a := a) (b := 0) (c := 0) ha (by omega) (by omega)
  simpa using this
theorem gd_gm (ha : a < 32) (hb : b < 32) (h : b ≠ 0) : gm (gd a b) b = a := gd_gm_all ⟨a, ha⟩ ⟨b, hb⟩ h
theorem gd_scale (hs : s < 32) (ha : a < 32) (hb : b < 32) : gd (gm s a) b = gm s (gd a b) :=
  gd_scale_all ⟨s, hs⟩ ⟨a, ha⟩ ⟨b, hb⟩
theorem gd_add (ha : a < 32) (hb : b < 32) (hc : c < 32) : gd (a ^^^ b) c = gd a c ^^^ gd b c :=
  gd_add_all ⟨a, ha⟩ ⟨b, hb⟩ ⟨c, hc⟩
theorem gd_cancel (hs : s < 32) (ha : a < 32) (hb : b < 32) (h : s ≠ 0) : gd (gm s a) (gm s b) = gd a b :=
  gd_cancel_all ⟨s, hs⟩ ⟨a, ha⟩ ⟨b, hb⟩ h

theorem beq_ne {x y : Nat} (h : x ≠ y) : Nat.beq x y = false := by
  cases hb : Nat.beq x y with
  | false => rfl
  | true => exact absurd (Nat.eq_of_beq_eq_true hb) h

theorem xor_zero_eq {x y : Nat} (h : x ^^^ y = 0) : x = y := by
  have : x ^^^ (x ^^^ y) = x := by rw [h, Nat.xor_zero]
  rw [← Nat.xor_assoc, Nat.xor_self, Nat.zero_xor] at this
  exact this.symm

/-! ## Vectors -/

def V (n : Nat) (v : List Nat) : Prop := v.length = n ∧ ∀ x ∈ v, x < 32
def Z (v : List Nat) : Prop := ∀ x ∈ v, x = 0
def vadd (u v : List Nat) : List Nat := List.zipWith (· ^^^ ·) u v
def vscale (s : Nat) (v : List Nat) : List Nat := v.map (gm s)

theorem V_nil : V 0 [] := ⟨rfl, by simp⟩
theorem V_cons {n x v} : V (n + 1) (x :: v) ↔ x < 32 ∧ V n v := by
  simp [V, and_left_comm]
theorem Z_cons {x v} : Z (x :: v) ↔ x = 0 ∧ Z v := by simp [Z]
theorem Z_nil : Z [] := by simp [Z]

theorem vecInd {P : Nat → List Nat → Prop} (h0 : P 0 [])
    (h1 : ∀ n x v, x < 32 → V n v → P n v → P (n + 1) (x :: v)) : ∀ {n v}, V n v → P n v := by
  intro n v
  induction v generalizing n with
  | nil => intro h; obtain ⟨h, _⟩ := h; simp at h; subst h; exact h0
  | cons x v ih =>
    intro h
    cases n with
    | zero => simp [V] at h
    | succ n => rw [V_cons] at h; exact h1 n x v h.1 h.2 (ih h.2)

theorem V_zero {v} (h : V 0 v) : v = [] := List.length_eq_zero_iff.mp h.1
theorem V_succ {n v} (h : V (n + 1) v) : ∃ x v', v = x :: v' ∧ x < 32 ∧ V n v' := by
  cases v with
  | nil => simp [V] at h
  | cons x v => rw [V_cons] at h; exact ⟨x, v, rfl, h.1, h.2⟩

theorem V_vadd {n u v} (hu : V n u) (hv : V n v) : V n (vadd u v) := by
  induction n generalizing u v with
  | zero => rw [V_zero hu, V_zero hv]; exact V_nil
  | succ n ih =>
    replace hu := V_succ hu
    obtain ⟨x, u, rfl, hx, hu⟩ := hu
    replace hv := V_succ hv
    obtain ⟨y, v, rfl, hy, hv⟩ := hv
    exact V_cons.mpr ⟨xor_lt hx hy, ih hu hv⟩

theorem V_vscale {n s v} (hs : s < 32) (hv : V n v) : V n (vscale s v) := by
  refine ⟨by simp [vscale, hv.1], ?_⟩
  intro x hx
  simp only [vscale, List.mem_map] at hx
  obtain ⟨y, hy, rfl⟩ := hx
  exact gm_lt hs (hv.2 y hy)

theorem axpy_eq (s : Nat) : ∀ c w, axpy s c w = vadd w (vscale s c)
  | [], w => by cases w <;> rfl
  | c :: cs, [] => rfl
  | c :: cs, w :: ws => by
    simp only [axpy, vadd, vscale, List.map_cons, List.zipWith_cons_cons]
    rw [axpy_eq s cs ws]; rfl

theorem vscale_vadd {n s u v} (hs : s < 32) (hu : V n u) (hv : V n v) :
    vscale s (vadd u v) = vadd (vscale s u) (vscale s v) := by
  induction n generalizing u v with
  | zero => rw [V_zero hu, V_zero hv]; rfl
  | succ n ih =>
    replace hu := V_succ hu
    obtain ⟨x, u, rfl, hx, hu⟩ := hu
    replace hv := V_succ hv
    obtain ⟨y, v, rfl, hy, hv⟩ := hv
    have := ih hu hv
    simp only [vscale, vadd, List.map_cons, List.zipWith_cons_cons] at this ⊢
    rw [gm_add hs hx hy, this]

theorem vscale_vscale {n s t v} (hs : s < 32) (ht : t < 32) (hv : V n v) :
    vscale s (vscale t v) = vscale (gm s t) v := by
  simp only [vscale, List.map_map]
  apply List.map_congr_left
  intro x hx
  exact gm_assoc hs ht (hv.2 x hx)

theorem vscale_add_left {n s t v} (hs : s < 32) (ht : t < 32) (hv : V n v) :
    vscale (s ^^^ t) v = vadd (vscale s v) (vscale t v) := by
  induction n generalizing v with
  | zero => rw [V_zero hv]; rfl
  | succ n ih =>
    replace hv := V_succ hv
    obtain ⟨x, v, rfl, hx, hv⟩ := hv
    have := ih hv
    simp only [vscale, vadd, List.map_cons, List.zipWith_cons_cons] at this ⊢
    rw [gm_add_left hs ht hx, this]

theorem vadd_comm (u v : List Nat) : vadd u v = vadd v u := by
  unfold vadd
  rw [List.zipWith_comm]
  simp only [Nat.xor_comm]

theorem vadd_assoc : ∀ u v w : List Nat, vadd (vadd u v) w = vadd u (vadd v w)
  | [], _, _ => by simp [vadd]
  | _ :: _, [], _ => by simp [vadd]
  | _ :: _, _ :: _, [] => by simp [vadd]
  | x :: u, y :: v, z :: w => by
    have := vadd_assoc u v w
    simp only [vadd, List.zipWith_cons_cons] at this ⊢
    rw [this, Nat.xor_assoc]

theorem vadd_swap (p q r t : List Nat) : vadd (vadd p q) (vadd r t) = vadd (vadd p r) (vadd q t) := by
  rw [vadd_assoc, vadd_assoc, ← vadd_assoc q, vadd_comm q r, vadd_assoc r]

/-- Cancelling: a zero sum means equal. -/
theorem eq_of_Z_vadd {n u v} (hu : V n u) (hv : V n v) (h : Z (vadd u v)) : u = v := by
  induction n generalizing u v with
  | zero => rw [V_zero hu, V_zero hv]
  | succ n ih =>
    replace hu := V_succ hu
    obtain ⟨x, u, rfl, hx, hu⟩ := hu
    replace hv := V_succ hv
    obtain ⟨y, v, rfl, hy, hv⟩ := hv
    simp only [vadd, List.zipWith_cons_cons, Z_cons] at h
    rw [ih hu hv h.2, xor_zero_eq h.1]

theorem Z_vadd_self (u : List Nat) : Z (vadd u u) := by
  induction u with
  | nil => exact Z_nil
  | cons x u ih =>
    simp only [vadd, List.zipWith_cons_cons, Z_cons]
    exact ⟨Nat.xor_self x, ih⟩

theorem vadd_Z {n u v} (hu : V n u) (hv : V n v) (h : Z v) : vadd u v = u := by
  induction n generalizing u v with
  | zero => rw [V_zero hu, V_zero hv]; rfl
  | succ n ih =>
    replace hu := V_succ hu
    obtain ⟨x, u, rfl, hx, hu⟩ := hu
    replace hv := V_succ hv
    obtain ⟨y, v, rfl, hy, hv⟩ := hv
    rw [Z_cons] at h
    have := ih hu hv h.2
    simp only [vadd, List.zipWith_cons_cons] at this ⊢
    rw [this, h.1, Nat.xor_zero]

theorem Z_vscale {n s v} (hs : s < 32) (hv : V n v) (h0 : s ≠ 0) (h : Z (vscale s v)) : Z v := by
  intro x hx
  have := h (gm s x) (by simp only [vscale, List.mem_map]; exact ⟨x, hx, rfl⟩)
  rcases gm_zero hs (hv.2 x hx) this with h | h
  · exact absurd h h0
  · exact h

theorem Z_vscale_of_Z {s v} (hs : s < 32) (h : Z v) : Z (vscale s v) := by
  intro x hx
  simp only [vscale, List.mem_map] at hx
  obtain ⟨y, hy, rfl⟩ := hx
  rw [h y hy, gm_zero_right hs]

theorem gm_zero_left (ha : a < 32) : gm 0 a = 0 := by
  rw [gm_comm (by omega) ha, gm_zero_right ha]

theorem Z_vscale_zero {n v} (hv : V n v) : Z (vscale 0 v) := by
  intro x hx
  simp only [vscale, List.mem_map] at hx
  obtain ⟨y, hy, rfl⟩ := hx
  exact gm_zero_left (hv.2 y hy)

/-! ## Elimination -/

theorem V_elim {n c} (hc : V n c) : ∃ m, ∀ w, V n w → V m (elim c w) := by
  induction n generalizing c with
  | zero => refine ⟨0, fun w hw => ?_⟩; rw [V_zero hc, V_zero hw]; exact V_nil
  | succ n ih =>
    replace hc := V_succ hc
    obtain ⟨c0, c, rfl, hc0, hc⟩ := hc
    by_cases h0 : c0 = 0
    · obtain ⟨m, hm⟩ := ih hc
      refine ⟨m + 1, fun w hw => ?_⟩
      replace hw := V_succ hw
      obtain ⟨w0, w, rfl, hw0, hw⟩ := hw
      subst h0
      exact V_cons.mpr ⟨hw0, hm w hw⟩
    · refine ⟨n, fun w hw => ?_⟩
      replace hw := V_succ hw
      obtain ⟨w0, w, rfl, hw0, hw⟩ := hw
      have hb : Nat.beq c0 0 = false := beq_ne h0
      simp only [elim, hb, cond_false, axpy_eq]
      exact V_vadd hw (V_vscale (gd_lt hw0 hc0) hc)

theorem elim_add {n c u v} (hc : V n c) (hu : V n u) (hv : V n v) :
    elim c (vadd u v) = vadd (elim c u) (elim c v) := by
  induction n generalizing c u v with
  | zero => rw [V_zero hc, V_zero hu, V_zero hv]; rfl
  | succ n ih =>
    replace hc := V_succ hc
    obtain ⟨c0, c, rfl, hc0, hc⟩ := hc
    replace hu := V_succ hu
    obtain ⟨x, u, rfl, hx, hu⟩ := hu
    replace hv := V_succ hv
    obtain ⟨y, v, rfl, hy, hv⟩ := hv
    have e : vadd (x :: u) (y :: v) = (x ^^^ y) :: vadd u v := rfl
    rw [e]
    by_cases h0 : c0 = 0
    · subst h0
      show (x ^^^ y) :: elim c (vadd u v) = vadd (x :: elim c u) (y :: elim c v)
      rw [ih hc hu hv]; rfl
    · have hb : Nat.beq c0 0 = false := beq_ne h0
      simp only [elim, hb, cond_false, axpy_eq]
      rw [gd_add hx hy hc0, vscale_add_left (gd_lt hx hc0) (gd_lt hy hc0) hc, vadd_swap]

theorem elim_scale {n s c v} (hs : s < 32) (hc : V n c) (hv : V n v) :
    elim c (vscale s v) = vscale s (elim c v) := by
  induction n generalizing c v with
  | zero => rw [V_zero hc, V_zero hv]; rfl
  | succ n ih =>
    replace hc := V_succ hc
    obtain ⟨c0, c, rfl, hc0, hc⟩ := hc
    replace hv := V_succ hv
    obtain ⟨y, v, rfl, hy, hv⟩ := hv
    have e : vscale s (y :: v) = gm s y :: vscale s v := rfl
    rw [e]
    by_cases h0 : c0 = 0
    · subst h0
      show gm s y :: elim c (vscale s v) = vscale s (y :: elim c v)
      rw [ih hc hv]; rfl
    · have hb : Nat.beq c0 0 = false := beq_ne h0
      simp only [elim, hb, cond_false, axpy_eq]
      rw [gd_scale hs hy hc0, vscale_vadd hs hv (V_vscale (gd_lt hy hc0) hc),
        vscale_vscale hs (gd_lt hy hc0) hc]

theorem elim_self {n c} (hc : V n c) : Z (elim c c) := by
  induction n generalizing c with
  | zero => rw [V_zero hc]; exact Z_nil
  | succ n ih =>
    replace hc := V_succ hc
    obtain ⟨c0, c, rfl, hc0, hc⟩ := hc
    by_cases h0 : c0 = 0
    · subst h0
      show Z (0 :: elim c c)
      exact Z_cons.mpr ⟨rfl, ih hc⟩
    · have hb : Nat.beq c0 0 = false := beq_ne h0
      simp only [elim, hb, cond_false, axpy_eq]
      have h1 : gd c0 c0 = 1 := by
        have : ∀ a : Fin 32, a.val ≠ 0 → gd a.val a.val = 1 := by decide +kernel
        exact this ⟨c0, hc0⟩ h0
      have h2 : vscale 1 c = c := by
        have : ∀ a : Fin 32, gm 1 a.val = a.val := by decide +kernel
        unfold vscale
        conv => rhs; rw [← List.map_id c]
        apply List.map_congr_left
        intro x hx
        exact this ⟨x, hc.2 x hx⟩
      rw [h1, h2]
      exact Z_vadd_self c

/-! ## Normal forms -/

theorem norm_of_Z : ∀ {c : List Nat}, Z c → norm c = 0
  | [], _ => rfl
  | x :: c, h => by
    obtain ⟨hx, hc⟩ := Z_cons.mp h
    clear h
    subst hx
    exact (show norm c = 0 from norm_of_Z hc)

theorem packDiv_scale {n t c0 cs} (ht : t < 32) (h0 : t ≠ 0) (hc0 : c0 < 32) (hcs : V n cs) :
    ∀ acc, packDiv (gm t c0) acc (vscale t cs) = packDiv c0 acc cs := by
  induction n generalizing cs with
  | zero => intro acc; rw [V_zero hcs]; rfl
  | succ n ih =>
    intro acc
    replace hcs := V_succ hcs
    obtain ⟨x, cs, rfl, hx, hcs⟩ := hcs
    have e : vscale t (x :: cs) = gm t x :: vscale t cs := rfl
    rw [e]
    simp only [packDiv]
    rw [gd_cancel ht hx hc0 h0, ih hcs]

theorem norm_of_elim {n c w} (hc : V n c) (hw : V n w) (hcz : ¬ Z c) (hwz : ¬ Z w) (h : Z (elim c w)) :
    norm c = norm w := by
  induction n generalizing c w with
  | zero => rw [V_zero hc, V_zero hw]
  | succ n ih =>
    replace hc := V_succ hc
    obtain ⟨c0, c, rfl, hc0, hc⟩ := hc
    replace hw := V_succ hw
    obtain ⟨w0, w, rfl, hw0, hw⟩ := hw
    by_cases h0 : c0 = 0
    · subst h0
      replace h : Z (w0 :: elim c w) := h
      rw [Z_cons] at h
      obtain ⟨rfl, h⟩ := h
      show norm c = norm w
      refine ih hc hw (fun hz => hcz (Z_cons.mpr ⟨rfl, hz⟩)) (fun hz => hwz (Z_cons.mpr ⟨rfl, hz⟩)) h
    · have hb : Nat.beq c0 0 = false := beq_ne h0
      simp only [elim, hb, cond_false, axpy_eq] at h
      have ht := gd_lt hw0 hc0
      have he := eq_of_Z_vadd hw (V_vscale ht hc) h
      have hw0e := gd_gm hw0 hc0 h0
      by_cases hwz0 : w0 = 0
      · exfalso
        apply hwz
        have hd0 : gd w0 c0 = 0 := by
          rcases gm_zero ht hc0 (hw0e.trans hwz0) with h | h
          · exact h
          · exact absurd h h0
        rw [Z_cons]
        refine ⟨hwz0, ?_⟩
        rw [he, hd0]
        exact Z_vscale_zero hc
      · have hd0 : gd w0 c0 ≠ 0 := by
          intro h
          rw [h, gm_zero_left hc0] at hw0e
          exact hwz0 hw0e.symm
        have hb' : Nat.beq w0 0 = false := beq_ne hwz0
        simp only [norm, hb, hb', cond_false]
        have := packDiv_scale ht hd0 hc0 hc 1
        rw [hw0e, ← he] at this
        exact this.symm

/-! ## Independence -/

/-- Any `d` of these columns are independent: what elimination shows. -/
def IndAll (f : List (List Nat) → Prop) : List (List Nat) → Prop
  | [] => True
  | c :: cs => ¬ Z c ∧ f (cs.map (elim c)) ∧ IndAll f cs
def Ind : Nat → List (List Nat) → Prop
  | 0 => fun _ => True
  | d + 1 => IndAll (Ind d)

def comb (z : List Nat) : List Nat → List (List Nat) → List Nat
  | a :: as, c :: cs => vadd (vscale a c) (comb z as cs)
  | _, _ => z

theorem V_comb {n z} (hz : V n z) : ∀ {as cs}, (∀ a ∈ as, a < 32) → (∀ c ∈ cs, V n c) → V n (comb z as cs)
  | [], cs, _, _ => by cases cs <;> exact hz
  | a :: as, [], _, _ => hz
  | a :: as, c :: cs, ha, hc => by
    simp only [List.mem_cons, forall_eq_or_imp] at ha hc
    exact V_vadd (V_vscale ha.1 hc.1) (V_comb hz ha.2 hc.2)

theorem elim_comb {n z c} (hz : V n z) (hc : V n c) : ∀ {as cs}, (∀ a ∈ as, a < 32) →
    (∀ c ∈ cs, V n c) → elim c (comb z as cs) = comb (elim c z) as (cs.map (elim c))
  | [], cs, _, _ => by cases cs <;> rfl
  | a :: as, [], _, _ => rfl
  | a :: as, d :: cs, ha, hd => by
    simp only [List.mem_cons, forall_eq_or_imp] at ha hd
    simp only [comb, List.map_cons]
    rw [elim_add hc (V_vscale ha.1 hd.1) (V_comb hz ha.2 hd.2), elim_scale ha.1 hc hd.1,
      elim_comb hz hc ha.2 hd.2]

/-- What soundness of the elimination means. -/
def Sound (d : Nat) : Prop := ∀ (cs : List (List Nat)) (n : Nat) (z : List Nat) (as : List Nat), V n z → Z z →
    (∀ c ∈ cs, V n c) → as.length = cs.length → (∀ a ∈ as, a < 32) →
    as.countP (fun a => a != 0) ≤ d → Ind d cs → Z (comb z as cs) → Z as

theorem Z_comb {n z} (hz : V n z) (hZ : Z z) : ∀ {as cs}, Z as → (∀ c ∈ cs, V n c) → Z (comb z as cs) := by
  intro as
  induction as with
  | nil => intro cs _ _; cases cs <;> exact hZ
  | cons a as ih =>
    intro cs ha hc
    cases cs with
    | nil => exact hZ
    | cons c cs =>
      rw [Z_cons] at ha
      simp only [List.mem_cons, forall_eq_or_imp] at hc
      obtain ⟨rfl, ha⟩ := ha
      have h6 := ih ha hc.2
      have h7 : V n (comb z as cs) := V_comb hz (fun a h => by rw [ha a h]; omega) hc.2
      show Z (vadd (vscale 0 c) (comb z as cs))
      rw [vadd_Z (V_vscale (by omega) hc.1) h7 h6]
      exact Z_vscale_zero hc.1

theorem ind_step {d n z a as c cs} (ihd : Sound d) (hz : V n z) (hZ : Z z) (hc : V n c) (hcs : ∀ c ∈ cs, V n c)
    (hl : as.length = cs.length) (ha : a < 32) (has : ∀ a ∈ as, a < 32) (ha0 : a ≠ 0)
    (hcount : as.countP (fun a => a != 0) ≤ d) (hcz : ¬ Z c) (hsub : Ind d (cs.map (elim c)))
    (h : Z (vadd (vscale a c) (comb z as cs))) : False := by
  have hV := V_comb hz has hcs
  have he := eq_of_Z_vadd (V_vscale ha hc) hV h
  obtain ⟨m, hm⟩ := V_elim hc
  have h2 : elim c (comb z as cs) = comb (elim c z) as (cs.map (elim c)) := elim_comb hz hc has hcs
  have h3 : Z (comb (elim c z) as (cs.map (elim c))) := by
    rw [← h2, ← he, elim_scale ha hc hc]
    exact Z_vscale_of_Z ha (elim_self hc)
  have hzz : Z (elim c z) := by
    have ez : z = vscale 0 z := by
      have : Z (vadd z (vscale 0 z)) := by
        rw [vadd_Z hz (V_vscale (by omega) hz) (Z_vscale_zero hz)]; exact hZ
      exact eq_of_Z_vadd hz (V_vscale (by omega) hz) this
    rw [ez, elim_scale (by omega) hc hz]
    exact Z_vscale_zero (hm z hz)
  have h4 := ihd (cs.map (elim c)) m (elim c z) as (hm z hz) hzz
    (by intro w hw; rw [List.mem_map] at hw; obtain ⟨v, hv, rfl⟩ := hw; exact hm v (hcs v hv))
    (by simpa using hl) has hcount hsub h3
  have h6 := Z_comb hz hZ h4 hcs
  rw [← he] at h6
  exact hcz (Z_vscale ha hc ha0 h6)

theorem ind_sound (d : Nat) : Sound d := by
  induction d with
  | zero =>
    intro cs n z as hz hZ hcs hl has hcount _ _
    intro x hx
    have := List.countP_eq_zero.mp (Nat.le_zero.mp hcount) x hx
    simpa using this
  | succ d ihd =>
    intro cs
    induction cs with
    | nil =>
      intro n z as hz hZ hcs hl has hcount _ _
      rw [List.length_eq_zero_iff.mp hl]; exact Z_nil
    | cons c cs ihc =>
      intro n z as hz hZ hcs hl has hcount hind hcomb
      cases as with
      | nil => simp at hl
      | cons a as =>
        simp only [List.mem_cons, forall_eq_or_imp] at hcs has
        replace hl : as.length = cs.length := by simpa using hl
        obtain ⟨hcz, hsub, hrest⟩ := hind
        have hV := V_comb hz has.2 hcs.2
        by_cases ha0 : a = 0
        · subst ha0
          rw [Z_cons]
          refine ⟨rfl, ?_⟩
          have hcount' : as.countP (fun a => a != 0) ≤ d + 1 := by
            simpa [List.countP_cons] using hcount
          refine ihc n z as hz hZ hcs.2 hl has.2 hcount' hrest ?_
          have e : vadd (comb z as cs) (vscale 0 c) = comb z as cs :=
            vadd_Z hV (V_vscale (by omega) hcs.1) (Z_vscale_zero hcs.1)
          have h : Z (vadd (vscale 0 c) (comb z as cs)) := hcomb
          rw [vadd_comm, e] at h
          exact h
        · exfalso
          have hcount' : as.countP (fun a => a != 0) ≤ d := by
            rw [List.countP_cons] at hcount
            have : (a != 0) = true := by simpa using ha0
            simp only [this, if_true] at hcount
            omega
          exact ind_step ihd hz hZ hcs.1 hcs.2 hl has.1 has.2 ha0 hcount' hcz hsub hcomb

theorem norms_eq : ∀ cs, norms cs = cs.map norm
  | [] => rfl
  | c :: cs => by
    unfold norms force
    rw [List.map_cons, ← norms_eq cs]
    cases norm c <;> rfl

theorem notIn_iff : ∀ (x : Nat) (l : List Nat), notIn x l = true ↔ x ∉ l
  | x, [] => by simp [notIn]
  | x, y :: ys => by
    have ih := notIn_iff x ys
    by_cases h : x = y
    · subst h; simp [notIn]
    · have hb : Nat.beq x y = false := beq_ne h
      simp only [notIn, hb, cond_false, ih, List.mem_cons, h, false_or]

theorem distinct_iff : ∀ (l : List Nat), distinct l = true ↔ l.Nodup
  | [] => by simp [distinct]
  | x :: xs => by
    simp only [distinct, Bool.and_eq_true, notIn_iff, distinct_iff xs, List.nodup_cons]

theorem check2_ind {n} : ∀ {cs : List (List Nat)}, (∀ c ∈ cs, V n c) → (0 :: cs.map norm).Nodup → Ind 2 cs := by
  intro cs
  induction cs with
  | nil => intro _ _; trivial
  | cons c cs ih =>
    intro hV h
    simp only [List.map_cons, List.nodup_cons, List.mem_cons, not_or] at h
    simp only [List.mem_cons, forall_eq_or_imp] at hV
    obtain ⟨⟨h1, h2⟩, h3, h4⟩ := h
    have hcz : ¬ Z c := fun hz => h1 (norm_of_Z hz).symm
    refine ⟨hcz, ?_, ih hV.2 (by rw [List.nodup_cons]; exact ⟨h2, h4⟩)⟩
    -- every later column stays non-zero
    have : ∀ l : List (List Nat), (∀ w ∈ l, ¬ Z w) → Ind 1 l := by
      intro l
      induction l with
      | nil => intro _; trivial
      | cons w l ih => intro hl; exact ⟨hl w (by simp), trivial, ih (fun v hv => hl v (by simp [hv]))⟩
    apply this
    intro w hw
    rw [List.mem_map] at hw
    obtain ⟨v, hv, rfl⟩ := hw
    intro hz
    have hvz : ¬ Z v := by
      intro hz'
      exact h2 (List.mem_map.mpr ⟨v, hv, norm_of_Z hz'⟩)
    exact h3 (List.mem_map.mpr ⟨v, hv, (norm_of_elim hV.1 (hV.2 v hv) hcz hvz hz).symm⟩)

theorem nz_iff : ∀ c : List Nat, nz c = true → ¬ Z c
  | [], h => by simp [nz] at h
  | x :: c, h => by
    rw [Z_cons]
    by_cases hx : x = 0
    · subst hx
      have h : nz c = true := h
      exact fun hz => nz_iff c h hz.2
    · exact fun hz => hx hz.1

theorem check_ind (d : Nat) : ∀ {n} {cs : List (List Nat)}, (∀ c ∈ cs, V n c) → check d cs = true →
    Ind (d + 2) cs := by
  induction d with
  | zero =>
    intro n cs hV h
    have h : distinct (0 :: norms cs) = true := h
    rw [norms_eq, distinct_iff] at h
    exact check2_ind hV h
  | succ d ihd =>
    intro n cs
    induction cs with
    | nil => intro _ _; trivial
    | cons c cs ih =>
      intro hV h
      simp only [List.mem_cons, forall_eq_or_imp] at hV
      have h : (nz c && (check d (cs.map (elim c)) && check (d + 1) cs)) = true := h
      simp only [Bool.and_eq_true] at h
      obtain ⟨m, hm⟩ := V_elim hV.1
      exact ⟨nz_iff c h.1, ihd (by intro w hw; rw [List.mem_map] at hw; obtain ⟨v, hv, rfl⟩ := hw; exact hm v (hV.2 v hv)) h.2.1,
        ih hV.2 h.2.2⟩

/-! ## The remainder -/

theorem V8 {v} (h : V 8 v) : ∃ a b c d e f g i, v = [a, b, c, d, e, f, g, i] ∧
    a < 32 ∧ b < 32 ∧ c < 32 ∧ d < 32 ∧ e < 32 ∧ f < 32 ∧ g < 32 ∧ i < 32 := by
  replace h := V_succ h
  obtain ⟨a, v, rfl, ha, h⟩ := h
  replace h := V_succ h
  obtain ⟨b, v, rfl, hb, h⟩ := h
  replace h := V_succ h
  obtain ⟨c, v, rfl, hc, h⟩ := h
  replace h := V_succ h
  obtain ⟨d, v, rfl, hd, h⟩ := h
  replace h := V_succ h
  obtain ⟨e, v, rfl, he, h⟩ := h
  replace h := V_succ h
  obtain ⟨f, v, rfl, hf, h⟩ := h
  replace h := V_succ h
  obtain ⟨g, v, rfl, hg, h⟩ := h
  replace h := V_succ h
  obtain ⟨i, v, rfl, hi, h⟩ := h
  rw [V_zero h]
  exact ⟨a, b, c, d, e, f, g, i, rfl, ha, hb, hc, hd, he, hf, hg, hi⟩

/-- The zero remainder. -/
def z8 : List Nat := [0, 0, 0, 0, 0, 0, 0, 0]
theorem V_z8 : V 8 z8 := by simp [V, z8]
theorem Z_z8 : Z z8 := by simp [Z, z8]
theorem V_one : V 8 [0, 0, 0, 0, 0, 0, 0, 1] := by simp [V]

theorem remStep_eq {d rest v} (hd : d < 32) :
    remStep (d :: rest) v = vadd (rest ++ [v]) (vscale d cashGenerator) := by
  unfold remStep vadd vscale
  dsimp only
  congr 1
  apply List.map_congr_left
  intro g hg
  have : g < 32 := by
    have h : ∀ g ∈ cashGenerator, g < 32 := by decide
    exact h g hg
  exact gm_eq hd this

theorem V_gen : V 8 cashGenerator := by constructor <;> decide

theorem V_snoc {n v x} (h : V n v) (hx : x < 32) : V (n + 1) (v ++ [x]) := by
  refine ⟨by simp [h.1], ?_⟩
  intro y hy
  rw [List.mem_append, List.mem_singleton] at hy
  rcases hy with hy | rfl
  · exact h.2 y hy
  · exact hx

theorem V_remStep {r v} (hr : V 8 r) (hv : v < 32) : V 8 (remStep r v) := by
  replace hr := V_succ hr
  obtain ⟨d, rest, rfl, hd, hr⟩ := hr
  rw [remStep_eq hd]
  exact V_vadd (V_snoc hr hv) (V_vscale hd V_gen)

theorem vadd_snoc {n u v x y} (hu : V n u) (hv : V n v) :
    vadd (u ++ [x]) (v ++ [y]) = vadd u v ++ [x ^^^ y] := by
  unfold vadd
  rw [List.zipWith_append (by rw [hu.1, hv.1])]
  rfl

theorem remStep_add {r r' v v'} (hr : V 8 r) (hr' : V 8 r') :
    remStep (vadd r r') (v ^^^ v') = vadd (remStep r v) (remStep r' v') := by
  replace hr := V_succ hr
  obtain ⟨d, rest, rfl, hd, hr⟩ := hr
  obtain ⟨d', rest', rfl, hd', hr'⟩ := V_succ hr'
  have e : vadd (d :: rest) (d' :: rest') = (d ^^^ d') :: vadd rest rest' := rfl
  rw [e, remStep_eq hd, remStep_eq hd', remStep_eq (xor_lt hd hd'), ← vadd_snoc hr hr',
    vscale_add_left hd hd' V_gen, vadd_swap]

theorem remStep_scale {s r v} (hs : s < 32) (hr : V 8 r) (hv : v < 32) :
    remStep (vscale s r) (gm s v) = vscale s (remStep r v) := by
  replace hr := V_succ hr
  obtain ⟨d, rest, rfl, hd, hr⟩ := hr
  have e : vscale s (d :: rest) = gm s d :: vscale s rest := rfl
  rw [e, remStep_eq hd, remStep_eq (gm_lt hs hd), vscale_vadd hs (V_snoc hr hv) (V_vscale hd V_gen),
    vscale_vscale hs hd V_gen]
  unfold vscale
  rw [List.map_append]; rfl

/-- A step is injective. -/
theorem remStep_zero {r} (hr : V 8 r) (h : Z (remStep r 0)) : Z r := by
  obtain ⟨a, b, c, d, e, f, g, i, rfl, ha, hb, hc, hd, he, hf, hg, hi⟩ := V8 hr
  rw [remStep_eq ha] at h
  simp only [vadd, vscale, cashGenerator, List.map_cons, List.map_nil, List.cons_append, List.nil_append,
    List.zipWith_cons_cons, List.zipWith_nil_left, Z_cons, Nat.zero_xor] at h
  obtain ⟨h1, h2, h3, h4, h5, h6, h7, h8, _⟩ := h
  have : a = 0 := by
    rcases gm_zero ha (by omega) h8 with h | h
    · exact h
    · omega
  subst this
  have z : ∀ x, x < 32 → gm 0 x = 0 := fun x hx => gm_zero_left hx
  rw [z _ (by omega), Nat.xor_zero] at h1 h2 h3 h4 h5 h6 h7
  simp only [Z_cons]
  exact ⟨trivial, h1, h2, h3, h4, h5, h6, h7, Z_nil⟩

/-- Remainder of the polynomial with these coefficients, from the lowest. -/
def rem : List Nat → List Nat
  | [] => z8
  | v :: a => remStep (rem a) v

theorem V_rem : ∀ {a}, (∀ x ∈ a, x < 32) → V 8 (rem a)
  | [], _ => V_z8
  | v :: a, h => by
    simp only [List.mem_cons, forall_eq_or_imp] at h
    exact V_remStep (V_rem h.2) h.1

theorem V_cols : ∀ (n : Nat) {c}, V 8 c → ∀ d ∈ cols n c, V 8 d
  | 0, c, _, d, h => by simp [cols] at h
  | n + 1, c, hc, d, h => by
    simp only [cols, List.mem_cons] at h
    rcases h with rfl | h
    · exact hc
    · exact V_cols n (V_remStep hc (by omega)) d h

theorem length_cols : ∀ (n : Nat) c, (cols n c).length = n
  | 0, _ => rfl
  | n + 1, c => by simp [cols, length_cols n]

theorem remStep_comb : ∀ (n : Nat) {c as}, V 8 c → as.length = n → (∀ a ∈ as, a < 32) →
    remStep (comb z8 as (cols n c)) 0 = comb z8 as (cols n (remStep c 0))
  | 0, c, as, hc, hl, ha => by
    rw [List.length_eq_zero_iff.mp hl]
    show remStep z8 0 = z8
    decide
  | n + 1, c, [], hc, hl, ha => by simp at hl
  | n + 1, c, a :: as, hc, hl, ha => by
    simp only [List.mem_cons, forall_eq_or_imp] at ha
    have hl : as.length = n := by simpa using hl
    simp only [cols, comb]
    rw [← remStep_comb n (V_remStep hc (by omega)) hl ha.2]
    have e := remStep_add (r := vscale a c) (r' := comb z8 as (cols n (remStep c 0))) (v := 0) (v' := 0)
      (V_vscale ha.1 hc) (V_comb V_z8 ha.2 (V_cols n (V_remStep hc (by omega))))
    rw [Nat.xor_zero] at e
    rw [e]
    have e2 := remStep_scale (v := 0) ha.1 hc (by omega)
    rw [gm_zero_right ha.1] at e2
    rw [e2]

theorem rem_comb : ∀ (as : List Nat), (∀ a ∈ as, a < 32) →
    rem as = comb z8 as (cols as.length [0, 0, 0, 0, 0, 0, 0, 1])
  | [], _ => rfl
  | v :: as, h => by
    simp only [List.mem_cons, forall_eq_or_imp] at h
    simp only [rem, List.length_cons, cols, comb]
    rw [← remStep_comb as.length V_one rfl h.2, ← rem_comb as h.2]
    have e := remStep_add (r := z8) (r' := rem as) (v := v) (v' := 0) V_z8 (V_rem h.2)
    rw [Nat.xor_zero] at e
    have e1 : vadd z8 (rem as) = rem as := by rw [vadd_comm]; exact vadd_Z (V_rem h.2) V_z8 Z_z8
    rw [e1] at e
    rw [e]
    congr 1
    have : ∀ v : Fin 32, remStep z8 v.val = vscale v.val [0, 0, 0, 0, 0, 0, 0, 1] := by decide +kernel
    exact this ⟨v, h.1⟩

theorem rem_pad (as : List Nat) (k : Nat) : rem (as ++ List.replicate k 0) = rem as := by
  have h0 : ∀ k, rem (List.replicate k 0) = z8 := by
    intro k
    induction k with
    | zero => rfl
    | succ k ih => rw [List.replicate_succ]; show remStep (rem _) 0 = z8; rw [ih]; decide
  induction as with
  | nil => exact h0 k
  | cons a as ih => rw [List.cons_append]; show remStep (rem _) a = remStep (rem _) a; rw [ih]

theorem Z_replicate (k : Nat) : Z (List.replicate k 0) := fun _ hx => List.eq_of_mem_replicate hx

/-- **Distance six**: no non-zero word of at most 56 values with at most five non-zero ones has remainder
zero. -/
theorem distance : ∀ (as : List Nat), as.length ≤ 56 → (∀ a ∈ as, a < 32) →
    as.countP (fun a => a != 0) ≤ 5 → Z (rem as) → Z as
  | [], _, _, _, _ => Z_nil
  | v :: as, hl, ha, hcount, h => by
    simp only [List.mem_cons, forall_eq_or_imp] at ha
    simp only [List.length_cons] at hl
    by_cases hv : v = 0
    · subst hv
      rw [Z_cons]
      refine ⟨rfl, distance as (by omega) ha.2 (by simpa [List.countP_cons] using hcount) ?_⟩
      exact remStep_zero (V_rem ha.2) h
    · exfalso
      obtain ⟨k, hk⟩ : ∃ k, as.length + k = 55 := ⟨55 - as.length, by omega⟩
      have hb : ∀ a ∈ (v :: as) ++ List.replicate k 0, a < 32 := by
        intro a h
        rw [List.mem_append] at h
        rcases h with h | h
        · rw [List.mem_cons] at h
          rcases h with rfl | h
          · exact ha.1
          · exact ha.2 a h
        · rw [List.eq_of_mem_replicate h]; omega
      have hlen : ((v :: as) ++ List.replicate k 0).length = 56 := by simp; omega
      rw [← rem_pad _ k, rem_comb _ hb, hlen] at h
      have hc : (as ++ List.replicate k 0).countP (fun a => a != 0) ≤ 4 := by
        rw [List.countP_append, List.countP_replicate]
        rw [List.countP_cons] at hcount
        have : (v != 0) = true := by simpa using hv
        simp only [this, if_true] at hcount
        simpa using hcount
      have hV := V_cols 56 V_one
      have hind := check_ind 2 (n := 7) (by
        obtain ⟨m, hm⟩ := V_elim V_one
        have : m = 7 := by
          have h := (hm z8 V_z8).1
          exact h.symm
        subst this
        intro w hw
        rw [List.mem_map] at hw
        obtain ⟨u, hu, rfl⟩ := hw
        exact hm u (V_cols 55 (V_remStep V_one (by omega)) u hu)) columns_checked
      have hV' := V_cols 55 (V_remStep V_one (v := 0) (by omega))
      refine ind_step (ind_sound 4) V_z8 Z_z8 V_one hV' (by rw [length_cols]; simp; omega) ha.1
        (fun a h => hb a (by rw [List.cons_append]; exact List.mem_cons_of_mem _ h)) hv hc (by simp [Z]) hind h

end BCash.CashErr
