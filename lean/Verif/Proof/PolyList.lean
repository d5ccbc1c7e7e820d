import Mathlib.Data.Real.Basic
import Mathlib.Analysis.Calculus.Deriv.Mul
import Mathlib.Analysis.Calculus.Deriv.Add
import Mathlib.Tactic.Ring
import Mathlib.Tactic.FieldSimp
import Mathlib.Tactic.Positivity
import Mathlib.Tactic.Linarith

/-!
# Polynomials as lists of integers

To decide the sign of a polynomial on an interval by arithmetic that the kernel carries out.
-/

namespace Fz.Pol

/-- the polynomial with these coefficients, the constant one first -/
noncomputable def ev : List ℤ → ℝ → ℝ
  | [], _ => 0
  | a :: l, x => a + x * ev l x

def add : List ℤ → List ℤ → List ℤ
  | [], m => m
  | l, [] => l
  | a :: l, b :: m => (a + b) :: add l m

def scale (c : ℤ) : List ℤ → List ℤ
  | [] => []
  | a :: l => (c * a) :: scale c l

def mul : List ℤ → List ℤ → List ℤ
  | [], _ => []
  | a :: l, m => add (scale a m) (0 :: mul l m)

def neg (l : List ℤ) : List ℤ := scale (-1) l

def sub (l m : List ℤ) : List ℤ := add l (neg m)

/-- in `x + c` -/
def shift (c : ℤ) : List ℤ → List ℤ
  | [] => []
  | a :: l => add [a] (mul [c, 1] (shift c l))

/-- in `c x` -/
def stretch (c : ℤ) : List ℤ → List ℤ
  | [] => []
  | a :: l => a :: scale c (stretch c l)

/-- in `x²` -/
def even : List ℤ → List ℤ
  | [] => []
  | a :: l => a :: 0 :: even l

/-- derivative -/
def der : List ℤ → List ℤ
  | [] => []
  | _ :: l => add l (0 :: der l)

def nonneg : List ℤ → Bool
  | [] => true
  | a :: l => decide (0 ≤ a) && nonneg l

theorem ev_add (x : ℝ) : ∀ l m, ev (add l m) x = ev l x + ev m x
  | [], m => by simp [add, ev]
  | a :: l, [] => by simp [add, ev]
  | a :: l, b :: m => by
    simp only [add, ev, ev_add x l m]
    push_cast
    ring

theorem ev_scale (c : ℤ) (x : ℝ) : ∀ l, ev (scale c l) x = c * ev l x
  | [] => by simp [scale, ev]
  | a :: l => by
    simp only [scale, ev, ev_scale c x l]
    push_cast
    ring

theorem ev_mul (x : ℝ) : ∀ l m, ev (mul l m) x = ev l x * ev m x
  | [], m => by simp [mul, ev]
  | a :: l, m => by
    simp only [mul, ev_add, ev_scale, ev, ev_mul x l m]
    push_cast
    ring

theorem ev_neg (x : ℝ) (l : List ℤ) : ev (neg l) x = -ev l x := by
  simp [neg, ev_scale]

theorem ev_sub (x : ℝ) (l m : List ℤ) : ev (sub l m) x = ev l x - ev m x := by
  rw [sub, ev_add, ev_neg]
  ring

theorem ev_shift (c : ℤ) (x : ℝ) : ∀ l, ev (shift c l) x = ev l (x + c)
  | [] => rfl
  | a :: l => by
    simp only [shift, ev_add, ev_mul, ev, ev_shift c x l]
    push_cast
    ring

theorem ev_stretch (c : ℤ) (x : ℝ) : ∀ l, ev (stretch c l) x = ev l (c * x)
  | [] => rfl
  | a :: l => by
    simp only [stretch, ev, ev_scale, ev_stretch c x l]
    ring

theorem ev_even (x : ℝ) : ∀ l, ev (even l) x = ev l (x ^ 2)
  | [] => rfl
  | a :: l => by
    simp only [even, ev, ev_even x l]
    push_cast
    ring

theorem hasDerivAt_ev (x : ℝ) : ∀ l, HasDerivAt (ev l) (ev (der l) x) x
  | [] => hasDerivAt_const x (0 : ℝ)
  | a :: l => by
    have h := ((hasDerivAt_id x).mul (hasDerivAt_ev x l)).const_add (a : ℝ)
    have e : ev (der (a :: l)) x = 1 * ev l x + id x * ev (der l) x := by
      simp [der, ev_add, ev]
    rw [e]
    exact h

theorem ev_append (x : ℝ) (m : List ℤ) : ∀ l, ev (l ++ m) x = ev l x + x ^ l.length * ev m x
  | [] => by simp [ev]
  | a :: l => by
    simp only [List.cons_append, ev, ev_append x m l, List.length_cons, pow_succ]
    ring

/-- `x^n p(1/x)` has the coefficients in the other order -/
theorem ev_reverse {x : ℝ} (hx : x ≠ 0) : ∀ l, x * ev l x = x ^ l.length * ev l.reverse x⁻¹
  | [] => by simp [ev]
  | a :: l => by
    simp only [List.reverse_cons, ev_append, ev, List.length_reverse, List.length_cons]
    have := ev_reverse hx l
    rw [mul_add, ← mul_assoc, mul_comm x x, mul_assoc, this]
    have e : x ^ l.length * (x⁻¹) ^ l.length = 1 := by rw [← mul_pow, mul_inv_cancel₀ hx, one_pow]
    rw [pow_succ]
    linear_combination (-(x * a)) * e

theorem ev_nonneg {x : ℝ} (hx : 0 ≤ x) : ∀ l, nonneg l = true → 0 ≤ ev l x
  | [], _ => le_refl 0
  | a :: l, h => by
    simp only [nonneg, Bool.and_eq_true, decide_eq_true_eq] at h
    have h1 : (0 : ℝ) ≤ a := by exact_mod_cast h.1
    have h2 := ev_nonneg hx l h.2
    simp only [ev]
    positivity

/-- a polynomial that is not negative to the right of `c` -/
theorem nonneg_right {c : ℤ} {x : ℝ} (hx : c ≤ x) {l : List ℤ} (h : nonneg (shift c l) = true) : 0 ≤ ev l x := by
  have := ev_nonneg (x := x - c) (by linarith) _ h
  rwa [ev_shift, sub_add_cancel] at this

/-- a polynomial that is not negative on `[0, 1]` -/
theorem nonneg_unit {x : ℝ} (h0 : 0 ≤ x) (h1 : x ≤ 1) {l : List ℤ} (h : nonneg (shift 1 l.reverse) = true)
    (hl : nonneg (l.take 1) = true) : 0 ≤ ev l x := by
  rcases h0.eq_or_lt with rfl | hx
  · match l with
    | [] => exact le_refl 0
    | a :: l =>
      simp only [List.take_succ_cons, List.take_zero, nonneg, Bool.and_true, decide_eq_true_eq] at hl
      simp only [ev, zero_mul, add_zero]
      exact_mod_cast hl
  · have h2 := ev_reverse hx.ne' l
    have h3 := nonneg_right (c := 1) (x := x⁻¹) (by push_cast; exact (one_le_inv₀ hx).mpr h1) h
    have h4 : 0 ≤ x * ev l x := by rw [h2]; positivity
    exact (mul_nonneg_iff_of_pos_left hx).mp h4

end Fz.Pol
