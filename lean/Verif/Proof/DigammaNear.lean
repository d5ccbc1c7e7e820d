import Verif.Proof.DigammaFar
import Mathlib.Analysis.SpecialFunctions.Log.Deriv
import Mathlib.Analysis.SpecialFunctions.Log.Basic

/-!
# The approximation of the digamma function on `[1/2, 3]`

`ψ(x) = ψ(x+3) - 1/x - 1/(x+1) - 1/(x+2)`, and `ψ(x+3)` is known from `Proof/DigammaFar.lean`.  The difference of this and the
rational function of digamma.F90 has a rational derivative, which is small because a polynomial of degree 49 is not negative
between `1/2` and `3`; and at 1 it is small by calculation.
-/

namespace Fz.Pol

/-- in `x / 2`, times a power of 2 -/
def halves : List ℤ → List ℤ
  | [] => []
  | a :: l => (2 ^ l.length * a) :: halves l

theorem ev_halves (x : ℝ) : ∀ l, 2 * ev (halves l) (2 * x) = 2 ^ l.length * ev l x
  | [] => by simp [halves, ev]
  | a :: l => by
    have := ev_halves x l
    simp only [halves, ev, List.length_cons, pow_succ]
    push_cast
    linear_combination (2 * x) * this

/-- a polynomial that is not negative on `[1/2, 3]` -/
theorem nonneg_near {x : ℝ} (h0 : 1 / 2 ≤ x) (h1 : x ≤ 3) {l : List ℤ}
    (h : nonneg (shift 1 (stretch 5 (shift 1 (halves l))).reverse) = true)
    (hl : nonneg ((stretch 5 (shift 1 (halves l))).take 1) = true) : 0 ≤ ev l x := by
  have := nonneg_unit (x := (2 * x - 1) / 5) (by linarith) (by linarith) h hl
  rw [ev_stretch, ev_shift] at this
  push_cast at this
  rw [show (5 : ℝ) * ((2 * x - 1) / 5) + 1 = 2 * x by ring] at this
  have e := ev_halves x l
  have hp : (0 : ℝ) < 2 ^ l.length := by positivity
  have h2 : 0 ≤ 2 ^ l.length * ev l x := by rw [← e]; linarith
  exact (mul_nonneg_iff_of_pos_left hp).mp h2

end Fz.Pol

namespace Fz.Psi
open Real Set Filter Topology Pol

/-- digamma.F90:113-118 and 137, the factor `x - x0` included, times `128 * 10^50` -/
def P : List ℤ :=
  [-3102999680274010794644855440106731978730734080000000000000,
   -8735917244265040070328762079692391903662256640000000000000,
   -4470876138207287393007261707994927171151362560000000000000,
   2406302385995696775745826282498856409352596480000000000000,
   2587184816148562843585655237023780359847185920000000000000,
   765797048857614625379357601923213908509756288000000000000,
   94749349324009044810490273397721233439360389120000000000,
   4716003442806401942416121721095252275694583091200000000,
   70229669607683874064505517278886120242116524032000000,
   57733991994576555724800000000000000000000000000000]

/-- digamma.F90:119-123 with the leading 1, times `128 * 10^50` -/
def Q : List ℤ :=
  [821186864429775692748800000000000000000000000,
   3102999680258302112256000000000000000000000000000000000000,
   6944817220770559197824000000000000000000000000000000000000,
   5566448731234346116736000000000000000000000000000000000000,
   2074440459716309969792000000000000000000000000000000000000,
   382239961884803557376000000000000000000000000000000000000,
   33648276211943927462400000000000000000000000000000000000,
   1230613181110046189120000000000000000000000000000000000,
   12800000000000000000000000000000000000000000000000000]

theorem Q_pos {x : ℝ} (hx : 0 ≤ x) : 0 < ev Q x := by
  have h : 0 ≤ ev (Q.drop 1) x := ev_nonneg hx _ (by decide +kernel)
  have e : ev Q x = 821186864429775692748800000000000000000000000 + x * ev (Q.drop 1) x := by
    simp only [Q, ev, List.drop_succ_cons, List.drop_zero]
    norm_num
  rw [e]
  positivity

def R0 : List ℤ := sub (mul (der P) Q) (mul P (der Q))
def Q2 : List ℤ := mul Q Q

/-- `ψ` as digamma.F90 approximates it on `[1/2, 3]` -/
noncomputable def K (x : ℝ) : ℝ := ev P x / ev Q x

theorem K_deriv {x : ℝ} (hx : 0 < x) : HasDerivAt K (ev R0 x / ev Q2 x) x := by
  have h := (hasDerivAt_ev x P).div (hasDerivAt_ev x Q) (Q_pos hx.le).ne'
  have e : ev R0 x / ev Q2 x = (ev (der P) x * ev Q x - ev P x * ev (der Q) x) / ev Q x ^ 2 := by
    simp only [R0, Q2, ev_sub, ev_mul, sq]
  rw [e]
  exact h

/-- the difference -/
noncomputable def E (x : ℝ) : ℝ := K x + 1 / x + 1 / (x + 1) + 1 / (x + 2) - G (x + 3)

/-- the other denominators: `x² (x+1)² (x+2)² (x+3)²` and without one factor -/
def X0 : List ℤ := [0, 1]
def sq (l : List ℤ) : List ℤ := mul l l
def M0 : List ℤ := mul (sq [1, 1]) (mul (sq [2, 1]) (sq [3, 1]))
def M1 : List ℤ := mul (sq X0) (mul (sq [2, 1]) (sq [3, 1]))
def M2 : List ℤ := mul (sq X0) (mul (sq [1, 1]) (sq [3, 1]))
def M3 : List ℤ := mul (sq X0) (mul (sq [1, 1]) (sq [2, 1]))
def M : List ℤ := mul M3 (sq [3, 1])

/-- numerator and denominator of the derivative of `E` -/
def NE : List ℤ :=
  sub (scale 2 (mul (mul M (shift 3 V2)) R0))
    (mul Q2 (add (mul (shift 3 V2) (add (scale 2 (add M0 (add M1 M2))) (mul M3 [7, 2])))
      (scale 2 (mul M (shift 3 T0)))))
def DE : List ℤ := scale 2 (mul (mul M (shift 3 V2)) Q2)

theorem inv_deriv (c : ℝ) {x : ℝ} (hx : 0 < x + c) : HasDerivAt (fun t : ℝ => 1 / (t + c)) (-(1 / (x + c) ^ 2)) x := by
  have := ((hasDerivAt_id x).add_const c).inv (by simpa using hx.ne')
  have e : (fun t : ℝ => 1 / (t + c)) = fun t => (id t + c)⁻¹ := by funext t; simp
  rw [e]
  have e2 : -(1 / (x + c) ^ 2) = -1 / (id x + c) ^ 2 := by simp [neg_div]
  rw [e2]
  exact this

theorem V2_pos (x : ℝ) : 0 < ev V2 x := by rw [V2, ev_mul]; exact mul_pos (V_pos x) (V_pos x)
theorem Q2_pos {x : ℝ} (hx : 0 ≤ x) : 0 < ev Q2 x := by rw [Q2, ev_mul]; exact mul_pos (Q_pos hx) (Q_pos hx)

theorem DE_eq (x : ℝ) : ev DE x = 2 * (x ^ 2 * (x + 1) ^ 2 * (x + 2) ^ 2 * (x + 3) ^ 2 * ev V2 (x + 3) * ev Q2 x) := by
  simp only [DE, M, M3, sq, X0, ev_scale, ev_mul, ev_shift, ev]
  push_cast
  ring

theorem DE_pos {x : ℝ} (hx : 0 < x) : 0 < ev DE x := by
  rw [DE_eq]
  have := V2_pos (x + 3)
  have := Q2_pos hx.le
  positivity

theorem E_deriv {x : ℝ} (hx : 0 < x) : HasDerivAt E (ev NE x / ev DE x) x := by
  have h0 := K_deriv hx
  have h1 : HasDerivAt (fun t : ℝ => 1 / t) (-(1 / x ^ 2)) x := by
    simpa using inv_deriv 0 (x := x) (by linarith)
  have h2 := inv_deriv 1 (x := x) (by linarith)
  have h3 := inv_deriv 2 (x := x) (by linarith)
  have h4 := (G_deriv (x := x + 3) (by linarith)).comp_add_const x 3
  have h := (((h0.add h1).add h2).add h3).sub h4
  have hN : ev NE x = 2 * (x ^ 2 * (x + 1) ^ 2 * (x + 2) ^ 2 * (x + 3) ^ 2 * ev V2 (x + 3) * ev R0 x) -
      ev Q2 x * (ev V2 (x + 3) * (2 * ((x + 1) ^ 2 * (x + 2) ^ 2 * (x + 3) ^ 2 + x ^ 2 * (x + 2) ^ 2 * (x + 3) ^ 2 +
        x ^ 2 * (x + 1) ^ 2 * (x + 3) ^ 2) + x ^ 2 * (x + 1) ^ 2 * (x + 2) ^ 2 * (2 * x + 7)) +
        2 * (x ^ 2 * (x + 1) ^ 2 * (x + 2) ^ 2 * (x + 3) ^ 2 * ev T0 (x + 3))) := by
    simp only [NE, M, M0, M1, M2, M3, sq, X0, ev_scale, ev_sub, ev_add, ev_mul, ev_shift, ev]
    push_cast
    ring
  have e : ev NE x / ev DE x = ev R0 x / ev Q2 x + -(1 / x ^ 2) + -(1 / (x + 1) ^ 2) + -(1 / (x + 2) ^ 2) -
      (1 / (x + 3) + 1 / (2 * (x + 3) ^ 2) + ev T0 (x + 3) / ev V2 (x + 3)) := by
    rw [hN, DE_eq]
    have v := (V2_pos (x + 3)).ne'
    have q := (Q2_pos hx.le).ne'
    have x1 : x + 1 ≠ 0 := by linarith
    have x2 : x + 2 ≠ 0 := by linarith
    have x3 : x + 3 ≠ 0 := by linarith
    generalize ev V2 (x + 3) = v at *
    generalize ev Q2 x = q at *
    generalize ev T0 (x + 3) = t at *
    generalize ev R0 x = r at *
    field_simp
    ring
  rw [e]
  exact h

def lower : List ℤ := add DE (scale 100000000000000000 NE)
def upper : List ℤ := sub DE (scale 100000000000000000 NE)

theorem lower_ok : (nonneg (shift 1 (stretch 5 (shift 1 (halves lower))).reverse) &&
    nonneg ((stretch 5 (shift 1 (halves lower))).take 1)) = true := by decide +kernel
theorem upper_ok : (nonneg (shift 1 (stretch 5 (shift 1 (halves upper))).reverse) &&
    nonneg ((stretch 5 (shift 1 (halves upper))).take 1)) = true := by decide +kernel

theorem E_slope {x : ℝ} (h0 : 1 / 2 ≤ x) (h1 : x ≤ 3) : |ev NE x / ev DE x| ≤ 1 / 10 ^ 17 := by
  have l := lower_ok
  have u := upper_ok
  rw [Bool.and_eq_true] at l u
  have a := nonneg_near h0 h1 l.1 l.2
  have b := nonneg_near h0 h1 u.1 u.2
  simp only [lower, upper, ev_add, ev_sub, ev_scale] at a b
  push_cast at a b
  have hD := DE_pos (x := x) (by linarith)
  rw [abs_div, abs_of_pos hD, div_le_iff₀ hD, abs_le]
  constructor <;> linarith

theorem log_two_fine : |log 2 - 69314718055994530941723212145818 / 10 ^ 32| ≤ 1 / 10 ^ 20 := by
  have h := abs_log_sub_add_sum_range_le (x := 1 / 2) (by rw [abs_of_pos] <;> norm_num) 80
  have e : log (1 - 1 / 2) = -log 2 := by
    rw [show (1 : ℝ) - 1 / 2 = 2⁻¹ by norm_num, log_inv]
  rw [e, abs_of_pos (by norm_num : (0 : ℝ) < 1 / 2)] at h
  simp only [Finset.sum_range_succ, Finset.sum_range_zero] at h
  rw [abs_le] at h ⊢
  norm_num at h ⊢
  constructor <;> linarith [h.1, h.2]

theorem E_one : |E 1| ≤ 1 / 10 ^ 18 := by
  have h := log_two_fine
  have e4 : log (1 + 3) = 2 * log 2 := by
    rw [show (1 : ℝ) + 3 = 2 ^ 2 by norm_num, log_pow]
    norm_num
  simp only [E, K, G, e4, U, V, A, B, P, Q, even, ev]
  rw [abs_le] at h ⊢
  norm_num at h ⊢
  constructor <;> linarith [h.1, h.2]

theorem E_small {x : ℝ} (h0 : 1 / 2 ≤ x) (h1 : x ≤ 3) : |E x| ≤ 21 / 10 ^ 18 := by
  have key := (convex_Icc (1 / 2 : ℝ) 3).norm_image_sub_le_of_norm_hasDerivWithin_le (f := E)
    (f' := fun x => ev NE x / ev DE x) (C := 1 / 10 ^ 17)
    (fun y hy => (E_deriv (by linarith [hy.1])).hasDerivWithinAt) (fun y hy => E_slope hy.1 hy.2)
    (x := 1) (y := x) ⟨by norm_num, by norm_num⟩ ⟨h0, h1⟩
  rw [norm_eq_abs, norm_eq_abs] at key
  have h2 : |x - 1| ≤ 2 := by rw [abs_le]; constructor <;> linarith
  have h3 := E_one
  have h4 : |E x| ≤ |E x - E 1| + |E 1| := by
    have := abs_add_le (E x - E 1) (E 1)
    rwa [sub_add_cancel] at this
  have h5 : 1 / 10 ^ 17 * |x - 1| ≤ 1 / 10 ^ 17 * 2 := by
    have : (0 : ℝ) ≤ 1 / 10 ^ 17 := by positivity
    nlinarith
  norm_num at *
  linarith

/-- the approximation on `[1/2, 3]` -/
theorem K_close {x : ℝ} (h0 : 1 / 2 ≤ x) (h1 : x ≤ 3) : |K x - psi x| ≤ 3 / 10 ^ 17 := by
  have a := E_small h0 h1
  have b := G_close (x := x + 3) (by linarith)
  have p1 := psi_add_one (x := x) (by linarith)
  have p2 := psi_add_one (x := x + 1) (by linarith)
  have p3 := psi_add_one (x := x + 1 + 1) (by linarith)
  rw [show x + 1 + 1 = x + 2 by ring] at p2 p3
  rw [show x + 2 + 1 = x + 3 by ring] at p3
  have c : 1 / (10 ^ 16 * (x + 3) ^ 2) ≤ 1 / (10 ^ 16 * 12) := by
    refine one_div_le_one_div_of_le (by positivity) ?_
    nlinarith
  have l : |L| ≤ 1 / 10 ^ 19 := by
    unfold L
    rw [abs_le]
    constructor <;> norm_num
  have key : K x - psi x = E x + (G (x + 3) - psi (x + 3) - L) + L := by
    simp only [E]
    linarith
  rw [key]
  have t := abs_add_three (E x) (G (x + 3) - psi (x + 3) - L) L
  norm_num at *
  linarith

/-- and beyond 3 -/
theorem G_closer {x : ℝ} (h : 3 ≤ x) : |G x - psi x| ≤ 2 / 10 ^ 17 := by
  have b := G_close h
  have c : 1 / (10 ^ 16 * x ^ 2) ≤ 1 / (10 ^ 16 * 9) := by
    refine one_div_le_one_div_of_le (by positivity) ?_
    nlinarith
  have l : |L| ≤ 1 / 10 ^ 19 := by
    unfold L
    rw [abs_le]
    constructor <;> norm_num
  have t := abs_add_le (G x - psi x - L) L
  rw [sub_add_cancel] at t
  norm_num at *
  linarith

end Fz.Psi
