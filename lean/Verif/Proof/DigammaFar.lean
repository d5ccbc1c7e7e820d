import Verif.Proof.PolyList
import Verif.Proof.Psi
import Mathlib.Analysis.Calculus.MeanValue
import Mathlib.Analysis.Calculus.Deriv.MeanValue
import Mathlib.Analysis.SpecialFunctions.Log.Deriv

/-!
# The approximation of the digamma function beyond 3

`digamma.F90` approximates `ψ(x) - log x + 1/(2x)` by a rational function of `1/x²`.  How far it is from satisfying the
functional equation `ψ(x+1) = ψ(x) + 1/x` is a function whose derivative is rational; the sign of the derivative, less a small
multiple of `1/x²`, is that of a polynomial of degree 55, whose coefficients in `x - 3` all have that sign.
-/

namespace Fz.Psi
open Real Set Filter Topology Pol

/-- digamma.F90:126-130, times `10^40` -/
def A : List ℤ :=
  [-27103228277757834192000000000000000000000,
   -151662717768961213830000000000000000000000,
   -197845541487192186670000000000000000000000,
   -88100958828312219821000000000000000000000,
   -14479614616899842986000000000000000000000,
   -736896003323945499110000000000000000000,
   -65135387732718171306]

/-- digamma.F90:131-134 with the leading 1, times `10^40` -/
def B : List ℤ :=
  [10000000000000000000000000000000000000000,
   449927603737893658460000000000000000000000,
   2024095531267993115900000000000000000000000,
   2473697900331529005700000000000000000000000,
   1074254387570227832600000000000000000000000,
   174639650606785699060000000000000000000000,
   8842752039887348034200000000000000000000]

/-- numerator and denominator as polynomials in `x` -/
def U : List ℤ := even A
def V : List ℤ := even B

/-- `ψ` as digamma.F90 approximates it -/
noncomputable def G (x : ℝ) : ℝ := log x - 1 / (2 * x) + ev U x / ev V x

theorem V_pos (x : ℝ) : 0 < ev V x := by
  have h : ev V x = ev B (x ^ 2) := ev_even x B
  rw [h]
  have : 0 ≤ ev (B.drop 1) (x ^ 2) := ev_nonneg (by positivity) _ (by decide +kernel)
  have e : ev B (x ^ 2) = 10000000000000000000000000000000000000000 + x ^ 2 * ev (B.drop 1) (x ^ 2) := by
    simp only [B, ev, List.drop_succ_cons, List.drop_zero]
    norm_num
  rw [e]
  positivity

def T0 : List ℤ := sub (mul (der U) V) (mul U (der V))
def V2 : List ℤ := mul V V

theorem G_deriv {x : ℝ} (hx : 0 < x) : HasDerivAt G (1 / x + 1 / (2 * x ^ 2) + ev T0 x / ev V2 x) x := by
  have h1 := hasDerivAt_log hx.ne'
  have h2 : HasDerivAt (fun t : ℝ => 1 / (2 * t)) (-(1 / (2 * x ^ 2))) x := by
    have := (((hasDerivAt_id x).const_mul 2).inv (by simp; exact hx.ne'))
    have e : (fun t : ℝ => 1 / (2 * t)) = fun t => (2 * id t)⁻¹ := by funext t; simp
    rw [e]
    have e2 : -(1 / (2 * x ^ 2)) = -(2 * 1) / (2 * id x) ^ 2 := by
      simp only [id]
      field_simp
    rw [e2]
    exact this
  have h3 := (hasDerivAt_ev x U).div (hasDerivAt_ev x V) (V_pos x).ne'
  have := (h1.sub h2).add h3
  have e : 1 / x + 1 / (2 * x ^ 2) + ev T0 x / ev V2 x =
      x⁻¹ - -(1 / (2 * x ^ 2)) + (ev (der U) x * ev V x - ev U x * ev (der V) x) / ev V x ^ 2 := by
    simp only [T0, V2, ev_sub, ev_mul]
    rw [one_div, sq (ev V x)]
    ring
  rw [e]
  exact this

/-- the limit of `ψ(x) - log x`, which ought to be 0 -/
noncomputable def L : ℝ := -65135387732718171306 / 8842752039887348034200000000000000000000

theorem ev_tendsto {l : List ℤ} : Tendsto (fun w => ev l w) (𝓝 0) (𝓝 (ev l 0)) :=
  (hasDerivAt_ev 0 l).continuousAt

theorem G_tendsto : Tendsto (fun x => G x - log x) atTop (𝓝 L) := by
  have hw : Tendsto (fun x : ℝ => (x ^ 2)⁻¹) atTop (𝓝 0) :=
    tendsto_inv_atTop_zero.comp (tendsto_pow_atTop (by norm_num))
  have hB : ev B.reverse 0 = 8842752039887348034200000000000000000000 := by simp [B, ev]
  have hA : ev A.reverse 0 = -65135387732718171306 := by simp [A, ev]
  have h1 : Tendsto (fun x : ℝ => ev A.reverse (x ^ 2)⁻¹ / ev B.reverse (x ^ 2)⁻¹) atTop (𝓝 L) := by
    have := (ev_tendsto (l := A.reverse)).div (ev_tendsto (l := B.reverse)) (by rw [hB]; norm_num)
    rw [hA, hB] at this
    exact this.comp hw
  have h2 : Tendsto (fun x : ℝ => 1 / (2 * x)) atTop (𝓝 0) := by
    have : Tendsto (fun x : ℝ => 2 * x) atTop atTop := tendsto_id.const_mul_atTop (by norm_num)
    exact (tendsto_inv_atTop_zero.comp this).congr fun x => by simp
  have := h1.sub h2
  rw [sub_zero] at this
  refine this.congr' ?_
  filter_upwards [eventually_gt_atTop 0] with x hx
  have hx2 : x ^ 2 ≠ 0 := by positivity
  have eA := ev_reverse hx2 A
  have eB := ev_reverse hx2 B
  have hV := V_pos x
  rw [show ev V x = ev B (x ^ 2) from ev_even x B] at hV
  have e : ev U x / ev V x = ev A.reverse (x ^ 2)⁻¹ / ev B.reverse (x ^ 2)⁻¹ := by
    rw [show ev U x = ev A (x ^ 2) from ev_even x A, show ev V x = ev B (x ^ 2) from ev_even x B]
    have la : A.length = 7 := rfl
    have lb : B.length = 7 := rfl
    rw [la] at eA
    rw [lb] at eB
    have hp : (x ^ 2) ^ 7 ≠ 0 := by positivity
    rw [← mul_div_mul_left _ _ hx2, eA, eB, mul_div_mul_left _ _ hp]
  simp only [G]
  rw [e]
  ring

theorem log_step : Tendsto (fun x : ℝ => log (x + 1) - log x) atTop (𝓝 0) := by
  refine tendsto_of_tendsto_of_tendsto_of_le_of_le' tendsto_const_nhds (tendsto_inv_atTop_zero (𝕜 := ℝ)) ?_ ?_
  · filter_upwards [eventually_gt_atTop 0] with x hx
    have := log_le_log hx (by linarith : x ≤ x + 1)
    linarith
  · filter_upwards [eventually_gt_atTop 0] with x hx
    rw [← log_div (by linarith) hx.ne']
    refine (log_le_sub_one_of_pos (by positivity)).trans ?_
    field_simp
    linarith

/-- the polynomial whose sign decides; `a` is 1 or -1 -/
def N (a : ℤ) : List ℤ :=
  sub (scale 10000000000000000
      (add (mul (mul [0, 1, 1] V2) (shift 1 V2))
        (scale 2 (mul (mul [0, 0, 0, 1] (shift 1 [0, 0, 0, 1])) (sub (mul (shift 1 T0) V2) (mul T0 (shift 1 V2)))))))
    (scale (4 * a) (mul (mul [1, 3, 3] V2) (shift 1 V2)))

theorem N_down : nonneg (shift 3 (neg (N 1))) = true := by decide +kernel
theorem N_up : nonneg (shift 3 (N (-1))) = true := by decide +kernel

/-- with a correction: `G x - a 10^(-16) / x²` -/
noncomputable def H (a : ℤ) (x : ℝ) : ℝ := G x - a / 10 ^ 16 * (1 / x ^ 2)

theorem H_deriv (a : ℤ) {x : ℝ} (hx : 0 < x) :
    HasDerivAt (H a) (1 / x + 1 / (2 * x ^ 2) + ev T0 x / ev V2 x + a / 10 ^ 16 * (2 / x ^ 3)) x := by
  have h1 : HasDerivAt (fun t : ℝ => 1 / t ^ 2) (-(2 / x ^ 3)) x := by
    have := ((hasDerivAt_pow 2 x).inv (by positivity))
    have e : (fun t : ℝ => 1 / t ^ 2) = fun t => (t ^ 2)⁻¹ := by funext t; simp
    rw [e]
    have e2 : -(2 / x ^ 3) = -(((2 : ℕ) : ℝ) * x ^ (2 - 1)) / (x ^ 2) ^ 2 := by
      push_cast
      field_simp
    rw [e2]
    exact this
  have := (G_deriv hx).sub (h1.const_mul ((a : ℝ) / 10 ^ 16))
  rw [mul_neg, sub_neg_eq_add] at this
  exact this

/-- how far `H` is from the functional equation -/
noncomputable def S (a : ℤ) (x : ℝ) : ℝ := H a (x + 1) - H a x - 1 / x

theorem S_deriv (a : ℤ) {x : ℝ} (hx : 0 < x) :
    HasDerivAt (S a) (ev (N a) x / (2 * 10 ^ 16 * x ^ 3 * (x + 1) ^ 3 * ev V2 x * ev V2 (x + 1))) x := by
  have h1 := (H_deriv a (x := x + 1) (by linarith)).comp_add_const x 1
  have h2 := H_deriv a hx
  have h3 : HasDerivAt (fun t : ℝ => 1 / t) (-(1 / x ^ 2)) x := by
    have := hasDerivAt_inv hx.ne'
    simpa [one_div] using this
  have h := (h1.sub h2).sub h3
  have hv : ev V2 x ≠ 0 := by
    rw [V2, ev_mul]
    exact (mul_pos (V_pos x) (V_pos x)).ne'
  have hv1 : ev V2 (x + 1) ≠ 0 := by
    rw [V2, ev_mul]
    exact (mul_pos (V_pos (x + 1)) (V_pos (x + 1))).ne'
  have hN : ev (N a) x = 10 ^ 16 * ((x + x ^ 2) * ev V2 x * ev V2 (x + 1) +
      2 * (x ^ 3 * (x + 1) ^ 3 * (ev T0 (x + 1) * ev V2 x - ev T0 x * ev V2 (x + 1)))) -
      4 * a * ((1 + 3 * x + 3 * x ^ 2) * ev V2 x * ev V2 (x + 1)) := by
    simp only [N, ev_sub, ev_scale, ev_add, ev_mul, ev_shift, ev]
    push_cast
    ring
  rw [hN]
  have hx1 : x + 1 ≠ 0 := by linarith
  have e : (10 ^ 16 * ((x + x ^ 2) * ev V2 x * ev V2 (x + 1) +
      2 * (x ^ 3 * (x + 1) ^ 3 * (ev T0 (x + 1) * ev V2 x - ev T0 x * ev V2 (x + 1)))) -
      4 * a * ((1 + 3 * x + 3 * x ^ 2) * ev V2 x * ev V2 (x + 1))) /
        (2 * 10 ^ 16 * x ^ 3 * (x + 1) ^ 3 * ev V2 x * ev V2 (x + 1)) =
      (1 / (x + 1) + 1 / (2 * (x + 1) ^ 2) + ev T0 (x + 1) / ev V2 (x + 1) + a / 10 ^ 16 * (2 / (x + 1) ^ 3)) -
        (1 / x + 1 / (2 * x ^ 2) + ev T0 x / ev V2 x + a / 10 ^ 16 * (2 / x ^ 3)) - -(1 / x ^ 2) := by
    generalize ev V2 x = v at *
    generalize ev V2 (x + 1) = v1 at *
    generalize ev T0 x = t at *
    generalize ev T0 (x + 1) = t1 at *
    field_simp
    ring
  rw [e]
  exact h

theorem H_tendsto (a : ℤ) : Tendsto (fun x => H a x - log x) atTop (𝓝 L) := by
  have h2 : Tendsto (fun x : ℝ => (a : ℝ) / 10 ^ 16 * (1 / x ^ 2)) atTop (𝓝 0) := by
    have hw : Tendsto (fun x : ℝ => (x ^ 2)⁻¹) atTop (𝓝 0) :=
      tendsto_inv_atTop_zero.comp (tendsto_pow_atTop (by norm_num))
    simpa using hw.const_mul ((a : ℝ) / 10 ^ 16)
  have := G_tendsto.sub h2
  rw [sub_zero] at this
  refine this.congr fun x => ?_
  simp only [H]
  ring

theorem S_tendsto (a : ℤ) : Tendsto (S a) atTop (𝓝 0) := by
  have ht : Tendsto (fun x : ℝ => x + 1) atTop atTop := tendsto_atTop_add_const_right _ _ tendsto_id
  have h1 := (H_tendsto a).comp ht
  have := ((h1.sub (H_tendsto a)).add log_step).sub (tendsto_inv_atTop_zero (𝕜 := ℝ))
  simp only [sub_self, add_zero] at this
  refine this.congr fun x => ?_
  simp only [S, Function.comp, one_div]
  ring

theorem den_pos {x : ℝ} (hx : 0 < x) : 0 < 2 * 10 ^ 16 * x ^ 3 * (x + 1) ^ 3 * ev V2 x * ev V2 (x + 1) := by
  have h1 : 0 < ev V2 x := by rw [V2, ev_mul]; exact mul_pos (V_pos x) (V_pos x)
  have h2 : 0 < ev V2 (x + 1) := by rw [V2, ev_mul]; exact mul_pos (V_pos _) (V_pos _)
  positivity

theorem S_one {x : ℝ} (hx : 3 ≤ x) : 0 ≤ S 1 x := by
  have anti : AntitoneOn (S 1) (Ici 3) := by
    refine antitoneOn_of_deriv_nonpos (convex_Ici 3) (fun y hy => ?_) (fun y hy => ?_) fun y hy => ?_
    · exact (S_deriv 1 (by simp at hy; linarith)).continuousAt.continuousWithinAt
    · exact (S_deriv 1 (by simp at hy; linarith)).differentiableAt.differentiableWithinAt
    · simp only [interior_Ici, mem_Ioi] at hy
      rw [(S_deriv 1 (by linarith)).deriv]
      refine div_nonpos_of_nonpos_of_nonneg ?_ (den_pos (by linarith)).le
      have := nonneg_right (c := 3) (x := y) (by push_cast; linarith) N_down
      rw [ev_neg] at this
      linarith
  refine le_of_tendsto (S_tendsto 1) ?_
  filter_upwards [eventually_ge_atTop x] with y hy
  exact anti hx (hx.trans hy) hy

theorem S_neg {x : ℝ} (hx : 3 ≤ x) : S (-1) x ≤ 0 := by
  have mono : MonotoneOn (S (-1)) (Ici 3) := by
    refine monotoneOn_of_deriv_nonneg (convex_Ici 3) (fun y hy => ?_) (fun y hy => ?_) fun y hy => ?_
    · exact (S_deriv (-1) (by simp at hy; linarith)).continuousAt.continuousWithinAt
    · exact (S_deriv (-1) (by simp at hy; linarith)).differentiableAt.differentiableWithinAt
    · simp only [interior_Ici, mem_Ioi] at hy
      rw [(S_deriv (-1) (by linarith)).deriv]
      exact div_nonneg (nonneg_right (c := 3) (x := y) (by push_cast; linarith) N_up) (den_pos (by linarith)).le
  refine ge_of_tendsto (S_tendsto (-1)) ?_
  filter_upwards [eventually_ge_atTop x] with y hy
  exact mono hx (hx.trans hy) hy

/-- the approximation beyond 3 -/
theorem G_close {x : ℝ} (hx : 3 ≤ x) : |G x - psi x - L| ≤ 1 / (10 ^ 16 * x ^ 2) := by
  have h1 := le_psi (F := H 1) (a := 3) (by norm_num) (fun y hy => by have := S_one hy; simp only [S] at this; linarith)
    (H_tendsto 1) hx
  have h2 := psi_le (F := H (-1)) (a := 3) (by norm_num) (fun y hy => by have := S_neg hy; simp only [S] at this; linarith)
    (H_tendsto (-1)) hx
  simp only [H] at h1 h2
  push_cast at h1 h2
  have e : 1 / (10 ^ 16 * x ^ 2) = 1 / 10 ^ 16 * (1 / x ^ 2) := by
    field_simp
  rw [e, abs_le]
  constructor <;> linarith

end Fz.Psi
