import Verif.Proof.Sim
import Mathlib.Analysis.SpecialFunctions.Trigonometric.ArctanDeriv
import Mathlib.Analysis.SpecialFunctions.Trigonometric.InverseDeriv
import Mathlib.Analysis.SpecialFunctions.Trigonometric.DerivHyp
import Mathlib.Analysis.SpecialFunctions.Pow.Deriv
import Mathlib.Analysis.SpecialFunctions.Sqrt
import Mathlib.Analysis.SpecialFunctions.Log.Deriv
import Mathlib.Analysis.Calculus.Deriv.Abs
import Mathlib.MeasureTheory.Integral.IntervalIntegral.FundThmCalculus
import Mathlib.Tactic.FieldSimp
import Mathlib.Tactic.Ring
import Mathlib.Tactic.Positivity
import Mathlib.Tactic.Linarith

/-!
# The chain procedures of the unary functions are the derivatives
-/

set_option linter.unusedSectionVars false

namespace Fz
open Arith

/-! the operations of `Arith ℝ` -/
@[simp] theorem rAdd (a b : ℝ) : (a +. b) = a + b := rfl
@[simp] theorem rSub (a b : ℝ) : (a -. b) = a - b := rfl
@[simp] theorem rMul (a b : ℝ) : (a *. b) = a * b := rfl
@[simp] theorem rDiv (a b : ℝ) : (a /. b) = a / b := rfl
@[simp] theorem rNeg (a : ℝ) : Arith.neg a = -a := rfl
@[simp] theorem rZero : (Arith.zero : ℝ) = 0 := rfl
@[simp] theorem rOne : (Arith.one : ℝ) = 1 := rfl
@[simp] theorem rTwo : (Arith.two : ℝ) = 2 := rfl
@[simp] theorem rHalf : (Arith.half : ℝ) = 1 / 2 := rfl
@[simp] theorem rPow (a b : ℝ) : Arith.pow a b = a ^ b := rfl
@[simp] theorem rSqrt (a : ℝ) : Arith.sqrt a = √a := rfl
@[simp] theorem rSin (a : ℝ) : Arith.sin a = Real.sin a := rfl
@[simp] theorem rCos (a : ℝ) : Arith.cos a = Real.cos a := rfl
@[simp] theorem rTan (a : ℝ) : Arith.tan a = Real.tan a := rfl
@[simp] theorem rAsin (a : ℝ) : Arith.asin a = Real.arcsin a := rfl
@[simp] theorem rAcos (a : ℝ) : Arith.acos a = Real.arccos a := rfl
@[simp] theorem rAtan (a : ℝ) : Arith.atan a = Real.arctan a := rfl
@[simp] theorem rSinh (a : ℝ) : Arith.sinh a = Real.sinh a := rfl
@[simp] theorem rCosh (a : ℝ) : Arith.cosh a = Real.cosh a := rfl
@[simp] theorem rTanh (a : ℝ) : Arith.tanh a = Real.tanh a := rfl
@[simp] theorem rAsinh (a : ℝ) : Arith.asinh a = Real.arsinh a := rfl
@[simp] theorem rAcosh (a : ℝ) : Arith.acosh a = Real.arcosh a := rfl
@[simp] theorem rAtanh (a : ℝ) : Arith.atanh a = Real.artanh a := rfl
@[simp] theorem rExp (a : ℝ) : Arith.exp a = Real.exp a := rfl
@[simp] theorem rLog (a : ℝ) : Arith.log a = Real.log a := rfl
@[simp] theorem rErf (a : ℝ) : Arith.erf a = erfR a := rfl
@[simp] theorem rErfc (a : ℝ) : Arith.erfc a = 1 - erfR a := rfl
@[simp] theorem rHypot (a b : ℝ) : Arith.hypot a b = √(a ^ 2 + b ^ 2) := rfl
@[simp] theorem rAbs (a : ℝ) : Arith.fabs a = |a| := rfl
@[simp] theorem rFeq (a b : ℝ) : Arith.feq a b = true ↔ a = b := by
  show decide (a = b) = true ↔ _; simp
@[simp] theorem rFlt (a b : ℝ) : Arith.flt a b = true ↔ a < b := by
  show decide (a < b) = true ↔ _; simp
@[simp] theorem rFle (a b : ℝ) : Arith.fle a b = true ↔ a ≤ b := by
  show decide (a ≤ b) = true ↔ _; simp
@[simp] theorem rFne (a b : ℝ) : fne a b = true ↔ a ≠ b := by
  unfold fne; rw [Bool.not_eq_true', ← Bool.not_eq_true, rFeq]
@[simp] theorem rFgt (a b : ℝ) : fgt a b = true ↔ a > b := rFlt b a
@[simp] theorem rFge (a b : ℝ) : fge a b = true ↔ a ≥ b := rFle b a

theorem erfR_eq (x : ℝ) : erfR x = Spec.erfFn x := by
  unfold erfR Spec.erfFn
  congr 1
  apply intervalIntegral.integral_congr
  intro t _
  simp only
  congr 1
  ring

theorem hasDerivAt_erfR (x : ℝ) : HasDerivAt erfR (2 / √Real.pi * Real.exp (-(x * x))) x := by
  have hc : Continuous fun t : ℝ => Real.exp (-(t * t)) := by fun_prop
  exact (intervalIntegral.integral_hasDerivAt_right (hc.intervalIntegrable 0 x)
    (hc.stronglyMeasurableAtFilter _ _) hc.continuousAt).const_mul _

theorem hasDerivAt_artanh {x : ℝ} (h1 : -1 < x) (h2 : x < 1) :
    HasDerivAt Real.artanh (1 / (1 - x * x)) x := by
  have hd : HasDerivAt (fun x : ℝ => 1 / 2 * Real.log ((1 + x) / (1 - x))) (1 / (1 - x * x)) x := by
    have h3 : (1 - x) ≠ 0 := by linarith
    have h4 : (1 + x) ≠ 0 := by linarith
    have h5 : 1 - x * x = (1 - x) * (1 + x) := by ring
    have a : HasDerivAt (fun x : ℝ => 1 + x) 1 x := by simpa using (hasDerivAt_id x).const_add 1
    have b : HasDerivAt (fun x : ℝ => 1 - x) (-1) x := by simpa using (hasDerivAt_id x).const_sub 1
    refine HasDerivAt.congr_deriv (((a.div b h3).log (div_ne_zero h4 h3)).const_mul (1 / 2)) ?_
    simp only [Pi.div_apply]
    rw [h5]
    field_simp
    ring
  refine hd.congr_of_eventuallyEq ?_
  have : Set.Ioo (-1 : ℝ) 1 ∈ nhds x := Ioo_mem_nhds h1 h2
  filter_upwards [this] with y hy
  exact Real.artanh_eq_half_log ⟨hy.1.le, hy.2.le⟩

theorem hasDerivAt_tanh (x : ℝ) : HasDerivAt Real.tanh (1 / (Real.cosh x * Real.cosh x)) x := by
  have hc : Real.cosh x ≠ 0 := (Real.cosh_pos x).ne'
  have := (Real.hasDerivAt_sinh x).div (Real.hasDerivAt_cosh x) hc
  have e' : (Real.sinh / Real.cosh) = Real.tanh := by
    funext y; rw [Pi.div_apply, Real.tanh_eq_sinh_div_cosh]
  rw [e'] at this
  refine this.congr_deriv ?_
  have := Real.cosh_sq x
  field_simp
  linarith

/-- a function of one operand: the model's value is the mathematical one, and the chain procedure
passes on the derivative -/
structure UnSpec (mf : ℝ → ℝ) (c : Chain) (f : ℝ → ℝ) (x k : ℝ) : Prop where
  value : mf x = f x
  deriv : HasDerivAt f k x
  loc : Local c (f x) [x] [] [k]

/-- `cUn` shape -/
theorem local_un {c : Chain} {v x k : ℝ} {f : ℝ → ℝ → ℝ}
    (h : ∀ a, contribPlain c v a [x] [] = some [f a x]) (hk : ∀ a, f a x = a * k) :
    Local c v [x] [] [k] := by
  intro a; rw [h a, hk a]; rfl

open Spec

theorem piC_real : (piC : ℝ) = Real.pi := by
  unfold piC
  simp only [rMul, rAtan, rOne, Real.arctan_one]
  show ((4 : ℤ) : ℝ) * (10:ℝ) ^ (0:ℤ) * (Real.pi / 4) = Real.pi
  simp; ring

theorem twoOverSqrtPi_real : (twoOverSqrtPi : ℝ) = 2 / √Real.pi := by
  unfold twoOverSqrtPi; rw [piC_real]; rfl

theorem un_neg (x : ℝ) : UnSpec Arith.neg .subDV Un.neg.fn x (-1) :=
  ⟨rfl, (hasDerivAt_id x).neg, fun a => by simp [contribPlain, cAll]⟩

theorem un_sin (x : ℝ) : UnSpec Arith.sin .sin Un.sin.fn x (Real.cos x) :=
  ⟨rfl, Real.hasDerivAt_sin x, fun _ => rfl⟩
theorem un_cos (x : ℝ) : UnSpec Arith.cos .cos Un.cos.fn x (-Real.sin x) :=
  ⟨rfl, Real.hasDerivAt_cos x, fun a => by simp [contribPlain, cUn]⟩
theorem un_tan {x : ℝ} (h : Un.tan.dom x) : UnSpec Arith.tan .tan Un.tan.fn x (1 + Real.tan x * Real.tan x) := by
  refine ⟨rfl, ?_, fun a => by simp [contribPlain, cAll, Un.fn]⟩
  have h' : Real.cos x ≠ 0 := h
  refine HasDerivAt.congr_deriv (f := Real.tan) (Real.hasDerivAt_tan h') ?_
  rw [Real.tan_eq_sin_div_cos]
  have := Real.sin_sq_add_cos_sq x
  field_simp
  linarith
theorem un_asin {x : ℝ} (h : Un.asin.dom x) :
    UnSpec Arith.asin .asin Un.asin.fn x (1 / √(1 - x * x)) := by
  refine ⟨rfl, ?_, fun a => by simp [contribPlain, cUn]; rfl⟩
  have h' : -1 < x ∧ x < 1 := h
  refine HasDerivAt.congr_deriv (f := Real.arcsin)
    (Real.hasDerivAt_arcsin (by linarith : x ≠ -1) (by linarith : x ≠ 1)) ?_
  rw [pow_two]
theorem un_acos {x : ℝ} (h : Un.acos.dom x) :
    UnSpec Arith.acos .acos Un.acos.fn x (-(1 / √(1 - x * x))) := by
  refine ⟨rfl, ?_, fun a => by simp [contribPlain, cUn]; rfl⟩
  have h' : -1 < x ∧ x < 1 := h
  refine HasDerivAt.congr_deriv (f := Real.arccos)
    (Real.hasDerivAt_arccos (by linarith : x ≠ -1) (by linarith : x ≠ 1)) ?_
  rw [pow_two]
theorem un_atan (x : ℝ) : UnSpec Arith.atan .atan Un.atan.fn x (1 / (1 + x * x)) := by
  refine ⟨rfl, ?_, fun a => by simp [contribPlain, cUn]; rfl⟩
  refine HasDerivAt.congr_deriv (f := Real.arctan) (Real.hasDerivAt_arctan x) ?_
  rw [pow_two]
theorem un_sinh (x : ℝ) : UnSpec Arith.sinh .sinh Un.sinh.fn x (Real.cosh x) :=
  ⟨rfl, Real.hasDerivAt_sinh x, fun _ => rfl⟩
theorem un_cosh (x : ℝ) : UnSpec Arith.cosh .cosh Un.cosh.fn x (Real.sinh x) :=
  ⟨rfl, Real.hasDerivAt_cosh x, fun _ => rfl⟩
theorem un_tanh (x : ℝ) : UnSpec Arith.tanh .tanh Un.tanh.fn x (1 / (Real.cosh x * Real.cosh x)) :=
  ⟨rfl, hasDerivAt_tanh x, fun a => by simp [contribPlain, cUn, div_eq_mul_inv]⟩
theorem un_asinh (x : ℝ) : UnSpec Arith.asinh .asinh Un.asinh.fn x (1 / √(x * x + 1)) := by
  refine ⟨rfl, ?_, fun a => by simp [contribPlain, cUn]; rfl⟩
  refine HasDerivAt.congr_deriv (f := Real.arsinh) (Real.hasDerivAt_arsinh x) ?_
  rw [one_div]; congr 2; ring
theorem un_acosh {x : ℝ} (h : Un.acosh.dom x) :
    UnSpec Arith.acosh .acosh Un.acosh.fn x (1 / √(x * x - 1)) := by
  refine ⟨rfl, ?_, fun a => by simp [contribPlain, cUn]; rfl⟩
  have h' : 1 < x := h
  refine HasDerivAt.congr_deriv (f := Real.arcosh) (Real.hasDerivAt_arcosh h') ?_
  rw [one_div]; congr 2; ring
theorem un_atanh {x : ℝ} (h : Un.atanh.dom x) :
    UnSpec Arith.atanh .atanh Un.atanh.fn x (1 / (1 - x * x)) :=
  ⟨rfl, hasDerivAt_artanh h.1 h.2, fun a => by simp [contribPlain, cUn]; rfl⟩
theorem un_sqrt {x : ℝ} (h : Un.sqrt.dom x) : UnSpec Arith.sqrt .sqrt Un.sqrt.fn x (1 / 2 / √x) := by
  have h' : 0 < x := h
  refine ⟨rfl, ?_, fun a => ?_⟩
  · refine HasDerivAt.congr_deriv (f := fun x => √x) (Real.hasDerivAt_sqrt h'.ne') ?_
    rw [div_div]
  · simp [contribPlain, cAll, Un.fn]; ring
theorem un_inv {x : ℝ} (h : Un.inv.dom x) :
    UnSpec (fun x => one /. x) .inv Un.inv.fn x (-(1 / (x * x))) := by
  have h' : x ≠ 0 := h
  refine ⟨rfl, ?_, fun a => ?_⟩
  · have := hasDerivAt_inv h'
    have e : Un.inv.fn = fun y => y⁻¹ := by funext y; simp [Un.fn]
    rw [e]
    refine HasDerivAt.congr_deriv this ?_
    rw [one_div, pow_two]
  · simp [contribPlain, cUn]; field_simp
theorem un_square (x : ℝ) : UnSpec (fun x => x *. x) .sq Un.square.fn x (2 * x) := by
  refine ⟨?_, ?_, fun a => ?_⟩
  · simp [Un.fn]; ring
  · refine HasDerivAt.congr_deriv (f := fun x => x ^ 2) (hasDerivAt_pow 2 x) ?_
    simp
  · simp [contribPlain, cUn]; ring
theorem un_invSqrt {x : ℝ} (h : Un.invSqrt.dom x) :
    UnSpec (fun x => one /. sqrt x) .isqrt Un.invSqrt.fn x (-(1 / 2 / (x * √x))) := by
  have h' : 0 < x := h
  refine ⟨rfl, ?_, fun a => ?_⟩
  · have hs : √x ≠ 0 := (Real.sqrt_pos.mpr h').ne'
    have := (Real.hasDerivAt_sqrt h'.ne').inv hs
    have e : Un.invSqrt.fn = (fun y => √y)⁻¹ := by funext y; simp [Un.fn]
    rw [e]
    refine HasDerivAt.congr_deriv this ?_
    have h2 := Real.sq_sqrt h'.le
    field_simp
    rw [h2]
  · simp [contribPlain, cUn]; ring
theorem un_exp (x : ℝ) : UnSpec Arith.exp .exp Un.exp.fn x (Real.exp x) :=
  ⟨rfl, Real.hasDerivAt_exp x, fun a => by simp [contribPlain, cAll, Un.fn]⟩
theorem un_log {x : ℝ} (h : Un.log.dom x) : UnSpec Arith.log .log Un.log.fn x x⁻¹ := by
  have h' : 0 < x := h
  exact ⟨rfl, Real.hasDerivAt_log h'.ne', fun a => by simp [contribPlain, cUn]; rfl⟩
theorem un_logit {x : ℝ} (h : Un.logit.dom x) :
    UnSpec logitD .logit Un.logit.fn x (1 / (x - x * x)) := by
  have h' : 0 < x ∧ x < 1 := h
  have h3 : (1 - x) ≠ 0 := by linarith
  have h4 : x ≠ 0 := by linarith
  refine ⟨rfl, ?_, fun a => by simp [contribPlain, cUn]; rfl⟩
  have b : HasDerivAt (fun x : ℝ => 1 - x) (-1) x := by simpa using (hasDerivAt_id x).const_sub 1
  refine HasDerivAt.congr_deriv (f := fun x => Real.log (x / (1 - x)))
    (((hasDerivAt_id x).div b h3).log (div_ne_zero h4 h3)) ?_
  have h5 : x - x * x ≠ 0 := by
    have : x - x * x = x * (1 - x) := by ring
    rw [this]; exact mul_ne_zero h4 h3
  simp only [Pi.div_apply, id]
  field_simp
  ring

theorem logEpsilon_real : (logEpsilon : ℝ) = Real.log ((2:ℝ) ^ (-1022 : ℤ)) := rfl

theorem un_invLogit {x : ℝ} (h : Un.invLogit.dom x) :
    UnSpec invLogitD .invLogit Un.invLogit.fn x
      (1 / (1 + Real.exp (-x)) * (1 - 1 / (1 + Real.exp (-x)))) := by
  have hp : 0 < 1 + Real.exp (-x) := by positivity
  refine ⟨?_, ?_, fun a => ?_⟩
  · have h' : Real.log ((2:ℝ) ^ (-1022 : ℤ)) ≤ x := h
    unfold invLogitD
    by_cases h0 : x < 0
    · rw [if_pos (by simpa using h0)]
      simp only
      rw [if_neg (by rw [rFlt, logEpsilon_real]; linarith)]
      simp only [rDiv, rExp, rAdd, rOne, Un.fn]
      rw [Real.exp_neg]
      have := Real.exp_pos x
      field_simp
      ring
    · rw [if_neg (by simpa using h0)]
      rfl
  · have a : HasDerivAt (fun x : ℝ => 1 + Real.exp (-x)) (-Real.exp (-x)) x := by
      have := ((Real.hasDerivAt_exp (-x)).comp x (hasDerivAt_id x).neg).const_add 1
      simpa using this
    have := a.inv hp.ne'
    have e : Un.invLogit.fn = (fun x : ℝ => 1 + Real.exp (-x))⁻¹ := by funext y; simp [Un.fn]
    rw [e]
    refine HasDerivAt.congr_deriv this ?_
    field_simp
    ring
  · simp [contribPlain, cAll, Un.fn]
    ring
theorem un_erf (x : ℝ) :
    UnSpec Arith.erf .erf Un.erf.fn x (2 / √Real.pi * Real.exp (-(x * x))) := by
  refine ⟨erfR_eq x, ?_, fun a => ?_⟩
  · have e : Un.erf.fn = erfR := by funext y; exact (erfR_eq y).symm
    rw [e]; exact hasDerivAt_erfR x
  · simp [contribPlain, cUn, twoOverSqrtPi_real]; ring
theorem un_erfc (x : ℝ) :
    UnSpec Arith.erfc .erfc Un.erfc.fn x (-(2 / √Real.pi * Real.exp (-(x * x)))) := by
  refine ⟨?_, ?_, fun a => ?_⟩
  · show 1 - erfR x = _; rw [erfR_eq]; rfl
  · have e : Un.erfc.fn = fun x => 1 - erfR x := by funext y; rw [erfR_eq]; rfl
    rw [e]; exact (hasDerivAt_erfR x).const_sub 1
  · simp [contribPlain, cUn, twoOverSqrtPi_real]; ring

end Fz
