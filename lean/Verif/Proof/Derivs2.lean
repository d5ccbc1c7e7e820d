import Verif.Proof.Derivs

/-!
# The chain procedures of the binary functions are the partial derivatives
-/

set_option linter.unusedSectionVars false

namespace Fz
open Arith Spec

theorem UnSpec.congr {mf : ℝ → ℝ} {c : Chain} {f f' : ℝ → ℝ} {x k : ℝ} (h : UnSpec mf c f x k)
    (he : f' =ᶠ[nhds x] f) : UnSpec mf c f' x k := by
  have hx : f' x = f x := he.eq_of_nhds
  exact ⟨by rw [hx]; exact h.value, h.deriv.congr_of_eventuallyEq he, by rw [hx]; exact h.loc⟩

/-- a function of two operands: the model's value is the mathematical one, and the chain procedure
passes on the partial derivatives -/
structure BinSpec (mf : ℝ → ℝ → ℝ) (c : Chain) (φ : ℝ → ℝ → ℝ) (x y k1 k2 : ℝ) : Prop where
  value : mf x y = φ x y
  deriv : HasFDerivAt (fun p : ℝ × ℝ => φ p.1 p.2)
    (k1 • ContinuousLinearMap.fst ℝ ℝ ℝ + k2 • ContinuousLinearMap.snd ℝ ℝ ℝ) (x, y)
  loc : ∃ coefs, Local c (φ x y) [x, y] [] coefs ∧ (coefs = [k1, k2] ∨ coefs = [] ∧ k1 = 0 ∧ k2 = 0)

theorem BinSpec.full {mf : ℝ → ℝ → ℝ} {c : Chain} {φ : ℝ → ℝ → ℝ} {x y k1 k2 : ℝ} (hv : mf x y = φ x y)
    (hd : HasFDerivAt (fun p : ℝ × ℝ => φ p.1 p.2)
      (k1 • ContinuousLinearMap.fst ℝ ℝ ℝ + k2 • ContinuousLinearMap.snd ℝ ℝ ℝ) (x, y))
    (hl : Local c (φ x y) [x, y] [] [k1, k2]) : BinSpec mf c φ x y k1 k2 :=
  ⟨hv, hd, _, hl, Or.inl rfl⟩

/-- a function of one operand with one stored real -/
structure DatSpec (mf : ℝ → ℝ) (d : ℝ) (c : Chain) (φ : ℝ → ℝ) (x k : ℝ) : Prop where
  value : mf x = φ x
  deriv : HasDerivAt φ k x
  loc : ∃ coefs, Local c (φ x) [x] [d] coefs ∧ (coefs = [k] ∨ coefs = [] ∧ k = 0)

theorem hfst (x y : ℝ) : HasFDerivAt (fun p : ℝ × ℝ => p.1) (ContinuousLinearMap.fst ℝ ℝ ℝ) (x, y) :=
  hasFDerivAt_fst
theorem hsnd (x y : ℝ) : HasFDerivAt (fun p : ℝ × ℝ => p.2) (ContinuousLinearMap.snd ℝ ℝ ℝ) (x, y) :=
  hasFDerivAt_snd

theorem bin_add (x y : ℝ) : BinSpec Arith.add .addVV Bin.add.fn x y 1 1 := by
  refine .full rfl ?_ fun a => by simp [contribPlain, cAll]
  rw [one_smul, one_smul]
  exact (hfst x y).add (hsnd x y)

theorem bin_sub (x y : ℝ) : BinSpec Arith.sub .subVV Bin.sub.fn x y 1 (-1) := by
  refine .full rfl ?_ fun a => by simp [contribPlain, cAll]
  refine HasFDerivAt.congr_fderiv (f := fun p : ℝ × ℝ => p.1 - p.2) ((hfst x y).sub (hsnd x y)) ?_
  ext <;> simp

theorem bin_mul (x y : ℝ) : BinSpec Arith.mul .mulVV Bin.mul.fn x y y x := by
  refine .full rfl ?_ fun a => by simp [contribPlain, cBin]; exact ⟨mul_comm _ _, mul_comm _ _⟩
  refine HasFDerivAt.congr_fderiv (f := fun p : ℝ × ℝ => p.1 * p.2) ((hfst x y).fun_mul (hsnd x y)) ?_
  rw [add_comm]

theorem bin_div {x y : ℝ} (h : Bin.div.domVV x y) :
    BinSpec Arith.div .divVV Bin.div.fn x y (1 / y) (-(x / y / y)) := by
  have h' : y ≠ 0 := h
  refine .full rfl ?_ fun a => ?_
  · have hi : HasFDerivAt (fun p : ℝ × ℝ => p.2⁻¹)
        ((-(y ^ 2)⁻¹) • ContinuousLinearMap.snd ℝ ℝ ℝ) (x, y) :=
      (hasDerivAt_inv (x := y) h').comp_hasFDerivAt (f := fun p : ℝ × ℝ => p.2) (x, y) (hsnd x y)
    refine HasFDerivAt.congr_fderiv (f := fun p : ℝ × ℝ => p.1 / p.2) (f' := ?_) ?_ ?_
    rotate_left
    · simp only [div_eq_mul_inv]
      exact (hfst x y).fun_mul hi
    · simp only
      rw [smul_smul, add_comm, one_div]
      congr 2
      field_simp
  · simp [contribPlain, cBin, Bin.fn]
    constructor <;> ring

/-- at base 0 and an exponent beyond 1 the power is differentiable in both arguments, with derivative 0 -/
theorem pow_at_zero {y : ℝ} (h : 1 < y) :
    HasFDerivAt (fun p : ℝ × ℝ => p.1 ^ p.2) (0 : ℝ × ℝ →L[ℝ] ℝ) (0, y) := by
  obtain ⟨q, h1, h2⟩ := exists_between h
  rw [hasFDerivAt_iff_isLittleO_nhds_zero]
  have h0 : (0:ℝ) ^ y = 0 := Real.zero_rpow (by linarith)
  have hb : (fun p : ℝ × ℝ => ((0, y) + p).1 ^ ((0, y) + p).2 - (0, y).1 ^ (0, y).2 - (0 : ℝ × ℝ →L[ℝ] ℝ) p) =O[nhds 0]
      fun p => ‖p‖ ^ q := by
    refine Asymptotics.IsBigO.of_bound 1 ?_
    have hy : ∀ᶠ p : ℝ × ℝ in nhds 0, q < y + p.2 := by
      have : Continuous fun p : ℝ × ℝ => y + p.2 := by fun_prop
      exact this.continuousAt.eventually_const_lt (by simpa using h2)
    have hx : ∀ᶠ p : ℝ × ℝ in nhds 0, |p.1| < 1 := by
      have : Continuous fun p : ℝ × ℝ => |p.1| := by fun_prop
      exact this.continuousAt.eventually_lt_const (by simp)
    filter_upwards [hy, hx] with p py px
    simp only [Prod.fst_add, Prod.snd_add, zero_add, h0, sub_zero, ContinuousLinearMap.zero_apply, one_mul,
      Real.norm_eq_abs]
    rw [abs_of_nonneg (Real.rpow_nonneg (norm_nonneg p) q)]
    calc |p.1 ^ (y + p.2)| ≤ |p.1| ^ (y + p.2) := Real.abs_rpow_le_abs_rpow _ _
      _ ≤ |p.1| ^ q := by
        rcases (abs_nonneg p.1).eq_or_lt with h | h
        · rw [← h, Real.zero_rpow (by linarith), Real.zero_rpow (by linarith)]
        · exact Real.rpow_le_rpow_of_exponent_ge h px.le py.le
      _ ≤ ‖p‖ ^ q := Real.rpow_le_rpow (abs_nonneg _) (by simpa using norm_fst_le p) (by linarith)
  refine hb.trans_isLittleO ?_
  have hq : (fun p : ℝ × ℝ => ‖p‖ ^ q) = fun p => ‖p‖ ^ (q - 1) * ‖p‖ := by
    funext p
    rcases (norm_nonneg p).eq_or_lt with h | h
    · rw [← h, mul_zero, Real.zero_rpow (by linarith)]
    · rw [Real.rpow_sub_one h.ne']
      field_simp
  rw [hq]
  refine Asymptotics.IsLittleO.of_norm_right ?_
  have : (fun p : ℝ × ℝ => ‖p‖ ^ (q - 1)) =o[nhds 0] fun _ => (1:ℝ) := by
    rw [Asymptotics.isLittleO_one_iff]
    have hc : ContinuousAt (fun p : ℝ × ℝ => ‖p‖ ^ (q - 1)) 0 :=
      continuous_norm.continuousAt.rpow_const (Or.inr (by linarith))
    have := hc.tendsto
    simpa [Real.zero_rpow (show q - 1 ≠ 0 by linarith)] using this
  simpa using this.mul_isBigO (Asymptotics.isBigO_refl (fun p : ℝ × ℝ => ‖p‖) (nhds 0))

theorem bin_pow {x y : ℝ} (h : Bin.pow.domVV x y) :
    BinSpec Arith.pow .powVV Bin.pow.fn x y (y * x ^ (y - 1)) (x ^ y * Real.log x) := by
  rcases h with h' | ⟨rfl, h1⟩
  · refine .full rfl (Real.hasStrictFDerivAt_rpow_of_pos (x, y) h').hasFDerivAt fun a => ?_
    have e : fne x zero = true := by simp [h'.ne']
    simp only [contribPlain, cBin, e, if_true, Bin.fn, rMul, rDiv, rLog, List.map_cons, List.map_nil]
    rw [Real.rpow_sub_one h'.ne']
    congr 2
    · ring
    · congr 1; ring
  · have k1 : y * (0:ℝ) ^ (y - 1) = 0 := by rw [Real.zero_rpow (by linarith), mul_zero]
    have k2 : (0:ℝ) ^ y * Real.log 0 = 0 := by rw [Real.log_zero, mul_zero]
    refine ⟨rfl, ?_, [], fun a => ?_, Or.inr ⟨rfl, k1, k2⟩⟩
    · rw [k1, k2, zero_smul, zero_smul, add_zero]
      exact pow_at_zero h1
    · have e : ¬ fne (0:ℝ) zero = true := by simp
      simp only [contribPlain, cBin, e]
      rfl

theorem bin_hypot {x y : ℝ} (h : Bin.hypot.domVV x y) :
    BinSpec Arith.hypot .hypot Bin.hypot.fn x y (x / √(x ^ 2 + y ^ 2)) (y / √(x ^ 2 + y ^ 2)) := by
  have h' : x ≠ 0 ∨ y ≠ 0 := h
  have hp : 0 < x ^ 2 + y ^ 2 := by
    rcases h' with h | h
    · have := sq_nonneg y; have : 0 < x ^ 2 := by positivity
      linarith
    · have := sq_nonneg x; have : 0 < y ^ 2 := by positivity
      linarith
  refine .full rfl ?_ fun a => ?_
  · have h2 := ((hfst x y).pow 2).add ((hsnd x y).pow 2)
    have h3 := HasFDerivAt.sqrt h2 (by simpa using hp.ne')
    refine HasFDerivAt.congr_fderiv (f := fun p : ℝ × ℝ => √(p.1 ^ 2 + p.2 ^ 2)) h3 ?_
    simp only [Pi.add_apply]
    rw [smul_add, smul_smul, smul_smul]
    simp only [Nat.add_one_sub_one, pow_one]
    congr 1
    · congr 1
      simp; field_simp
    · congr 1
      simp; field_simp
  · simp [contribPlain, Bin.fn]
    constructor <;> ring

/-! variable and real -/

theorem vd_add (x d : ℝ) : UnSpec (fun x => x +. d) .addVD (fun x => Bin.add.fn x d) x 1 :=
  ⟨rfl, (hasDerivAt_id x).add_const d, fun a => by simp [contribPlain, cAll]⟩
theorem dv_add (x d : ℝ) : UnSpec (fun x => d +. x) .addVD (fun x => Bin.add.fn d x) x 1 :=
  ⟨rfl, (hasDerivAt_id x).const_add d, fun a => by simp [contribPlain, cAll]⟩
theorem vd_sub (x d : ℝ) : UnSpec (fun x => x -. d) .subVD (fun x => Bin.sub.fn x d) x 1 :=
  ⟨rfl, (hasDerivAt_id x).sub_const d, fun a => by simp [contribPlain, cAll]⟩
theorem dv_sub (x d : ℝ) : UnSpec (fun x => d -. x) .subDV (fun x => Bin.sub.fn d x) x (-1) :=
  ⟨rfl, (hasDerivAt_id x).const_sub d, fun a => by simp [contribPlain, cAll]⟩
theorem vd_mul (x d : ℝ) : DatSpec (fun x => x *. d) d .mulVD (fun x => Bin.mul.fn x d) x d := by
  refine ⟨rfl, ?_, [d], fun a => by simp [contribPlain, cDat, cAll], Or.inl rfl⟩
  have := (hasDerivAt_id x).mul_const d
  simpa [Bin.fn] using this
theorem dv_mul (x d : ℝ) : DatSpec (fun x => x *. d) d .mulVD (fun x => Bin.mul.fn d x) x d := by
  refine ⟨by simp [Bin.fn, mul_comm], ?_, [d], fun a => by simp [contribPlain, cDat, cAll], Or.inl rfl⟩
  have := (hasDerivAt_id x).const_mul d
  simpa [Bin.fn] using this
theorem vd_div (x d : ℝ) : DatSpec (fun x => x /. d) d .divVD (fun x => Bin.div.fn x d) x (1 / d) := by
  refine ⟨rfl, ?_, [1 / d], fun a => by simp [contribPlain, cDat, cAll, div_eq_mul_inv], Or.inl rfl⟩
  have := (hasDerivAt_id x).div_const d
  simpa [Bin.fn] using this
theorem dv_div {x d : ℝ} (h : x ≠ 0) :
    DatSpec (fun x => d /. x) d .divDV (fun x => Bin.div.fn d x) x (-(d / x / x)) := by
  refine ⟨rfl, ?_, [-(d / x / x)], fun a => ?_, Or.inl rfl⟩
  · have := (hasDerivAt_inv h).const_mul d
    have e : (fun x => Bin.div.fn d x) = fun y => d * y⁻¹ := by funext y; simp [Bin.fn, div_eq_mul_inv]
    rw [e]
    refine this.congr_deriv ?_
    field_simp
  · simp [contribPlain, cUn, Bin.fn]; ring

theorem vd_pow {x d : ℝ} (h : x ≠ 0 ∨ x = 0 ∧ (d = 0 ∨ 1 < d)) :
    DatSpec (fun x => Arith.pow x d) d .powVD (fun x => Bin.pow.fn x d) x (d * x ^ (d - 1)) := by
  refine ⟨rfl, ?_, ?_⟩
  · rcases h with h | ⟨h0, h | h⟩
    · exact Real.hasDerivAt_rpow_const (Or.inl h)
    · subst h
      simpa [Bin.fn] using hasDerivAt_const x (1:ℝ)
    · exact Real.hasDerivAt_rpow_const (Or.inr h.le)
  · rcases h with h | ⟨h0, h1⟩
    · refine ⟨[d * x ^ (d - 1)], fun a => ?_, Or.inl rfl⟩
      have e : fne x zero = true := by simp [h]
      simp only [contribPlain, e, if_true, Bin.fn, rMul, rDiv, List.map_cons, List.map_nil]
      rw [Real.rpow_sub_one h]
      congr 2
      ring
    · refine ⟨[], fun a => ?_, Or.inr ⟨rfl, ?_⟩⟩
      · have e : ¬ fne x zero = true := by simp [h0]
        simp only [contribPlain, e]
        rfl
      · rcases h1 with rfl | h1
        · rw [zero_mul]
        · rw [h0, Real.zero_rpow (by linarith), mul_zero]

theorem dv_pow {x d : ℝ} (h : 0 < d ∨ d = 0 ∧ 0 < x) :
    DatSpec (fun x => Arith.pow d x) d .powDV (fun x => Bin.pow.fn d x) x (d ^ x * Real.log d) := by
  rcases h with h | ⟨h0, h1⟩
  · refine ⟨rfl, (Real.hasStrictDerivAt_const_rpow h x).hasDerivAt, [d ^ x * Real.log d], fun a => ?_,
      Or.inl rfl⟩
    have e : fne d zero = true := by simp [h.ne']
    simp only [contribPlain, e, if_true, Bin.fn, rMul, rLog, List.map_cons, List.map_nil, cAll,
      List.length_cons, List.length_nil, Nat.zero_add, Nat.le_refl]
    congr 2
    ring
  · refine ⟨rfl, ?_, [], fun a => ?_, Or.inr ⟨rfl, by rw [h0]; simp⟩⟩
    · subst h0
      rw [Real.log_zero, mul_zero]
      refine (hasDerivAt_const x (0:ℝ)).congr_of_eventuallyEq ?_
      filter_upwards [lt_mem_nhds h1] with y hy
      exact Real.zero_rpow hy.ne'
    · have e : ¬ fne d zero = true := by simp [h0]
      simp only [contribPlain, e]
      rfl

theorem vd_hypot {x d : ℝ} (h : d ≠ 0) :
    UnSpec (fun x => Arith.hypot x d) .hypot (fun x => Bin.hypot.fn x d) x (x / √(x ^ 2 + d ^ 2)) := by
  have hp : 0 < x ^ 2 + d ^ 2 := by
    have := sq_nonneg x; have : 0 < d ^ 2 := by positivity
    linarith
  refine ⟨rfl, ?_, fun a => by simp [contribPlain, Bin.fn]; ring⟩
  have h1 := ((hasDerivAt_pow 2 x).add_const (d ^ 2)).sqrt hp.ne'
  refine HasDerivAt.congr_deriv (f := fun x => √(x ^ 2 + d ^ 2)) h1 ?_
  simp
  field_simp

theorem dv_hypot {x d : ℝ} (h : d ≠ 0) :
    UnSpec (fun x => Arith.hypot x d) .hypot (fun x => Bin.hypot.fn d x) x (x / √(x ^ 2 + d ^ 2)) := by
  have e : (fun x => Bin.hypot.fn d x) = fun x => Bin.hypot.fn x d := by
    funext y; simp only [Bin.fn]; rw [add_comm]
  rw [e]; exact vd_hypot h

/-! special exponents -/

theorem vd_pow_half {x : ℝ} (h : 0 < x) :
    UnSpec Arith.sqrt .sqrt (fun x => Bin.pow.fn x (1 / 2)) x (1 / 2 / √x) := by
  refine (un_sqrt (x := x) h).congr (Filter.Eventually.of_forall fun y => ?_)
  exact (Real.sqrt_eq_rpow y).symm
theorem vd_pow_two (x : ℝ) : UnSpec (fun x => x *. x) .sq (fun x => Bin.pow.fn x 2) x (2 * x) :=
  (un_square x).congr (Filter.Eventually.of_forall fun y => Real.rpow_two y)
theorem vd_pow_neg_one {x : ℝ} (h : x ≠ 0) :
    UnSpec (fun x => one /. x) .inv (fun x => Bin.pow.fn x (-1)) x (-(1 / (x * x))) := by
  refine (un_inv (x := x) h).congr (Filter.Eventually.of_forall fun y => ?_)
  show y ^ (-1 : ℝ) = 1 / y
  rw [Real.rpow_neg_one, one_div]
theorem vd_pow_neg_half {x : ℝ} (h : 0 < x) :
    UnSpec (fun x => one /. sqrt x) .isqrt (fun x => Bin.pow.fn x (-(1 / 2))) x (-(1 / 2 / (x * √x))) := by
  refine (un_invSqrt (x := x) h).congr ?_
  filter_upwards [lt_mem_nhds h] with y hy
  show y ^ (-(1 / 2) : ℝ) = 1 / √y
  rw [Real.rpow_neg hy.le, ← Real.sqrt_eq_rpow, one_div]

end Fz
