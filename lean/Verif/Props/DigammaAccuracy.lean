import Verif.Proof.DigammaNear
import Verif.Props.Digamma
import Mathlib.NumberTheory.Harmonic.GammaDeriv

/-!
# C64: how close `digamma` is to the derivative of `log |Γ|`

Over the reals: this is about the approximations and their constants, not about rounding.
-/

namespace Props
open Fz Spec Real Fz.Pol

/-- `d` is the derivative of the logarithm of the gamma function at `x` -/
def IsPsi (x d : ℝ) : Prop := HasDerivAt (fun t => log |Gamma t|) d x

theorem dgPos_near {x : ℝ} (h0 : 0 ≤ x) (h : x ≤ 3) : dgPos x 0 = Psi.K x := by
  have e : dgPos x 0 =
      ((((((((45104681245762934160 / 10 ^ 22 * x + 54932855833000385356 / 10 ^ 19) * x + 37646693175929276856 / 10 ^
      17) * x + 79525490849151998065 / 10 ^ 16) * x + 71451595818951933210 / 10 ^ 15) * x + 30655976301987365674 / 10
      ^ 14) * x + 63606997788964458797 / 10 ^ 14) * x + 58041312783537569993 / 10 ^ 14) * x + 16585695029761022321 /
      10 ^ 14) /
      ((((((((x + 96141654774222358525 / 10 ^ 18) * x + 26287715790581193330 / 10 ^ 16) * x + 29862497022250277920 /
      10 ^ 15) * x + 16206566091533671639 / 10 ^ 14) * x + 43487880712768329037 / 10 ^ 14) * x + 54256384537269993733
      / 10 ^ 14) * x + 24242185002017985252 / 10 ^ 14) * x + 64155223783576225996 / 10 ^ 27) *
      (x - 187 / 128 - 69464496836234126266 / 10 ^ 23) := by
    have h3 : (Arith.lit 3 0 : ℝ) = 3 := by simp [Arith.lit]
    have : fgt x (Arith.lit 3 0) = false := by rw [h3]; simp [fgt, Arith.flt, h]
    unfold dgPos
    rw [this]
    simp only [Bool.false_eq_true, if_false, dgQ1, dgP1, List.take_succ_cons, List.take_zero, List.drop_succ_cons, List.drop_zero,
      dgAt, List.getD_cons_zero, List.getD_cons_succ, Nat.reduceSub, dgHorner, List.foldl_cons, List.foldl_nil, dgX01, dgX01D, dgX02, Arith.add, Arith.mul, Arith.div, Arith.sub, Arith.lit]
    norm_num [zpow_neg]
  have hQ : ((((((((x + 96141654774222358525 / 10 ^ 18) * x + 26287715790581193330 / 10 ^ 16) * x + 29862497022250277920 /
        10 ^ 15) * x + 16206566091533671639 / 10 ^ 14) * x + 43487880712768329037 / 10 ^ 14) * x +
        54256384537269993733 / 10 ^ 14) * x + 24242185002017985252 / 10 ^ 14) * x + 64155223783576225996 / 10 ^ 27) = ev Psi.Q x / (128 * 10 ^ 50) := by
    simp only [Psi.Q, ev]
    push_cast
    ring
  have hP : ((((((((45104681245762934160 / 10 ^ 22 * x + 54932855833000385356 / 10 ^ 19) * x + 37646693175929276856 / 10 ^
        17) * x + 79525490849151998065 / 10 ^ 16) * x + 71451595818951933210 / 10 ^ 15) * x + 30655976301987365674 /
        10 ^ 14) * x + 63606997788964458797 / 10 ^ 14) * x + 58041312783537569993 / 10 ^ 14) * x +
        16585695029761022321 / 10 ^ 14) *
      (x - 187 / 128 - 69464496836234126266 / 10 ^ 23) = ev Psi.P x / (128 * 10 ^ 50) := by
    simp only [Psi.P, ev]
    push_cast
    ring
  rw [e, div_mul_eq_mul_div, hP, hQ, div_div_div_cancel_right₀ (by norm_num)]
  rfl

theorem dgPos_far {x : ℝ} (h : 3 < x) (h1 : x < 204 * 10 ^ 13) : dgPos x 0 = Psi.G x := by
  obtain ⟨w, hw⟩ : ∃ w, w = 1 / (x * x) := ⟨_, rfl⟩
  have e : dgPos x 0 =
      ((((((-27103228277757834192 / 10 ^ 19 * w + (-15166271776896121383 / 10 ^ 18)) * w + (-19784554148719218667 / 10
      ^ 18)) * w + (-88100958828312219821 / 10 ^ 19)) * w + (-14479614616899842986 / 10 ^ 19)) * w +
      (-73689600332394549911 / 10 ^ 21)) * w + (-65135387732718171306 / 10 ^ 40)) /
      ((((((w + 44992760373789365846 / 10 ^ 18) * w + 20240955312679931159 / 10 ^ 17) * w + 24736979003315290057 / 10
      ^ 17) * w + 10742543875702278326 / 10 ^ 17) * w + 17463965060678569906 / 10 ^ 18) * w + 88427520398873480342 /
      10 ^ 20) - 1 / 2 / x + 0 + log x := by
    have h3 : (Arith.lit 3 0 : ℝ) = 3 := by simp [Arith.lit]
    have c1 : fgt x (Arith.lit 3 0) = true := by rw [h3]; simp [fgt, Arith.flt, h]
    have hl : (dgXlarge : ℝ) = 204 * 10 ^ 13 := by simp only [dgXlarge, Arith.lit]; norm_num
    have c2 : Arith.flt x dgXlarge = true := by rw [hl]; simp [Arith.flt, h1]
    unfold dgPos
    rw [c1, c2]
    simp only [if_true, dgQ2, dgP2, List.take_succ_cons, List.take_zero, List.drop_succ_cons, List.drop_zero,
      dgAt, List.getD_cons_zero, List.getD_cons_succ, Nat.reduceSub, dgHorner, List.foldl_cons, List.foldl_nil, Arith.add, Arith.mul, Arith.div, Arith.sub, Arith.lit, Arith.one, Arith.half,
      Arith.log, ← hw]
    norm_num [zpow_neg]
  have hx : x ≠ 0 := by linarith
  have hV : ((((((w + 44992760373789365846 / 10 ^ 18) * w + 20240955312679931159 / 10 ^ 17) * w + 24736979003315290057 /
        10 ^ 17) * w + 10742543875702278326 / 10 ^ 17) * w + 17463965060678569906 / 10 ^ 18) * w +
        88427520398873480342 / 10 ^ 20) = ev Psi.V x / (10 ^ 40 * x ^ 12) := by
    rw [show ev Psi.V x = ev Psi.B (x ^ 2) from ev_even x Psi.B, hw]
    simp only [Psi.B, ev]
    push_cast
    field_simp
    ring
  have hU : ((((((-27103228277757834192 / 10 ^ 19 * w + (-15166271776896121383 / 10 ^ 18)) * w + (-19784554148719218667 /
        10 ^ 18)) * w + (-88100958828312219821 / 10 ^ 19)) * w + (-14479614616899842986 / 10 ^ 19)) * w +
        (-73689600332394549911 / 10 ^ 21)) * w + (-65135387732718171306 / 10 ^ 40)) = ev Psi.U x / (10 ^ 40 * x ^ 12) := by
    rw [show ev Psi.U x = ev Psi.A (x ^ 2) from ev_even x Psi.A, hw]
    simp only [Psi.A, ev]
    push_cast
    field_simp
    ring
  rw [e, hU, hV, div_div_div_cancel_right₀ (by positivity)]
  simp only [Psi.G]
  field_simp
  ring

theorem dgPos_huge {x : ℝ} (h : 204 * 10 ^ 13 ≤ x) : dgPos x 0 = log x := by
  have h3 : (Arith.lit 3 0 : ℝ) = 3 := by simp [Arith.lit]
  have c1 : fgt x (Arith.lit 3 0) = true := by
    rw [h3]
    simp only [fgt, Arith.flt, decide_eq_true_eq]
    norm_num at h ⊢
    linarith
  have hl : (dgXlarge : ℝ) = 204 * 10 ^ 13 := by simp only [dgXlarge, Arith.lit]; norm_num
  have c2 : Arith.flt x dgXlarge = false := by rw [hl]; simpa [Arith.flt] using h
  unfold dgPos
  rw [c1, c2]
  simp [Arith.add, Arith.log]

theorem isPsi {x : ℝ} (hx : ∀ m : ℕ, x ≠ -m) : IsPsi x (Psi.psi x) := Psi.psi_hasDerivAt hx

theorem psi_near {x : ℝ} (h1 : 1 / 2 ≤ x) (h2 : x < 204 * 10 ^ 13) : |digamma x - Psi.psi x| ≤ 3 / 10 ^ 17 := by
  rw [digamma_right h1]
  by_cases h : x ≤ 3
  · rw [dgPos_near (by linarith) h]
    exact Psi.K_close h1 h
  · rw [dgPos_far (not_le.mp h) h2]
    refine (Psi.G_closer (not_le.mp h).le).trans ?_
    norm_num

theorem psi_huge {x : ℝ} (h : 204 * 10 ^ 13 ≤ x) : |digamma x - Psi.psi x| ≤ 1 / x := by
  have h0 : 0 < x := by norm_num at h; linarith
  rw [digamma_right (by norm_num at h ⊢; linarith), dgPos_huge h, abs_le]
  have := Psi.psi_le_log h0
  have := Psi.log_le_psi h0
  have : 0 < 1 / x := by positivity
  constructor <;> linarith

theorem psi_right {x : ℝ} (h : 1 / 2 ≤ x) : |digamma x - Psi.psi x| ≤ 5 / 10 ^ 16 := by
  by_cases h2 : x < 204 * 10 ^ 13
  · refine (psi_near h h2).trans ?_
    norm_num
  · refine (psi_huge (not_lt.mp h2)).trans ?_
    refine (one_div_le_one_div_of_le (by norm_num) (not_lt.mp h2)).trans ?_
    norm_num

/-- **C64**, from 1/2 to `2.04e15`: the error is at most `3e-17`. -/
theorem C64_right {x : ℝ} (h1 : 1 / 2 ≤ x) (h2 : x < 204 * 10 ^ 13) :
    ∃ d, IsPsi x d ∧ |digamma x - d| ≤ 3 / 10 ^ 17 :=
  ⟨_, isPsi (Psi.pos_ne (by linarith)), psi_near h1 h2⟩

/-- **C64**, beyond `2.04e15`, where the logarithm is taken: the error is at most `1/x`. -/
theorem C64_huge {x : ℝ} (h : 204 * 10 ^ 13 ≤ x) : ∃ d, IsPsi x d ∧ |digamma x - d| ≤ 1 / x :=
  ⟨_, isPsi (Psi.pos_ne (by norm_num at h; linarith)), psi_huge h⟩

/-- **C64**, left of 1/2, away from 0 and from the poles: the error is at most `5e-16` and `1e-19` of the cotangent term. -/
theorem C64_left {x : ℝ} (h1 : -(36 * 10 ^ 15) < x) (h2 : x < 1 / 2) (h3 : 205 / 10 ^ 11 < |x|)
    (hx : ¬ ∃ n : ℤ, x = n) :
    ∃ d, IsPsi x d ∧ |digamma x - d| ≤ 5 / 10 ^ 16 + 1 / 10 ^ 19 * |π * cot (π * x)| := by
  refine ⟨_, isPsi fun m h => hx ⟨-m, by push_cast; exact h⟩, ?_⟩
  obtain ⟨ε, he, e⟩ := C32_reflection h1 h2 h3 hx
  rw [e, Psi.psi_reflect hx]
  have h := psi_right (x := 1 - x) (by linarith)
  have t := abs_sub (digamma (1 - x) - Psi.psi (1 - x)) (ε * (π * cot (π * x)))
  rw [abs_mul] at t
  have hm := mul_le_mul_of_nonneg_right he (abs_nonneg (π * cot (π * x)))
  have e2 : digamma (1 - x) - (1 + ε) * (π * cot (π * x)) - (Psi.psi (1 - x) - π * cot (π * x)) =
      digamma (1 - x) - Psi.psi (1 - x) - ε * (π * cot (π * x)) := by ring
  rw [e2]
  linarith

theorem cot_near {t : ℝ} (h0 : 0 < t) (h1 : t ≤ 1) : |1 / t - cot t| ≤ t := by
  have hpi := pi_gt_three
  have hs : 0 < sin t := sin_pos_of_pos_of_lt_pi h0 (by linarith)
  have a : sin t ≤ t := sin_le h0.le
  have b := one_sub_sq_div_two_le_cos (x := t)
  have c : t * cos t ≤ sin t := by
    have hc : 0 < cos t := cos_pos_of_mem_Ioo ⟨by linarith, by linarith⟩
    have := lt_tan h0 (by linarith : t < π / 2)
    rw [tan_eq_sin_div_cos, lt_div_iff₀ hc] at this
    linarith
  have d : t / 2 ≤ sin t := by
    have := mul_le_sin h0.le (by linarith : t ≤ π / 2)
    refine le_trans ?_ this
    have : 1 / 2 ≤ 2 / π := by
      rw [div_le_div_iff₀ (by norm_num) pi_pos]
      linarith [pi_lt_d2]
    nlinarith
  rw [cot_eq_cos_div_sin, div_sub_div _ _ h0.ne' hs.ne', abs_div, abs_of_pos (mul_pos h0 hs), div_le_iff₀ (mul_pos h0 hs),
    abs_of_nonneg (by linarith)]
  nlinarith [mul_le_mul_of_nonneg_left d (mul_pos h0 h0).le, mul_le_mul_of_nonneg_left b h0.le]

theorem cot_small {x : ℝ} (h0 : x ≠ 0) (h1 : |x| ≤ 1 / 4) : |1 / x - π * cot (π * x)| ≤ 10 * |x| := by
  have hpi := pi_pos
  have hp2 : π * π ≤ 10 := by nlinarith [pi_lt_d2]
  have key : ∀ y : ℝ, 0 < y → y ≤ 1 / 4 → |1 / y - π * cot (π * y)| ≤ 10 * y := by
    intro y hy hy1
    have h := cot_near (t := π * y) (by positivity) (by nlinarith [pi_lt_d2])
    have e : 1 / y - π * cot (π * y) = π * (1 / (π * y) - cot (π * y)) := by
      field_simp
    rw [e, abs_mul, abs_of_pos hpi]
    nlinarith
  rcases lt_or_gt_of_ne h0 with h | h
  · have := key (-x) (by linarith) (by rwa [abs_of_neg h] at h1)
    rw [abs_of_neg h]
    have e : 1 / x - π * cot (π * x) = -(1 / -x - π * cot (π * -x)) := by
      rw [mul_neg, cot_eq_cos_div_sin, cot_eq_cos_div_sin, cos_neg, sin_neg, div_neg, div_neg]
      ring
    rw [e, abs_neg]
    exact this
  · have := key x h (by rwa [abs_of_pos h] at h1)
    rwa [abs_of_pos h]

/-- **C64**, next to the pole at 0: the relative error is at most `1e-16`. -/
theorem C64_small {x : ℝ} (h1 : 589 / 10 ^ 41 ≤ |x|) (h2 : |x| ≤ 205 / 10 ^ 11) :
    ∃ d, IsPsi x d ∧ |digamma x - d| ≤ 1 / 10 ^ 16 * |d| := by
  have h0 : x ≠ 0 := by
    rintro rfl
    norm_num at h1
  have hl := abs_le.mp h2
  norm_num at hl
  have hx : ¬ ∃ n : ℤ, x = n := by
    rintro ⟨n, rfl⟩
    have a : ((-1 : ℤ) : ℝ) < n := by push_cast; linarith
    have b : (n : ℝ) < ((1 : ℤ) : ℝ) := by push_cast; linarith
    have a' : -1 < n := by exact_mod_cast a
    have b' : n < 1 := by exact_mod_cast b
    obtain rfl : n = 0 := by omega
    simp at h0
  refine ⟨_, isPsi fun m h => hx ⟨-m, by push_cast; exact h⟩, ?_⟩
  have e := C32_reflection_small h1 h2
  have r := Psi.psi_reflect hx
  have n := psi_near (x := 1 - x) (by linarith) (by norm_num; linarith)
  have c := cot_small h0 (h2.trans (by norm_num))
  have hd : |digamma x - Psi.psi x| ≤ 3 / 10 ^ 17 + 10 * |x| := by
    have t := abs_sub (digamma (1 - x) - Psi.psi (1 - x)) (1 / x - π * cot (π * x))
    have e2 : digamma x - Psi.psi x = digamma (1 - x) - Psi.psi (1 - x) - (1 / x - π * cot (π * x)) := by
      rw [e, r]
      ring
    rw [e2]
    linarith
  have hxp : 0 < |x| := abs_pos.mpr h0
  -- `ψ` itself is large there
  have p1 : |Psi.psi (1 - x)| ≤ 10 := by
    have u := Psi.psi_le_log (x := 1 - x) (by linarith)
    have v := Psi.log_le_psi (x := 1 - x) (by linarith)
    have w := log_le_sub_one_of_pos (x := 1 - x) (by linarith)
    have z := one_sub_inv_le_log_of_pos (x := 1 - x) (by linarith)
    have y : 1 / (1 - x) ≤ 2 := by
      rw [div_le_iff₀ (by linarith)]
      linarith
    rw [← one_div] at z
    rw [abs_le]
    constructor <;> linarith
  have big : 1 / |x| - 11 ≤ |Psi.psi x| := by
    have e2 : 1 / x = (1 / x - π * cot (π * x)) + Psi.psi (1 - x) - Psi.psi x := by rw [r]; ring
    have t1 : |1 / x| ≤ |1 / x - π * cot (π * x)| + |Psi.psi (1 - x)| + |Psi.psi x| := by
      have t := abs_sub ((1 / x - π * cot (π * x)) + Psi.psi (1 - x)) (Psi.psi x)
      rw [← e2] at t
      have t2 := abs_add_le (1 / x - π * cot (π * x)) (Psi.psi (1 - x))
      linarith
    rw [abs_div, abs_one] at t1
    have : 10 * |x| ≤ 1 := by
      norm_num at h2
      linarith
    linarith
  have lb : 4 * 10 ^ 8 ≤ 1 / |x| - 11 := by
    have : 1 / (205 / 10 ^ 11) ≤ 1 / |x| := one_div_le_one_div_of_le hxp h2
    norm_num at this ⊢
    linarith
  have f : 3 / 10 ^ 17 + 10 * |x| ≤ 1 / 10 ^ 16 * (4 * 10 ^ 8) := by
    norm_num at h2 ⊢
    linarith
  refine hd.trans (f.trans ?_)
  have : (0 : ℝ) ≤ 1 / 10 ^ 16 := by positivity
  nlinarith

/-- **C64**: `digamma` is defined to give the signalling value at the poles, closer to 0 than `5.89e-39` and at or below
`-3.6e16` (C32); at all other real numbers it is the derivative of `log |Γ|`, up to `6e-16` and a relative error of `1e-16`. -/
theorem C64_digamma {x : ℝ} (hx : ∀ m : ℕ, x ≠ -m) (h1 : 589 / 10 ^ 41 ≤ |x|) (h2 : -(36 * 10 ^ 15) < x) :
    ∃ d, IsPsi x d ∧ |digamma x - d| ≤ 6 / 10 ^ 16 + 1 / 10 ^ 16 * |d| := by
  refine ⟨_, isPsi hx, ?_⟩
  by_cases h3 : 1 / 2 ≤ x
  · have := psi_right h3
    norm_num at *
    linarith [abs_nonneg (Psi.psi x)]
  have h3 := not_le.mp h3
  by_cases h4 : |x| ≤ 205 / 10 ^ 11
  · obtain ⟨d, hd, e⟩ := C64_small h1 h4
    obtain rfl : d = Psi.psi x := hd.unique (isPsi hx)
    have : (0 : ℝ) ≤ 6 / 10 ^ 16 := by positivity
    linarith
  · have hi : ¬ ∃ n : ℤ, x = n := by
      rintro ⟨n, rfl⟩
      have : n < 1 := by
        have : (n : ℝ) < ((1 : ℤ) : ℝ) := by push_cast; linarith
        exact_mod_cast this
      refine hx (-n).toNat ?_
      have : (((-n).toNat : ℤ) : ℝ) = ((-n : ℤ) : ℝ) := by rw [Int.toNat_of_nonneg (by omega)]
      push_cast at this
      rw [this]
      ring
    obtain ⟨d, hd, e⟩ := C64_left h2 h3 (not_le.mp h4) hi
    obtain rfl : d = Psi.psi x := hd.unique (isPsi hx)
    have r := Psi.psi_reflect hi
    have hy : 1 / 2 < 1 - x := by linarith
    have p : |Psi.psi (1 - x)| ≤ 40 := by
      have u := Psi.psi_le_log (x := 1 - x) (by linarith)
      have v := Psi.log_le_psi (x := 1 - x) (by linarith)
      have z := one_sub_inv_le_log_of_pos (x := 1 - x) (by linarith)
      have y : 1 / (1 - x) ≤ 2 := by
        rw [div_le_iff₀ (by linarith)]
        linarith
      have w : log (1 - x) ≤ 40 := by
        rw [log_le_iff_le_exp (by linarith)]
        have e1 : exp 40 = exp 1 ^ 40 := by rw [← exp_nat_mul]; norm_num
        have e2 : (27 / 10 : ℝ) ≤ exp 1 := by linarith [exp_one_gt_d9]
        have e3 : (27 / 10 : ℝ) ^ 40 ≤ exp 1 ^ 40 := pow_le_pow_left₀ (by norm_num) e2 40
        rw [e1]
        refine le_trans ?_ e3
        norm_num at h2 ⊢
        linarith
      rw [← one_div] at z
      rw [abs_le]
      constructor <;> linarith
    have c : |π * cot (π * x)| ≤ 40 + |Psi.psi x| := by
      have e2 : π * cot (π * x) = Psi.psi (1 - x) - Psi.psi x := by rw [r]; ring
      rw [e2]
      have := abs_sub (Psi.psi (1 - x)) (Psi.psi x)
      linarith
    norm_num at *
    linarith [abs_nonneg (Psi.psi x)]

variable {W : Type} [Rep W ℝ] [LawfulRep W ℝ]
variable {h : List (Call ℝ)} {c : Client W} {u : Var} {b : Var → ℝ}

/-- **C64** for variables: the derivative of `log_gamma` of a variable. -/
theorem C64_log_gamma (hr : Reach h c) {v : Var} (hv : v ∈ existing c.st) {x : ℝ}
    (hx : (v.val : M W ℝ) c.st = .ok (x, c.st)) (room : c.st.tape.head + 7 ≤ tapeLimit)
    (hu : u ∈ existing c.st) (hb : Rates c.st u b)
    (h0 : ∀ m : ℕ, x ≠ -m) (h1 : 589 / 10 ^ 41 ≤ |x|) (h2 : -(36 * 10 ^ 15) < x) :
    ∃ r s' a d, (logGammaV (R := ℝ) v : M W Var) c.st = .ok (r, s') ∧
      Gives c.st s' r (Real.log |Real.Gamma x|) u (a * b v) ∧
      IsPsi x d ∧ |a - d| ≤ 6 / 10 ^ 16 + 1 / 10 ^ 16 * |d| := by
  obtain ⟨r, s', e, g⟩ := C32_log_gamma hr hv hx room hu hb
  obtain ⟨d, hd, hc⟩ := C64_digamma h0 h1 h2
  exact ⟨r, s', _, d, e, g, hd, hc⟩

/-! ## the hypotheses are met -/

/-- `ψ(1) = -γ` -/
example : |digamma (1 : ℝ) + eulerMascheroniConstant| ≤ 3 / 10 ^ 17 := by
  obtain ⟨d, hd, h⟩ := C64_right (x := 1) (by norm_num) (by norm_num)
  have e : HasDerivAt (fun t => log |Gamma t|) (-eulerMascheroniConstant) 1 := by
    have := Real.hasDerivAt_Gamma_one.log (by simp)
    simpa using this
  rw [hd.unique e, sub_neg_eq_add] at h
  exact h

/-- `x = -5/2` -/
example : ∃ d, IsPsi (-5 / 2) d ∧ |digamma (-5 / 2 : ℝ) - d| ≤ 6 / 10 ^ 16 + 1 / 10 ^ 16 * |d| := by
  refine C64_digamma (fun m hm => ?_) ?_ (by norm_num)
  · have : (5 : ℤ) = 2 * m := by
      have : (5 : ℝ) = 2 * m := by linarith
      exact_mod_cast this
    omega
  · rw [abs_of_neg (by norm_num)]
    norm_num

/-- `log_gamma(x*y)` with `x = 2`, `y = 3` -/
example : ∃ c : Client ℝ, Reach demo c ∧ ∃ r s' a d, (logGammaV (R := ℝ) ⟨3⟩ : M ℝ Var) c.st = .ok (r, s') ∧
    Gives c.st s' r (Real.log |Real.Gamma 6|) ⟨1⟩ (a * 3) ∧ IsPsi 6 d ∧ |a - d| ≤ 6 / 10 ^ 16 + 1 / 10 ^ 16 * |d| := by
  obtain ⟨c, hr, hh, hex, h1, h2, h3, hb⟩ := demo_rates (W := ℝ)
  have hb3 : demoB ⟨3⟩ = 3 := by simp [demoB]
  refine ⟨c, hr, ?_⟩
  rw [← hb3]
  exact C64_log_gamma hr (by simp [hex]) h3 (by rw [hh]; simp [tapeLimit]) (by simp [hex]) hb (Psi.pos_ne (by norm_num))
    (by norm_num) (by norm_num)

end Props
