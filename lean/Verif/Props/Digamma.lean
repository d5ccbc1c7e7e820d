import Verif.Props.Rules
import Verif.Model.Digamma
import Mathlib.Analysis.Real.Pi.Bounds
import Mathlib.Analysis.SpecialFunctions.Trigonometric.Bounds

/-!
# C32: poles, error values and reflection of `digamma`; the derivative of `log_gamma` is the code's `digamma`

Over the reals.  How close the rational approximations are to the digamma function is C64.
-/

namespace Props
open Fz Spec Real

/-- the value that signals an error -/
noncomputable def signal : ℝ := 170 * 10 ^ 36

theorem xinf_eq : (dgXinf : ℝ) = signal := by
  simp only [dgXinf, Arith.lit, signal]
  norm_num

theorem dgErr_eq (x : ℝ) : dgErr x = if 0 < x then -signal else signal := by
  unfold dgErr
  rw [xinf_eq]
  simp [fgt, Arith.flt, Arith.zero, Arith.neg]

theorem digamma_split (p x : ℝ) : digammaWith p x =
    if 36 * 10 ^ 15 ≤ -x ∨ |x| < 589 / 10 ^ 41 then (if 0 < x then -signal else signal)
    else if 1 / 2 ≤ x then dgPos x 0
    else if |x| ≤ 205 / 10 ^ 11 then dgPos (1 - x) (-(1 / x))
    else match dgAug p x with
      | none => if 0 < x then -signal else signal
      | some a => dgPos (1 - x) a := by
  unfold digammaWith
  rw [dgErr_eq]
  have h1 : (dgXmax1 : ℝ) = 36 * 10 ^ 15 := by simp only [dgXmax1, Arith.lit]; norm_num
  have h2 : (dgXmin1 : ℝ) = 589 / 10 ^ 41 := by simp only [dgXmin1, Arith.lit]; norm_num
  have h3 : (dgXsmall : ℝ) = 205 / 10 ^ 11 := by simp only [dgXsmall, Arith.lit]; norm_num
  rw [h1, h2, h3]
  simp only [fge, Arith.fle, Arith.flt, Arith.neg, Arith.half, Arith.fabs, Arith.zero, Arith.one, Arith.sub,
    Arith.div, Bool.or_eq_true, decide_eq_true_eq]
  cases dgAug p x <;> rfl

theorem dgPos_aug (x a : ℝ) : dgPos x a = dgPos x 0 + a := by
  unfold dgPos
  simp only [Arith.add, Arith.sub, Arith.mul, Arith.div]
  split <;> [split; skip] <;> ring

/-- `|x|` less its integer part -/
noncomputable def frac (x : ℝ) : ℝ := |x| - ⌊|x|⌋

/-- the quadrant of `frac` -/
theorem dgAug_eq (p x : ℝ) (hp : 0 < p) : dgAug p x =
    let σ : ℝ := if x < 0 then p else -p
    let t := frac x
    if t = 0 then none
    else if t < 1 / 4 then some (σ * (4 / tan (p * (4 * t))))
    else if t < 1 / 2 then some (σ * (4 * tan (p * (2 - 4 * t))))
    else if t < 3 / 4 then some (-σ * (4 * tan (p * (4 * t - 2))))
    else some (-σ * (4 / tan (p * (4 - 4 * t)))) := by
  have h0 : 0 ≤ frac x := by unfold frac; linarith [Int.floor_le |x|]
  have h1 : frac x < 1 := by unfold frac; linarith [Int.lt_floor_add_one |x|]
  have hf : |x| - ((if 0 ≤ |x| then ⌊|x|⌋ else ⌈|x|⌉ : ℤ) : ℝ) = frac x := by
    rw [if_pos (abs_nonneg x)]; rfl
  unfold dgAug
  simp only [Arith.fabs, Arith.sub, Arith.ofInt, Arith.trunc, Arith.mul, Arith.lit, Arith.flt, Arith.zero, Arith.neg,
    Arith.one, Arith.feq, Arith.div, Arith.tan, hf, decide_eq_true_eq]
  have e4 : ((4 : ℤ) : ℝ) * 10 ^ (0 : ℤ) = 4 := by norm_num
  have e25 : ((25 : ℤ) : ℝ) * 10 ^ (-2 : ℤ) = 1 / 4 := by norm_num
  simp only [e4, e25]
  rw [if_pos (by linarith : 0 ≤ frac x * 4)]
  generalize frac x = t at *
  by_cases c1 : t < 1 / 4
  · have hq : ⌊t * 4⌋ = 0 := by rw [Int.floor_eq_iff]; constructor <;> push_cast <;> linarith
    rw [hq]
    by_cases ht : t = 0
    · simp [ht]
    · rw [if_neg ht, if_pos c1]
      simp [ht, hp.ne']
  · have ht : t ≠ 0 := by rintro rfl; norm_num at c1
    rw [if_neg ht, if_neg c1]
    by_cases c2 : t < 1 / 2
    · have hq : ⌊t * 4⌋ = 1 := by rw [Int.floor_eq_iff]; constructor <;> push_cast <;> linarith
      rw [hq, if_pos c2]
      simp only [show ((1:ℤ) / 2) = 0 by norm_num, show ((1:ℤ) + 1) / 2 = 1 by norm_num]
      norm_num
      ring_nf
    · rw [if_neg c2]
      by_cases c3 : t < 3 / 4
      · have hq : ⌊t * 4⌋ = 2 := by rw [Int.floor_eq_iff]; constructor <;> push_cast <;> linarith
        rw [hq, if_pos c3]
        norm_num
        ring_nf
      · have hq : ⌊t * 4⌋ = 3 := by rw [Int.floor_eq_iff]; constructor <;> push_cast <;> linarith
        rw [hq, if_neg c3]
        have hz : ¬ p * (4 - 4 * t) = 0 := mul_ne_zero hp.ne' (by intro k; linarith)
        have hw : (1 : ℝ) - 4 * (t - ((3 : ℤ) : ℝ) * (1 / 4)) = 4 - 4 * t := by push_cast; ring
        rw [hw]
        simp [hz]

theorem frac_eq_zero {x : ℝ} : frac x = 0 ↔ ∃ n : ℤ, x = n := by
  unfold frac
  constructor
  · intro k
    rcases abs_choice x with e | e
    · exact ⟨⌊|x|⌋, by linarith⟩
    · exact ⟨-⌊|x|⌋, by push_cast; linarith⟩
  · rintro ⟨n, rfl⟩
    rw [← Int.cast_abs, Int.floor_intCast, sub_self]

/-! ## the cotangent -/

theorem sin_cos_shift (t : ℝ) (k : ℤ) : cos (π * (t + k)) / sin (π * (t + k)) = cos (π * t) / sin (π * t) := by
  rw [show π * (t + k) = π * t + k * π by ring, cos_add_int_mul_pi, sin_add_int_mul_pi]
  exact mul_div_mul_left _ _ (zpow_ne_zero k (by norm_num))

/-- with the exact constant, the code's branches compute `-pi*cot(pi*x)` -/
theorem dgAug_exact {x : ℝ} (hx : ¬ ∃ n : ℤ, x = n) : dgAug (π / 4) x = some (-(π * cot (π * x))) := by
  have hc : cot (π * x) = (if x < 0 then -1 else 1) * (cos (π * frac x) / sin (π * frac x)) := by
    rw [cot_eq_cos_div_sin]
    have := sin_cos_shift (frac x) ⌊|x|⌋
    rw [show frac x + ⌊|x|⌋ = |x| by unfold frac; ring] at this
    rw [← this]
    by_cases h : x < 0
    · rw [if_pos h, abs_of_neg h, mul_neg, cos_neg, sin_neg, div_neg]
      ring
    · rw [if_neg h, abs_of_nonneg (not_lt.mp h), one_mul]
  have h0 : 0 ≤ frac x := by unfold frac; linarith [Int.floor_le |x|]
  rw [dgAug_eq _ _ (by positivity), hc]
  have ht : frac x ≠ 0 := fun k => hx (frac_eq_zero.mp k)
  simp only [if_neg ht]
  generalize frac x = t at *
  have e1 : tan (π / 4 * (4 * t)) = sin (π * t) / cos (π * t) := by
    rw [show π / 4 * (4 * t) = π * t by ring, tan_eq_sin_div_cos]
  have e2 : tan (π / 4 * (2 - 4 * t)) = cos (π * t) / sin (π * t) := by
    rw [show π / 4 * (2 - 4 * t) = π / 2 - π * t by ring, tan_eq_sin_div_cos, sin_pi_div_two_sub, cos_pi_div_two_sub]
  have e3 : tan (π / 4 * (4 * t - 2)) = -(cos (π * t) / sin (π * t)) := by
    rw [show π / 4 * (4 * t - 2) = -(π / 4 * (2 - 4 * t)) by ring, tan_neg, e2]
  have e4 : tan (π / 4 * (4 - 4 * t)) = -(sin (π * t) / cos (π * t)) := by
    rw [show π / 4 * (4 - 4 * t) = π - π * t by ring, tan_eq_sin_div_cos, sin_pi_sub, cos_pi_sub, div_neg]
  rw [e1, e2, e3, e4]
  split_ifs <;> congr 1 <;> (try rw [div_neg]) <;> (try rw [div_div_eq_mul_div]) <;> ring

/-! ## the code's constant -/

theorem sin_low {q w : ℝ} (hq : 3 / 4 ≤ q) (hq' : q ≤ 4 / 5) (h0 : 0 ≤ w) (h1 : w ≤ 1) : 2 / 5 * w ≤ sin (q * w) := by
  have hpi := pi_gt_three
  have hpi' := pi_lt_d2
  have hqw : q * w ≤ 4 / 5 := by nlinarith
  have := mul_le_sin (x := q * w) (by positivity) (by linarith)
  refine le_trans ?_ this
  have : 2 / 5 ≤ 2 / π * q := by
    rw [div_mul_eq_mul_div, le_div_iff₀ pi_pos]
    linarith
  nlinarith

theorem cos_low {q w : ℝ} (hq : 3 / 4 ≤ q) (hq' : q ≤ 4 / 5) (h0 : 0 ≤ w) (h1 : w ≤ 1) : 17 / 25 ≤ cos (q * w) := by
  have h := one_sub_sq_div_two_le_cos (x := q * w)
  have h2 : q * w ≤ 4 / 5 := by nlinarith
  have h3 : 0 ≤ q * w := by positivity
  nlinarith

theorem tan_ratio {p q w : ℝ} (hp : 3 / 4 ≤ p) (hp' : p ≤ 4 / 5) (hq : 3 / 4 ≤ q) (hq' : q ≤ 4 / 5) (h0 : 0 < w)
    (h1 : w ≤ 1) : ∃ ε, |ε| ≤ 4 * |p - q| ∧ tan (p * w) = (1 + ε) * tan (q * w) ∧ tan (q * w) ≠ 0 := by
  have a1 := cos_low hp hp' h0.le h1
  have a2 := cos_low hq hq' h0.le h1
  have a3 := sin_low hq hq' h0.le h1
  have a4 : 0 < sin (q * w) := by nlinarith
  refine ⟨sin ((p - q) * w) / (cos (p * w) * sin (q * w)), ?_, ?_, ?_⟩
  · have hb : 17 / 25 * (2 / 5 * w) ≤ cos (p * w) * sin (q * w) := mul_le_mul a1 a3 (by positivity) (by linarith)
    rw [abs_div, abs_of_pos (by positivity : 0 < cos (p * w) * sin (q * w)), div_le_iff₀ (by positivity)]
    have hs : |sin ((p - q) * w)| ≤ |p - q| * w := by
      have := abs_sin_le_abs (x := (p - q) * w)
      rwa [abs_mul, abs_of_pos h0] at this
    have hk := mul_le_mul_of_nonneg_left hb (show 0 ≤ 4 * |p - q| by positivity)
    refine hs.trans (le_trans ?_ hk)
    have : 0 ≤ |p - q| * w := by positivity
    nlinarith
  · rw [tan_eq_sin_div_cos, tan_eq_sin_div_cos, sub_mul, sin_sub]
    have : cos (p * w) ≠ 0 := by linarith
    have : cos (q * w) ≠ 0 := by linarith
    have := a4.ne'
    generalize cos (p * w) = cp at *
    generalize cos (q * w) = cq at *
    generalize sin (q * w) = sq at *
    generalize sin (p * w) = sp at *
    field_simp
    ring
  · rw [tan_eq_sin_div_cos]
    have : 0 < cos (q * w) := by linarith
    positivity

theorem piov4_close : |(dgPiov4 : ℝ) - π / 4| ≤ 5 / 10 ^ 21 := by
  have h1 := pi_gt_d20
  have h2 := pi_lt_d20
  simp only [dgPiov4, Arith.lit]
  rw [abs_le]
  constructor <;> norm_num at * <;> linarith

theorem piov4_range : 3 / 4 ≤ (dgPiov4 : ℝ) ∧ (dgPiov4 : ℝ) ≤ 4 / 5 := by
  simp only [dgPiov4, Arith.lit]
  constructor <;> norm_num

/-- the code's constant changes the cotangent by a relative error of at most `10^(-19)` -/
theorem dgAug_close {x : ℝ} (hx : ¬ ∃ n : ℤ, x = n) :
    ∃ ε, |ε| ≤ 1 / 10 ^ 19 ∧ dgAug dgPiov4 x = some (-((1 + ε) * (π * cot (π * x)))) := by
  have hex := dgAug_exact hx
  obtain ⟨p1, p2⟩ := piov4_range
  have hd := piov4_close
  have q1 : 3 / 4 ≤ π / 4 := by linarith [pi_gt_three]
  have q2 : π / 4 ≤ 4 / 5 := by linarith [pi_lt_d2]
  generalize (dgPiov4 : ℝ) = p at *
  generalize hq : π / 4 = q at *
  have h0 : 0 ≤ frac x := by unfold frac; linarith [Int.floor_le |x|]
  have h1 : frac x < 1 := by unfold frac; linarith [Int.lt_floor_add_one |x|]
  have ht : frac x ≠ 0 := fun k => hx (frac_eq_zero.mp k)
  rw [dgAug_eq _ _ (by linarith)] at hex ⊢
  simp only [if_neg ht] at hex ⊢
  generalize frac x = t at *
  obtain ⟨ε1, he1, hp1⟩ : ∃ ε1, |ε1| ≤ 2 * |p - q| ∧ p = (1 + ε1) * q := by
    refine ⟨(p - q) / q, ?_, by field_simp; ring⟩
    rw [abs_div, abs_of_pos (by linarith : 0 < q), div_le_iff₀ (by linarith)]
    nlinarith [abs_nonneg (p - q)]
  have fin : ∀ ε2, |ε2| ≤ 4 * |p - q| → |(1 + ε1) * (1 + ε2) - 1| ≤ 1 / 10 ^ 19 := by
    intro ε2 he2
    have := abs_add_le (ε1 + ε2) (ε1 * ε2)
    have h3 := abs_add_le ε1 ε2
    rw [show (1 + ε1) * (1 + ε2) - 1 = ε1 + ε2 + ε1 * ε2 by ring]
    rw [abs_mul] at this
    have h4 : |ε1| * |ε2| ≤ |ε2| := by
      have : |ε1| ≤ 1 := by norm_num at hd ⊢; linarith
      nlinarith [abs_nonneg ε2]
    norm_num at hd ⊢
    linarith
  -- the two shapes of the result
  have mulT : ∀ (s : ℝ) (w : ℝ), 0 ≤ w → w ≤ 1 → ∃ ε, |ε| ≤ 1 / 10 ^ 19 ∧
      s * p * (4 * tan (p * w)) = (1 + ε) * (s * q * (4 * tan (q * w))) := by
    intro s w hw0 hw1
    rcases hw0.eq_or_lt with rfl | hw
    · exact ⟨0, by norm_num, by simp⟩
    · obtain ⟨ε2, he2, e, -⟩ := tan_ratio p1 p2 q1 q2 hw hw1
      refine ⟨_, fin ε2 he2, ?_⟩
      rw [e]
      linear_combination (s * 4 * (1 + ε2) * tan (q * w)) * hp1
  have divT : ∀ (s : ℝ) (w : ℝ), 0 < w → w ≤ 1 → ∃ ε, |ε| ≤ 1 / 10 ^ 19 ∧
      s * p * (4 / tan (p * w)) = (1 + ε) * (s * q * (4 / tan (q * w))) := by
    intro s w hw hw1
    obtain ⟨ε2, he2, e, hn⟩ := tan_ratio q1 q2 p1 p2 hw hw1
    obtain ⟨-, -, -, hn'⟩ := tan_ratio p1 p2 q1 q2 hw hw1
    rw [abs_sub_comm] at he2
    refine ⟨_, fin ε2 he2, ?_⟩
    have e' : 4 / tan (p * w) = (1 + ε2) * (4 / tan (q * w)) := by
      rw [eq_comm, e]
      have : 1 + ε2 ≠ 0 := by
        intro k
        rw [k, zero_mul] at e
        exact hn' e
      field_simp
    rw [e']
    linear_combination (s * (1 + ε2) * (4 / tan (q * w))) * hp1
  obtain ⟨σ, hσ⟩ : ∃ σ : ℝ, ∀ r : ℝ, (if x < 0 then r else -r) = σ * r := by
    by_cases hneg : x < 0
    · exact ⟨1, fun r => by rw [if_pos hneg, one_mul]⟩
    · exact ⟨-1, fun r => by rw [if_neg hneg]; ring⟩
  simp only [hσ] at hex ⊢
  by_cases c1 : t < 1 / 4
  · simp only [if_pos c1, Option.some.injEq] at hex ⊢
    obtain ⟨ε, he, e⟩ := divT σ (4 * t) (by positivity) (by linarith)
    exact ⟨ε, he, by linear_combination e + (1 + ε) * hex⟩
  · simp only [if_neg c1] at hex ⊢
    by_cases c2 : t < 1 / 2
    · simp only [if_pos c2, Option.some.injEq] at hex ⊢
      obtain ⟨ε, he, e⟩ := mulT σ (2 - 4 * t) (by linarith) (by linarith)
      exact ⟨ε, he, by linear_combination e + (1 + ε) * hex⟩
    · simp only [if_neg c2] at hex ⊢
      by_cases c3 : t < 3 / 4
      · simp only [if_pos c3, Option.some.injEq] at hex ⊢
        obtain ⟨ε, he, e⟩ := mulT (-σ) (4 * t - 2) (by linarith) (by linarith)
        exact ⟨ε, he, by linear_combination e + (1 + ε) * hex⟩
      · simp only [if_neg c3, Option.some.injEq] at hex ⊢
        obtain ⟨ε, he, e⟩ := divT (-σ) (4 - 4 * t) (by linarith) (by linarith)
        exact ⟨ε, he, by linear_combination e + (1 + ε) * hex⟩

/-! ## C32 -/

/-- **C32**: arguments at or below `-3.6e16` give the signalling value. -/
theorem C32_large {x : ℝ} (hx : x ≤ -(36 * 10 ^ 15)) : digamma x = signal := by
  unfold digamma
  rw [digamma_split, if_pos (Or.inl (by linarith)), if_neg (by norm_num at hx; linarith)]

/-- **C32**: arguments of absolute value below `5.89e-39` give the signalling value, with the sign opposite to a
positive argument. -/
theorem C32_tiny {x : ℝ} (hx : |x| < 589 / 10 ^ 41) : digamma x = if 0 < x then -signal else signal := by
  unfold digamma
  rw [digamma_split, if_pos (Or.inr hx)]

/-- **C32**: zero and the negative integers give the signalling value. -/
theorem C32_pole (n : ℕ) : digamma (-(n : ℝ)) = signal := by
  rcases Nat.eq_zero_or_pos n with rfl | hn
  · rw [C32_tiny (by norm_num)]
    norm_num
  · have h1 : (1:ℝ) ≤ n := by exact_mod_cast hn
    unfold digamma
    rw [digamma_split]
    split
    · rw [if_neg (by linarith)]
    · rw [if_neg (by linarith), if_neg (by rw [abs_neg, abs_of_nonneg (by linarith)]; norm_num; linarith),
        dgAug_eq _ _ (by linarith [piov4_range.1])]
      simp only [if_pos (frac_eq_zero.mpr ⟨-(n : ℤ), by push_cast; rfl⟩)]
      rw [if_neg (by linarith)]

theorem digamma_right {x : ℝ} (hx : 1 / 2 ≤ x) : digamma x = dgPos x 0 := by
  unfold digamma
  rw [digamma_split, if_neg, if_pos hx]
  rw [abs_of_nonneg (by linarith)]
  norm_num
  constructor <;> linarith

/-- **C32**, reflection: for all other arguments left of 1/2, `psi(x) = psi(1-x) - pi*cot(pi*x)`, up to a relative
error of at most `10^(-19)` in the cotangent term that comes from the decimal constant for pi/4. -/
theorem C32_reflection {x : ℝ} (h1 : -(36 * 10 ^ 15) < x) (h2 : x < 1 / 2) (h3 : 205 / 10 ^ 11 < |x|)
    (hx : ¬ ∃ n : ℤ, x = n) :
    ∃ ε, |ε| ≤ 1 / 10 ^ 19 ∧ digamma x = digamma (1 - x) - (1 + ε) * (π * cot (π * x)) := by
  obtain ⟨ε, he, ha⟩ := dgAug_close hx
  refine ⟨ε, he, ?_⟩
  rw [digamma_right (by linarith : 1 / 2 ≤ 1 - x)]
  unfold digamma
  rw [digamma_split, if_neg, if_neg (not_le.mpr h2), if_neg (not_le.mpr h3), ha]
  · simp only
    rw [dgPos_aug]
    ring
  · push Not
    norm_num at *
    constructor <;> linarith

/-- **C32**, reflection next to the pole at 0, where `1/x` stands for the cotangent term. -/
theorem C32_reflection_small {x : ℝ} (h1 : 589 / 10 ^ 41 ≤ |x|) (h2 : |x| ≤ 205 / 10 ^ 11) :
    digamma x = digamma (1 - x) - 1 / x := by
  have hx := abs_le.mp h2
  norm_num at hx
  rw [digamma_right (by norm_num; linarith : 1 / 2 ≤ 1 - x)]
  unfold digamma
  rw [digamma_split, if_neg, if_neg (by norm_num; linarith), if_pos h2, dgPos_aug]
  · ring
  · push Not
    exact ⟨by norm_num; linarith, h1⟩

variable {W : Type} [Rep W ℝ] [LawfulRep W ℝ]
variable {h : List (Call ℝ)} {c : Client W} {u : Var} {b : Var → ℝ}

/-- **C32** for variables: `log_gamma(x)` has the value of the intrinsic and, as its derivative, the code's `digamma`. -/
theorem C32_log_gamma (hr : Reach h c) {v : Var} (hv : v ∈ existing c.st) {x : ℝ}
    (hx : (v.val : M W ℝ) c.st = .ok (x, c.st)) (room : c.st.tape.head + 7 ≤ tapeLimit)
    (hu : u ∈ existing c.st) (hb : Rates c.st u b) :
    ∃ r s', (logGammaV (R := ℝ) v : M W Var) c.st = .ok (r, s') ∧
      Gives c.st s' r (Real.log |Real.Gamma x|) u (digamma x * b v) := by
  obtain ⟨r, s', e, g⟩ := record_gives (vs := [v]) (ys := [x]) (m := logGammaV (R := ℝ) v)
    (x := Real.log |Real.Gamma x|) (ds := [])
    (coefs := [digamma x]) (ch := .logGamma) hr (by simpa using hv) (vals_one hx)
    (fun g val adj hi hh he => by
      obtain ⟨s', e, gr⟩ := hi.unary_ok (hh v (by simp)) Arith.logGamma .logGamma room
      simp only [List.map_cons, List.map_nil, List.cons.injEq, and_true] at he
      rw [he] at gr
      exact ⟨s', e, gr⟩)
    (fun a => by
      show some _ = some _
      simp [Arith.mul]) hu hb
  exact ⟨r, s', e, by simpa using g⟩

/-! ## the hypotheses are met -/

/-- `x = -5/2` -/
example : ∃ ε, |ε| ≤ 1 / 10 ^ 19 ∧
    digamma (-5 / 2 : ℝ) = digamma (1 - -5 / 2) - (1 + ε) * (π * cot (π * (-5 / 2))) := by
  refine C32_reflection (by norm_num) (by norm_num) ?_ ?_
  · rw [abs_of_neg (by norm_num)]
    norm_num
  · rintro ⟨n, hn⟩
    have : (-5 : ℤ) = 2 * n := by
      have : (-5 : ℝ) = 2 * n := by linarith
      exact_mod_cast this
    omega

/-- `x = 10^(-10)` -/
example : digamma (1 / 10 ^ 10 : ℝ) = digamma (1 - 1 / 10 ^ 10) - 1 / (1 / 10 ^ 10) :=
  C32_reflection_small (by norm_num) (by norm_num)

/-- `log_gamma(x*y)` with `x = 2`, `y = 3` -/
example : ∃ c : Client ℝ, Reach demo c ∧ ∃ r s', (logGammaV (R := ℝ) ⟨3⟩ : M ℝ Var) c.st = .ok (r, s') ∧
    Gives c.st s' r (Real.log |Real.Gamma 6|) ⟨1⟩ (digamma 6 * 3) := by
  obtain ⟨c, hr, hh, hex, h1, h2, h3, hb⟩ := demo_rates (W := ℝ)
  have hb3 : demoB ⟨3⟩ = 3 := by simp [demoB]
  refine ⟨c, hr, ?_⟩
  rw [← hb3]
  exact C32_log_gamma hr (by simp [hex]) h3 (by rw [hh]; simp [tapeLimit]) (by simp [hex]) hb

end Props
