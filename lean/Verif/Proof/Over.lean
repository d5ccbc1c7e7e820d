import Verif.Proof.Sums
import Verif.Proof.BookOne
import Verif.Props.Functions
import Verif.Spec.Over

/-! # `log_sum_exp` and `inv_logit` in the arithmetic with overflow -/

namespace Fz
open Spec Props

variable [SumOrder]

theorem big_ge : (2:ℝ) ^ 40 ≤ big / 4 := by
  have h : (2:ℝ) ^ (1023 : ℤ) = 2 ^ 42 * 2 ^ (981 : ℤ) := by
    rw [← zpow_natCast, ← zpow_add₀ (by norm_num)]
    norm_num
  have h1 : (1:ℝ) ≤ 2 ^ (981 : ℤ) := one_le_zpow₀ (by norm_num) (by norm_num)
  have h2 : (2:ℝ) ^ (-52 : ℤ) ≤ 1 := zpow_le_one_of_nonpos₀ (by norm_num) (by norm_num)
  unfold big
  rw [h]
  clear h
  generalize (2:ℝ) ^ (981 : ℤ) = p at *
  generalize (2:ℝ) ^ (-52 : ℤ) = q at *
  have h3 : 1 ≤ (2 - q) * p := by nlinarith
  have h4 : (2 - q) * (2 ^ 42 * p) / 4 = 2 ^ 40 * ((2 - q) * p) := by ring
  rw [h4]
  linarith

theorem big_pos : 0 < big := by
  have := big_ge
  have h : (0:ℝ) < 2 ^ 40 := by positivity
  linarith

theorem one_le_big : 1 ≤ big := by
  have := big_ge
  norm_num at this
  linarith

theorem Over.fit_eq {x : ℝ} (h : |x| ≤ big) : Over.fit x = .fin x := by
  obtain ⟨h1, h2⟩ := abs_le.mp h
  unfold Over.fit
  rw [if_neg (not_lt.mpr h2), if_neg (not_lt.mpr h1)]

theorem Over.exp_fin {a : ℝ} (h : a ≤ 0) : (Arith.exp (.fin a) : Over) = .fin (Real.exp a) := by
  show Over.fit (Real.exp a) = _
  refine Over.fit_eq ?_
  rw [abs_of_pos (Real.exp_pos a)]
  exact (Real.exp_le_one_iff.mpr h).trans one_le_big

theorem Over.sub_fin {a b : ℝ} (h : |a - b| ≤ big) : (Arith.sub (.fin a) (.fin b) : Over) = .fin (a - b) := by
  show Over.fit (a + -b) = _
  rw [← sub_eq_add_neg]
  exact Over.fit_eq h

theorem Over.add_fin {a b : ℝ} (h : |a + b| ≤ big) : (Arith.add (.fin a) (.fin b) : Over) = .fin (a + b) := Over.fit_eq h

theorem Over.mul_fin {a b : ℝ} (h : |a * b| ≤ big) : (Arith.mul (.fin a) (.fin b) : Over) = .fin (a * b) := Over.fit_eq h

theorem over_sums {l : List Over} {k : Nat} {s : Over} (h : Sums (.fin 0) Over.add l k s) : ∀ {r : List ℝ},
    l = r.map Over.fin → (∀ x ∈ r, 0 ≤ x) → r.sum ≤ big → s = .fin r.sum := by
  induction h with
  | none =>
    intro r e _ _
    have : r = [] := by simpa using e.symm
    subst this
    simp
  | one x =>
    intro r e _ _
    obtain ⟨y, rfl, rfl⟩ : ∃ y, r = [y] ∧ x = .fin y := by
      cases r with
      | nil => simp at e
      | cons y r =>
        simp only [List.map_cons, List.cons.injEq] at e
        obtain ⟨rfl, e⟩ := e
        have : r = [] := by simpa using e.symm
        subst this
        exact ⟨y, rfl, rfl⟩
    simp
  | @join l₁ l₂ l k₁ k₂ a b _ _ hp ih₁ ih₂ =>
    intro r e h0 hb
    subst e
    have hf : List.Forall₂ (fun (x : Over) (y : ℝ) => x = .fin y) (r.map Over.fin) r :=
      List.forall₂_map_left_iff.mpr (List.forall₂_same.mpr fun _ _ => rfl)
    obtain ⟨vs, hv, hvp⟩ := List.perm_comp_forall₂ hp hf
    obtain ⟨v₁, v₂, rfl, h1, h2⟩ := forall2_split hv
    have eq : ∀ {l : List Over} {v : List ℝ}, List.Forall₂ (fun (x : Over) (y : ℝ) => x = .fin y) l v →
        l = v.map Over.fin := by
      intro l v h
      induction h with
      | nil => rfl
      | cons e _ ih => rw [e, ih, List.map_cons]
    have n1 : ∀ x ∈ v₁, 0 ≤ x := fun x hx => h0 x (hvp.mem_iff.mp (by simp [hx]))
    have n2 : ∀ x ∈ v₂, 0 ≤ x := fun x hx => h0 x (hvp.mem_iff.mp (by simp [hx]))
    have s1 := List.sum_nonneg n1
    have s2 := List.sum_nonneg n2
    rw [← hvp.sum_eq, List.sum_append] at hb ⊢
    rw [ih₁ (eq h1) n1 (by linarith), ih₂ (eq h2) n2 (by linarith)]
    exact Over.fit_eq (by rw [abs_of_nonneg (by linarith)]; exact hb)

theorem over_sum (l : List ℝ) (h0 : ∀ x ∈ l, 0 ≤ x) (h : l.sum ≤ big) : fsum (l.map Over.fin) = Over.fin l.sum := by
  obtain ⟨k, -, hs⟩ := SumOrder.some_order (l.map Over.fin)
  exact over_sums hs rfl h0 h

/-- a sum of NaNs -/
theorem over_nans {l : List Over} {k : Nat} {s : Over} (h : Sums (.fin 0) Over.add l k s) (hl : l ≠ [])
    (hn : ∀ x ∈ l, x = .nan) : s = .nan := by
  induction h with
  | none => exact absurd rfl hl
  | one x => exact hn x (by simp)
  | @join l₁ l₂ l k₁ k₂ a b _ _ hp ih₁ ih₂ =>
    have n1 : ∀ x ∈ l₁, x = .nan := fun x hx => hn x (hp.mem_iff.mp (by simp [hx]))
    have n2 : ∀ x ∈ l₂, x = .nan := fun x hx => hn x (hp.mem_iff.mp (by simp [hx]))
    by_cases e1 : l₁ = []
    · have e2 : l₂ ≠ [] := by
        rintro rfl
        subst e1
        exact hl (by simpa using hp)
      rw [ih₂ e2 n2]
      cases a <;> rfl
    · rw [ih₁ e1 n1]
      rfl

/-- not `+Infinity`, not NaN -/
def Low : Over → Prop
  | .fin _ | .ninf => True
  | _ => False

theorem over_max (xs : List Over) (a : Over) (ha : Low a) (hx : ∀ y ∈ xs, Low y) :
    let r := xs.foldl (fun m y => if Arith.flt m y then y else m) a
    Low r ∧ r ∈ a :: xs ∧ ∀ y ∈ a :: xs, Arith.flt r y = false := by
  induction xs generalizing a with
  | nil =>
    refine ⟨ha, by simp, ?_⟩
    intro y hy
    simp only [List.mem_cons, List.not_mem_nil, or_false] at hy
    subst hy
    cases y <;> simp [Arith.flt, Over.lt]
  | cons b xs ih =>
    have hb := hx b (by simp)
    simp only [List.foldl_cons]
    by_cases hab : Arith.flt a b = true
    · rw [if_pos hab]
      obtain ⟨h1, h2, h3⟩ := ih b hb fun y hy => hx y (by simp [hy])
      refine ⟨h1, List.mem_cons_of_mem _ h2, ?_⟩
      intro y hy
      rcases List.mem_cons.mp hy with rfl | hy
      · have := h3 b (by simp)
        generalize List.foldl _ b xs = r at this h1
        revert this hab ha hb h1
        cases y <;> cases b <;> cases r <;> simp [Arith.flt, Over.lt, Low]
        intro h4 h5
        linarith
      · exact h3 y hy
    · rw [if_neg hab]
      obtain ⟨h1, h2, h3⟩ := ih a ha fun y hy => hx y (by simp [hy])
      refine ⟨h1, by simp only [List.mem_cons] at h2 ⊢; tauto, ?_⟩
      intro y hy
      simp only [List.mem_cons] at hy
      rcases hy with rfl | rfl | hy
      · exact h3 _ (by simp)
      · have := h3 a (by simp)
        generalize List.foldl _ a xs = r at this h1
        revert this hab ha hb h1
        cases y <;> cases a <;> cases r <;> simp [Arith.flt, Over.lt, Low]
        intro h4 h5
        linarith
      · exact h3 y (by simp [hy])

/-- the maximum is the largest of the finite entries -/
theorem over_maxval {x : List Over} (hx : ∀ y ∈ x, Low y) {a : ℝ} (ha : .fin a ∈ x) :
    ∃ m, fmaxval x = .fin m ∧ .fin m ∈ x ∧ ∀ b, .fin b ∈ x → b ≤ m := by
  cases x with
  | nil => simp at ha
  | cons z xs =>
    obtain ⟨h1, h2, h3⟩ := over_max xs z (hx z (by simp)) fun y hy => hx y (by simp [hy])
    have e : fmaxval (z :: xs) = xs.foldl (fun m y => if Arith.flt m y then y else m) z := rfl
    rw [← e] at h1 h2 h3
    generalize fmaxval (z :: xs) = r at *
    cases r with
    | pinf => exact h1.elim
    | nan => exact h1.elim
    | ninf => exact absurd (h3 _ ha) (by simp [Arith.flt, Over.lt])
    | fin m => exact ⟨m, rfl, h2, fun b hb => by simpa [Arith.flt, Over.lt] using h3 _ hb⟩

theorem moderate_low {y : Over} (h : Moderate y) : Low y := by cases y <;> simp_all [Moderate, Low]

theorem weight_nonneg (y : Over) : 0 ≤ weight y := by
  cases y <;> simp [weight, (Real.exp_pos _).le]

theorem weights_pos {x : List Over} {a : ℝ} (ha : .fin a ∈ x) : Real.exp a ≤ (x.map weight).sum := by
  refine List.single_le_sum ?_ _ (List.mem_map.mpr ⟨_, ha, rfl⟩)
  intro y hy
  obtain ⟨z, -, rfl⟩ := List.mem_map.mp hy
  exact weight_nonneg z

/-- facts about the maximum and the sum of the weights -/
theorem weights_bound {x : List Over} (hx : ∀ y ∈ x, Low y) {m : ℝ} (hle : ∀ b, .fin b ∈ x → b ≤ m) :
    (x.map weight).sum ≤ x.length * Real.exp m := by
  have : ∀ y ∈ x, weight y ≤ Real.exp m := by
    intro y hy
    cases y with
    | fin b => exact Real.exp_le_exp.mpr (hle b hy)
    | ninf => exact (Real.exp_pos m).le
    | pinf => exact (hx _ hy).elim
    | nan => exact (hx _ hy).elim
  have h2 := List.sum_le_card_nsmul (x.map weight) (Real.exp m) (by
    intro z hz
    obtain ⟨y, hy, rfl⟩ := List.mem_map.mp hz
    exact this y hy)
  simpa using h2

/-- the value, for moderate entries, one of them finite -/
theorem logSumExp_over {x : List Over} (hx : ∀ y ∈ x, Moderate y) {a : ℝ} (ha : .fin a ∈ x) (hn : (x.length : ℝ) ≤ 2 ^ 40) :
    logSumExpD x = .fin (Real.log (x.map weight).sum) ∧ |Real.log (x.map weight).sum| ≤ big / 2 ∧
      ∀ y ∈ x, (Arith.exp (Arith.sub y (.fin (Real.log (x.map weight).sum))) : Over) =
        .fin (weight y / (x.map weight).sum) := by
  obtain ⟨m, e, hm, hle⟩ := over_maxval (fun y hy => moderate_low (hx y hy)) ha
  have hmm : |m| ≤ big / 4 := hx _ hm
  obtain ⟨m1, m2⟩ := abs_le.mp hmm
  have hbig := big_ge
  set S := (x.map weight).sum with hS
  have h1 : Real.exp m ≤ S := weights_pos hm
  have h2 : S ≤ x.length * Real.exp m := weights_bound (fun y hy => moderate_low (hx y hy)) hle
  have hpos : 0 < S := (Real.exp_pos m).trans_le h1
  have l1 : m ≤ Real.log S := by rwa [Real.le_log_iff_exp_le hpos]
  have hn0 : 1 ≤ (x.length : ℝ) := by
    have : 0 < x.length := List.length_pos_of_mem hm
    exact_mod_cast this
  have l2 : Real.log S ≤ m + 2 ^ 40 := by
    have h3 : Real.log S ≤ Real.log (x.length * Real.exp m) := Real.log_le_log hpos h2
    rw [Real.log_mul (by linarith) (Real.exp_pos m).ne', Real.log_exp] at h3
    have := Real.log_le_sub_one_of_pos (by linarith : (0:ℝ) < x.length)
    linarith
  have hterm : ∀ y ∈ x, (Arith.exp (Arith.sub y (.fin m)) : Over) = .fin (weight y * Real.exp (-m)) := by
    intro y hy
    have hy' := hx y hy
    cases y with
    | fin b =>
      obtain ⟨b1, b2⟩ := abs_le.mp (show |b| ≤ big / 4 from hy')
      rw [Over.sub_fin (abs_le.mpr ⟨by linarith, by linarith⟩), Over.exp_fin (by linarith [hle b hy])]
      simp only [weight]
      rw [← Real.exp_add, sub_eq_add_neg]
    | ninf =>
      show Over.fin 0 = _
      simp [weight]
    | pinf => exact hy'.elim
    | nan => exact hy'.elim
  have hmap : x.map (fun y => (Arith.exp (Arith.sub y (.fin m)) : Over)) =
      (x.map fun y => weight y * Real.exp (-m)).map Over.fin := by
    rw [List.map_map]
    exact List.map_congr_left hterm
  have hsum : (x.map fun y => weight y * Real.exp (-m)).sum = S * Real.exp (-m) := by
    rw [List.sum_map_mul_right]
  have hEm : Real.exp m * Real.exp (-m) = 1 := by rw [← Real.exp_add]; simp
  have hle2 : S * Real.exp (-m) ≤ 2 ^ 40 := by
    calc S * Real.exp (-m) ≤ x.length * Real.exp m * Real.exp (-m) :=
          mul_le_mul_of_nonneg_right h2 (Real.exp_pos _).le
      _ = x.length := by rw [mul_assoc, hEm, mul_one]
      _ ≤ _ := hn
  have hpos2 : 0 < S * Real.exp (-m) := mul_pos hpos (Real.exp_pos _)
  have hlog : Real.log (S * Real.exp (-m)) = Real.log S - m := by
    rw [Real.log_mul hpos.ne' (Real.exp_pos _).ne', Real.log_exp, sub_eq_add_neg]
  refine ⟨?_, abs_le.mpr ⟨by linarith, by linarith⟩, ?_⟩
  · unfold logSumExpD
    simp only [e]
    rw [if_neg (by
      show ¬ decide (big < m) = true
      simp only [decide_eq_true_eq, not_lt]
      linarith [big_pos])]
    rw [hmap, over_sum _ (by
      intro z hz
      obtain ⟨y, -, rfl⟩ := List.mem_map.mp hz
      exact mul_nonneg (weight_nonneg y) (Real.exp_pos _).le) (by rw [hsum]; linarith), hsum]
    show Arith.add _ (if 0 < S * Real.exp (-m) then Over.fit (Real.log (S * Real.exp (-m))) else _) = _
    rw [if_pos hpos2, hlog, Over.fit_eq (abs_le.mpr ⟨by linarith, by linarith⟩),
      Over.add_fin (abs_le.mpr ⟨by linarith, by linarith⟩), add_sub_cancel]
  · intro y hy
    have hy' := hx y hy
    cases y with
    | fin b =>
      obtain ⟨b1, b2⟩ := abs_le.mp (show |b| ≤ big / 4 from hy')
      have := hle b hy
      rw [Over.sub_fin (abs_le.mpr ⟨by linarith, by linarith⟩), Over.exp_fin (by linarith)]
      simp only [weight]
      rw [Real.exp_sub, Real.exp_log hpos]
    | ninf =>
      show Over.fin 0 = _
      simp [weight]
    | pinf => exact hy'.elim
    | nan => exact hy'.elim

end Fz
