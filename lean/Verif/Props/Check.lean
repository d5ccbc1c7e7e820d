import Verif.Model.Check
import Verif.Spec.Over
import Mathlib.Tactic.Positivity
import Mathlib.Tactic.Linarith
import Mathlib.Tactic.NormNum

/-!
# C56: what a passing check says

The unit tests of the library, and tests of users made with `test.F90`, are sequences of checks.  For numbers, a check
passes exactly if all pairs are closer than its tolerance.  But NaN passes every check, and elements of the second
array beyond the size of the first are not looked at.
-/

namespace Props
open Fz Spec

/-- closer than the tolerance of `EXPECT_FLOAT_EQ` -/
def FloatClose (a b : ℝ) : Prop := |a - b| < 4.7683716e-7

/-- closer than the tolerance of `EXPECT_DBL_EQ` -/
def DblClose (a b : ℝ) : Prop := |a - b| < 8.8817841970012524e-16

/-- the tolerances are four times the distance of 1 to the next number of the kind -/
theorem tolF : (Arith.lit 4 0 *. ulpF : ℝ) = 4.7683716e-7 := by
  show ((4 : ℤ) : ℝ) * 10 ^ (0 : ℤ) * (((11920929 : ℤ) : ℝ) * 10 ^ (-14 : ℤ)) = _
  norm_num

theorem tolD : (Arith.lit 4 0 *. ulpD : ℝ) = 8.8817841970012524e-16 := by
  show ((4 : ℤ) : ℝ) * 10 ^ (0 : ℤ) * (((22204460492503131 : ℤ) : ℝ) * 10 ^ (-32 : ℤ)) = _
  norm_num

theorem far_iff (a b t : ℝ) : fge (Arith.fabs (a -. b)) t = true ↔ ¬ |a - b| < t := by
  unfold fge
  show decide (t ≤ |a - b|) = true ↔ _
  simp

/-- **C56**: `EXPECT_NEAR` of numbers passes if and only if they are closer than the tolerance; otherwise the program
stops with code 1 -/
theorem C56_near (a b tol : ℝ) : expectNear a b tol = if |a - b| < tol then .pass else .stop 1 := by
  unfold expectNear
  by_cases h : |a - b| < tol
  · rw [if_neg (fun e => (far_iff a b tol).mp e h), if_pos h]
  · rw [if_pos ((far_iff a b tol).mpr h), if_neg h]

open Classical in
/-- **C56**: `EXPECT_FLOAT_EQ` and `EXPECT_DBL_EQ` of numbers -/
theorem C56_equal (a b : ℝ) : expectFloatEq0 a b = (if FloatClose a b then .pass else .stop 5) ∧
    expectDblEq0 a b = if DblClose a b then .pass else .stop 5 := by
  constructor
  · unfold expectFloatEq0 FloatClose
    rw [tolF]
    by_cases h : |a - b| < 4.7683716e-7
    · rw [if_neg (fun e => (far_iff a b _).mp e h), if_pos h]
    · rw [if_pos ((far_iff a b _).mpr h), if_neg h]
  · unfold expectDblEq0 DblClose
    rw [tolD]
    by_cases h : |a - b| < 8.8817841970012524e-16
    · rw [if_neg (fun e => (far_iff a b _).mp e h), if_pos h]
    · rw [if_pos ((far_iff a b _).mpr h), if_neg h]

/-- **C56**: `EXPECT_EQ` and `EXPECT_TRUE` pass exactly if the integers are equal, and the condition is true -/
theorem C56_exact (m n : Int) (p : Bool) : (expectEq m n = .pass ↔ m = n) ∧ (expectEq m n = .stop 3 ↔ m ≠ n) ∧
    (expectTrue p = .pass ↔ p = true) ∧ (expectTrue p = .stop 4 ↔ p = false) := by
  unfold expectEq expectTrue
  refine ⟨?_, ?_, ?_, ?_⟩
  · by_cases h : m = n <;> simp [h]
  · by_cases h : m = n <;> simp [h]
  · cases p <;> simp
  · cases p <;> simp

theorem float1_iff : ∀ (a b : List ℝ), a.length = b.length →
    (expectFloatEq1 a b = .pass ↔ List.Forall₂ FloatClose a b) ∧ (expectFloatEq1 a b = .pass ∨ expectFloatEq1 a b = .stop 5)
  | [], [], _ => by simp [expectFloatEq1]
  | [], _ :: _, h => by simp at h
  | _ :: _, [], h => by simp at h
  | a :: as, b :: bs, h => by
    obtain ⟨h1, h2⟩ := float1_iff as bs (by simpa using h)
    simp only [expectFloatEq1, tolF, List.forall₂_cons]
    by_cases hc : |a - b| < 4.7683716e-7
    · rw [if_neg (fun e => (far_iff a b _).mp e hc)]
      exact ⟨⟨fun x => ⟨hc, h1.mp x⟩, fun x => h1.mpr x.2⟩, h2⟩
    · rw [if_pos ((far_iff a b _).mpr hc)]
      exact ⟨⟨fun x => by simp at x, fun x => absurd x.1 hc⟩, Or.inr rfl⟩

theorem dbl1_iff : ∀ (a b : List ℝ), a.length = b.length →
    (expectDblEq1 a b = .pass ↔ List.Forall₂ DblClose a b) ∧ (expectDblEq1 a b = .pass ∨ expectDblEq1 a b = .stop 5)
  | [], [], _ => by simp [expectDblEq1]
  | [], _ :: _, h => by simp at h
  | _ :: _, [], h => by simp at h
  | a :: as, b :: bs, h => by
    obtain ⟨h1, h2⟩ := dbl1_iff as bs (by simpa using h)
    simp only [expectDblEq1, tolD, List.forall₂_cons]
    by_cases hc : |a - b| < 8.8817841970012524e-16
    · rw [if_neg (fun e => (far_iff a b _).mp e hc)]
      exact ⟨⟨fun x => ⟨hc, h1.mp x⟩, fun x => h1.mpr x.2⟩, h2⟩
    · rw [if_pos ((far_iff a b _).mpr hc)]
      exact ⟨⟨fun x => by simp at x, fun x => absurd x.1 hc⟩, Or.inr rfl⟩

/-- **C56**: a check of two arrays of numbers of the same size passes if and only if all pairs are close; otherwise the
program stops with code 5.  Missing (and false): arrays of different sizes (`C56_sizes_refuted`), NaN
(`C56_nan_refuted`). -/
theorem C56_arrays_partial {a b : List ℝ} (h : a.length = b.length) :
    (expectFloatEq1 a b = .pass ↔ List.Forall₂ FloatClose a b) ∧
    (¬ List.Forall₂ FloatClose a b → expectFloatEq1 a b = .stop 5) ∧
    (expectDblEq1 a b = .pass ↔ List.Forall₂ DblClose a b) ∧
    (¬ List.Forall₂ DblClose a b → expectDblEq1 a b = .stop 5) := by
  obtain ⟨h1, h2⟩ := float1_iff a b h
  obtain ⟨h3, h4⟩ := dbl1_iff a b h
  refine ⟨h1, fun hn => h2.resolve_left fun e => hn (h1.mp e), h3, fun hn => h4.resolve_left fun e => hn (h3.mp e)⟩

/-- **C56**: the same for matrices of the same shape (lists of columns) -/
theorem C56_matrices_partial : ∀ {a b : List (List ℝ)}, List.Forall₂ (fun x y => x.length = y.length) a b →
    (expectFloatEq2 a b = .pass ↔ List.Forall₂ (List.Forall₂ FloatClose) a b) ∧
    (¬ List.Forall₂ (List.Forall₂ FloatClose) a b → expectFloatEq2 a b = .stop 5) ∧
    (expectDblEq2 a b = .pass ↔ List.Forall₂ (List.Forall₂ DblClose) a b) ∧
    (¬ List.Forall₂ (List.Forall₂ DblClose) a b → expectDblEq2 a b = .stop 5)
  | [], [], _ => by simp [expectFloatEq2, expectDblEq2]
  | a :: as, b :: bs, h => by
    obtain ⟨hl, ht⟩ := List.forall₂_cons.mp h
    obtain ⟨r1, r2, r3, r4⟩ := C56_matrices_partial ht
    obtain ⟨f1, f2, d1, d2⟩ := C56_arrays_partial hl
    have e1 : expectFloatEq2 (a :: as) (b :: bs) = (expectFloatEq1 a b).andThen fun _ => expectFloatEq2 as bs := by
      cases a <;> simp [expectFloatEq2]
    have e2 : expectDblEq2 (a :: as) (b :: bs) = (expectDblEq1 a b).andThen fun _ => expectDblEq2 as bs := by
      cases a <;> simp [expectDblEq2]
    rw [e1, e2, List.forall₂_cons, List.forall₂_cons]
    refine ⟨?_, ?_, ?_, ?_⟩
    · by_cases hc : List.Forall₂ FloatClose a b
      · rw [f1.mpr hc]; exact ⟨fun x => ⟨hc, r1.mp x⟩, fun x => r1.mpr x.2⟩
      · rw [f2 hc]; exact ⟨fun x => by simp [Check.andThen] at x, fun x => absurd x.1 hc⟩
    · intro hn
      by_cases hc : List.Forall₂ FloatClose a b
      · rw [f1.mpr hc]; exact r2 fun x => hn ⟨hc, x⟩
      · rw [f2 hc]; rfl
    · by_cases hc : List.Forall₂ DblClose a b
      · rw [d1.mpr hc]; exact ⟨fun x => ⟨hc, r3.mp x⟩, fun x => r3.mpr x.2⟩
      · rw [d2 hc]; exact ⟨fun x => by simp [Check.andThen] at x, fun x => absurd x.1 hc⟩
    · intro hn
      by_cases hc : List.Forall₂ DblClose a b
      · rw [d1.mpr hc]; exact r4 fun x => hn ⟨hc, x⟩
      · rw [d2 hc]; rfl

/-- **C56** (defect): the size of the second array is not looked at.  Any array passes against itself followed by
anything; against a proper part of itself an element outside is read. -/
theorem C56_sizes_refuted (a rest : List ℝ) (x : ℝ) :
    expectFloatEq1 a (a ++ rest) = .pass ∧ expectDblEq1 a (a ++ rest) = .pass ∧
    expectFloatEq1 (a ++ x :: rest) a = .outside ∧ expectDblEq1 (a ++ x :: rest) a = .outside := by
  have z : ∀ t y : ℝ, 0 < t → ¬ (fge (Arith.fabs (y -. y)) t = true) := fun t y ht e =>
    (far_iff y y t).mp e (by simpa using ht)
  induction a with
  | nil => simp [expectFloatEq1, expectDblEq1]
  | cons y a ih =>
    obtain ⟨h1, h2, h3, h4⟩ := ih
    simp only [List.cons_append, expectFloatEq1, expectDblEq1, tolF, tolD]
    rw [if_neg (z _ y (by norm_num)), if_neg (z _ y (by norm_num))]
    simp only [if_neg (z 4.7683716e-7 y (by norm_num)), if_neg (z 8.8817841970012524e-16 y (by norm_num))]
    exact ⟨h1, h2, h3, h4⟩

/-- **C56** (defect): NaN passes every check, on either side, for every tolerance, and so do arrays of NaNs.  (The
arithmetic is that of `Spec/Over.lean`: numbers, infinities and NaN.) -/
theorem C56_nan_refuted [SumOrder] (b tol : Over) (bs : List Over) :
    expectNear .nan b tol = .pass ∧ expectNear b .nan tol = .pass ∧
    expectFloatEq0 .nan b = .pass ∧ expectFloatEq0 b .nan = .pass ∧ expectDblEq0 .nan b = .pass ∧
    expectDblEq0 b .nan = .pass ∧ expectFloatEq1 (bs.map fun _ => Over.nan) bs = .pass ∧
    expectDblEq1 (bs.map fun _ => Over.nan) bs = .pass := by
  have l : ∀ (x t : Over), fge (Arith.fabs (Over.nan -. x)) t = false := by
    intro x t
    cases x <;> cases t <;> rfl
  have r : ∀ (x t : Over), fge (Arith.fabs (x -. Over.nan)) t = false := by
    intro x t
    cases x <;> cases t <;> rfl
  refine ⟨?_, ?_, ?_, ?_, ?_, ?_, ?_, ?_⟩
  · simp [expectNear, l]
  · simp [expectNear, r]
  · simp [expectFloatEq0, l]
  · simp [expectFloatEq0, r]
  · simp [expectDblEq0, l]
  · simp [expectDblEq0, r]
  · induction bs with
    | nil => rfl
    | cons b bs ih => simp only [List.map_cons, expectFloatEq1, l]; exact ih
  · induction bs with
    | nil => rfl
    | cons b bs ih => simp only [List.map_cons, expectDblEq1, l]; exact ih

/-- **C56** (limit of the checks): the tolerances are absolute.  For every factor `K` there are positive numbers, one
more than `K` times the other, that `EXPECT_DBL_EQ` accepts as equal; and for every bound there are numbers above it
whose ratio is as close to one as two neighbouring doubles are that it rejects. -/
theorem C56_absolute (K : ℝ) (hK : 1 ≤ K) :
    (∃ a b : ℝ, 0 < a ∧ K * a < b ∧ expectDblEq0 a b = .pass) ∧
    ∃ a b : ℝ, K < a ∧ a < b ∧ b / a ≤ 1 + 2 ^ (-52 : ℤ) ∧ expectDblEq0 a b = .stop 5 := by
  have hk : 0 < K := by linarith
  constructor
  · refine ⟨1e-16 / (2 * K), 1e-16, by positivity, ?_, ?_⟩
    · have : K * (1e-16 / (2 * K)) = 1e-16 / 2 := by field_simp
      rw [this]; norm_num
    · rw [(C56_equal _ _).2, if_pos]
      have h0 : 0 < (1e-16 : ℝ) / (2 * K) := by positivity
      have h1 : (1e-16 : ℝ) / (2 * K) ≤ 1e-16 := by
        rw [div_le_iff₀ (by positivity)]
        nlinarith
      unfold DblClose
      generalize (1e-16 : ℝ) / (2 * K) = z at h0 h1
      rw [abs_lt]
      constructor <;> norm_num at h1 ⊢ <;> linarith
  · have h2 : (0:ℝ) < 8 * K * 2 ^ (-52 : ℤ) := by positivity
    refine ⟨8 * K, 8 * K + 8 * K * 2 ^ (-52 : ℤ), by linarith, by linarith, ?_, ?_⟩
    · rw [div_le_iff₀ (by positivity)]
      linarith
    · rw [(C56_equal _ _).2, if_neg]
      unfold DblClose
      rw [not_lt, show 8 * K - (8 * K + 8 * K * 2 ^ (-52 : ℤ)) = -(8 * K * 2 ^ (-52 : ℤ)) by ring, abs_neg,
        abs_of_pos (by positivity)]
      have : (8.8817841970012524e-16 : ℝ) ≤ 8 * 2 ^ (-52 : ℤ) := by norm_num
      have h2 : (8 : ℝ) * 2 ^ (-52 : ℤ) ≤ 8 * K * 2 ^ (-52 : ℤ) := by
        have : (0:ℝ) < 2 ^ (-52 : ℤ) := by positivity
        nlinarith
      linarith

/-- arrays and matrices of the same shape, some of them close and some not -/
example : ([1, 2] : List ℝ).length = [1, 2.0000001].length ∧ List.Forall₂ FloatClose ([1, 2] : List ℝ) [1, 2.0000001] ∧
    ¬ List.Forall₂ DblClose ([1, 2] : List ℝ) [1, 2.0000001] ∧
    List.Forall₂ (fun x y => x.length = y.length) ([[1, 2], [3, 4]] : List (List ℝ)) [[1, 2], [3, 5]] := by
  refine ⟨rfl, ?_, ?_, ?_⟩
  · simp only [List.forall₂_cons, FloatClose]
    norm_num
  · simp only [List.forall₂_cons, DblClose]
    norm_num
  · simp

end Props
