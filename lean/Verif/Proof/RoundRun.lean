import Verif.Proof.Round

/-! # Every call: rounded rule and exact rule -/

set_option linter.unusedSectionVars false

namespace Fz
open Spec

variable {F : Floats}

/-- two computations that write down corresponding steps -/
def LPair {α β : Type} (m : Log (Flo F) α) (m' : Log ℝ β) : Prop :=
  ∀ T E, List.Forall₂ (Pair F) T E → List.Forall₂ (Pair F) (m T).2 (m' E).2

theorem lpair_ret {α β : Type} (x : α) (y : β) : LPair (F := F) (.ret x) (.ret y) := fun _ _ h => h

theorem lpair_each {α β γ δ : Type} {f : α → Log (Flo F) β} {f' : γ → Log ℝ δ} {l : List α} {l' : List γ}
    (h : List.Forall₂ (fun a b => LPair (f a) (f' b)) l l') : LPair (Log.each f l) (Log.each f' l') := by
  induction h with
  | nil => exact lpair_ret _ _
  | cons h _ ih =>
    intro T E hT
    simp only [Log.each, Log.next, Log.ret]
    exact ih _ _ (h _ _ hT)

theorem map_ref (xs : List (Num (Flo F))) : (xs.map Num.real).map Num.ref = xs.map Num.ref := by
  rw [List.map_map]
  rfl

/-- one step -/
theorem lpair_step {v : Flo F} {v' : ℝ} {xs : List (Num (Flo F))} {pass : Flo F → List (Flo F)} {pass' : ℝ → List ℝ}
    (p : List ℝ) (h1 : ∀ a, pass' a = p.map (· * a))
    (h2 : ∀ a : Flo F, List.Forall₂ (fun c q => Near F (8 + 2 * xs.length) (Flo.real c) (q * a.real)) (pass a) p) :
    LPair (step v xs pass) (step v' (xs.map Num.real) pass') := by
  intro T E hT
  simp only [step]
  refine List.rel_append hT (.cons ⟨(map_ref xs).symm, p, h1, ?_⟩ .nil)
  intro a
  simpa using h2 a

theorem lpair_input (v : Flo F) (v' : ℝ) : LPair (F := F) (input v) (input v') :=
  lpair_step (xs := []) [] (fun _ => rfl) fun _ => .nil

theorem lpair_inputs (l : List (Flo F)) (l' : List ℝ) (h : l.length = l'.length) :
    LPair (Log.each input l) (Log.each input l') := by
  refine lpair_each ?_
  induction l generalizing l' with
  | nil =>
    cases l' with
    | nil => exact .nil
    | cons _ _ => simp at h
  | cons v l ih =>
    cases l' with
    | nil => simp at h
    | cons v' l' => exact .cons (lpair_input v v') (ih l' (by simpa using h))

theorem nearR (x : Flo F) : Near F 0 x.real x.real := Near.rfl

theorem near_one : Near F 0 (Flo.real (F := F) Arith.one) 1 := by
  have : Flo.real (F := F) Arith.one = 1 := F.one
  rw [this]
  exact Near.rfl

theorem near_two : Near F 0 (Flo.real (F := F) Arith.two) 2 := by
  have : Flo.real (F := F) Arith.two = 2 := F.two
  rw [this]
  exact Near.rfl

theorem near_half : Near F 0 (Flo.real (F := F) Arith.half) (1 / 2) := by
  have : Flo.real (F := F) Arith.half = 1 / 2 := F.half
  rw [this]
  exact Near.rfl

theorem near_sin (x : Flo F) : Near F 1 (Arith.sin x : Flo F).real (Real.sin x.real) := near_of_within (F.sin x)
theorem near_cos (x : Flo F) : Near F 1 (Arith.cos x : Flo F).real (Real.cos x.real) := near_of_within (F.cos x)
theorem near_tan (x : Flo F) : Near F 1 (Arith.tan x : Flo F).real (Real.tan x.real) := near_of_within (F.tan x)
theorem near_sinh (x : Flo F) : Near F 1 (Arith.sinh x : Flo F).real (Real.sinh x.real) := near_of_within (F.sinh x)
theorem near_cosh (x : Flo F) : Near F 1 (Arith.cosh x : Flo F).real (Real.cosh x.real) := near_of_within (F.cosh x)
theorem near_exp (x : Flo F) : Near F 1 (Arith.exp x : Flo F).real (Real.exp x.real) := near_of_within (F.exp x)

/-- one operand -/
theorem lpair_one {v : Flo F} {v' : ℝ} (x : Num (Flo F)) {g : Flo F → Flo F} {g' : ℝ → ℝ} (p : ℝ) {m : Nat} (hm : m ≤ 10)
    (h1 : ∀ a, g' a = p * a) (h2 : ∀ a : Flo F, Near F m (Flo.real (g a)) (p * a.real)) :
    LPair (step v [x] fun a => [g a]) (step v' [x.real] fun a => [g' a]) :=
  lpair_step (xs := [x]) [p] (fun a => by simp [h1]) fun a => .cons ((h2 a).mono (by simpa using hm)) .nil

theorem Near.cast {m : Nat} {c e e' : ℝ} (h : Near F m c e) (he : e = e') : Near F m c e' := he ▸ h

/-- functions of one variable -/
theorem fn_pair {f : Fn} (x : Num (Flo F)) (h : f.Tame x.val.real) : LPair (F := F) (f.write x) (f.write x.real) := by
  have X := nearR x.val
  cases f with
  | pos => exact lpair_ret _ _
  | neg =>
    exact lpair_one x (-1) (m := 0) (by omega) (fun a => by show -a = -1 * a; ring)
      fun a => (neg_near (nearR a)).cast (by ring)
  | abs =>
    have f1 : (Arith.flt (Arith.zero : Flo F) x.val = true) ↔ (Arith.flt (Arith.zero : ℝ) x.real.val = true) := by
      have h1 := F.flt F.arith.zero x.val
      rw [F.zero] at h1
      show F.arith.flt F.arith.zero x.val = true ↔ _
      rw [F.zero, h1]
      show _ ↔ decide ((0:ℝ) < x.val.real) = true
      rw [decide_eq_true_eq]
      rfl
    have f2 : (Arith.flt x.val (Arith.zero : Flo F) = true) ↔ (Arith.flt x.real.val (Arith.zero : ℝ) = true) := by
      have h1 := F.flt x.val F.arith.zero
      rw [F.zero] at h1
      show F.arith.flt x.val F.arith.zero = true ↔ _
      rw [F.zero, h1]
      show _ ↔ decide (x.val.real < (0:ℝ)) = true
      rw [decide_eq_true_eq]
      rfl
    have f3 : (Arith.feq x.val (Arith.zero : Flo F) = true) ↔ (Arith.feq x.real.val (Arith.zero : ℝ) = true) := by
      have h1 := F.feq x.val F.arith.zero
      rw [F.zero] at h1
      show F.arith.feq x.val F.arith.zero = true ↔ _
      rw [F.zero, h1]
      show _ ↔ decide (x.val.real = (0:ℝ)) = true
      rw [decide_eq_true_eq]
      rfl
    simp only [Fn.write]
    by_cases h1 : Arith.flt (Arith.zero : Flo F) x.val = true
    · rw [if_pos h1, if_pos (f1.mp h1)]
      exact lpair_ret _ _
    · rw [if_neg h1, if_neg (fun h => h1 (f1.mpr h))]
      by_cases h2 : Arith.flt x.val (Arith.zero : Flo F) = true
      · rw [if_pos h2, if_pos (f2.mp h2)]
        exact lpair_one x (-1) (m := 0) (by omega) (fun a => by show -a = -1 * a; ring)
          fun a => (neg_near (nearR a)).cast (by ring)
      · rw [if_neg h2, if_neg (fun h => h2 (f2.mpr h))]
        have h3 : Arith.feq x.real.val (Arith.zero : ℝ) = true := by
          rw [f1] at h1
          rw [f2] at h2
          have h1 : ¬ decide ((0:ℝ) < x.real.val) = true := h1
          have h2 : ¬ decide (x.real.val < (0:ℝ)) = true := h2
          rw [decide_eq_true_eq] at h1 h2
          show decide (x.real.val = 0) = true
          rw [decide_eq_true_eq]
          exact le_antisymm (not_lt.mp h1) (not_lt.mp h2)
        rw [if_pos h3, if_pos (f3.mpr h3)]
        exact lpair_input _ _
  | sin =>
    exact lpair_one x (Real.cos x.val.real) (m := 2) (by omega)
      (fun a => by show a * Real.cos x.val.real = _; ring)
      fun a => (mul_near (nearR a) (near_cos x.val)).cast (by ring)
  | cos =>
    exact lpair_one x (-Real.sin x.val.real) (m := 2) (by omega)
      (fun a => by show -(a * Real.sin x.val.real) = _; ring)
      fun a => (neg_near (mul_near (nearR a) (near_sin x.val))).cast (by ring)
  | tan =>
    have v := near_tan x.val
    exact lpair_one x (1 + Real.tan x.val.real * Real.tan x.val.real) (m := 5) (by omega)
      (fun a => by show a * (1 + Real.tan x.val.real * Real.tan x.val.real) = _; ring)
      fun a => (mul_near (nearR a) (add_near (near_one.mono (by omega)) (mul_near v v) zero_le_one (mul_self_nonneg _))).cast
        (by ring)
  | atan =>
    have hp : (1:ℝ) + x.val.real * x.val.real ≠ 0 := by nlinarith [mul_self_nonneg x.val.real]
    exact lpair_one x (1 / (1 + x.val.real * x.val.real)) (m := 3) (by omega)
      (fun a => by show a / (1 + x.val.real * x.val.real) = _; ring)
      fun a => (div_near (nearR a) (add_near (near_one.mono (by omega)) (mul_near X X) zero_le_one (mul_self_nonneg _)) hp).cast
        (by ring)
  | sinh =>
    exact lpair_one x (Real.cosh x.val.real) (m := 2) (by omega)
      (fun a => by show a * Real.cosh x.val.real = _; ring)
      fun a => (mul_near (nearR a) (near_cosh x.val)).cast (by ring)
  | cosh =>
    exact lpair_one x (Real.sinh x.val.real) (m := 2) (by omega)
      (fun a => by show a * Real.sinh x.val.real = _; ring)
      fun a => (mul_near (nearR a) (near_sinh x.val)).cast (by ring)
  | tanh =>
    have v := near_cosh x.val
    have hp := (Real.cosh_pos x.val.real).ne'
    exact lpair_one x (1 / (Real.cosh x.val.real * Real.cosh x.val.real)) (m := 4) (by omega)
      (fun a => by show a / (Real.cosh x.val.real * Real.cosh x.val.real) = _; ring)
      fun a => (div_near (nearR a) (mul_near v v) (mul_ne_zero hp hp)).cast (by ring)
  | asinh =>
    have hq : (0:ℝ) < x.val.real * x.val.real + 1 := by nlinarith [mul_self_nonneg x.val.real]
    exact lpair_one x (1 / √(x.val.real * x.val.real + 1)) (m := 4) (by omega)
      (fun a => by show a / √(x.val.real * x.val.real + 1) = _; ring)
      fun a => (div_near (nearR a) (sqrt_near (add_near (mul_near X X) (near_one.mono (by omega)) (mul_self_nonneg _)
        zero_le_one) hq.le) (Real.sqrt_pos.mpr hq).ne').cast (by ring)
  | sqrt =>
    have hx : 0 < x.val.real := h
    exact lpair_one x (1 / 2 / √x.val.real) (m := 3) (by omega)
      (fun a => by show 1 / 2 * a / √x.val.real = _; ring)
      fun a => (div_near (mul_near near_half (nearR a)) (sqrt_near X hx.le) (Real.sqrt_pos.mpr hx).ne').cast (by ring)
  | inv =>
    have hx : x.val.real ≠ 0 := h
    exact lpair_one x (-(1 / (x.val.real * x.val.real))) (m := 2) (by omega)
      (fun a => by show -(a / (x.val.real * x.val.real)) = _; ring)
      fun a => (neg_near (div_near (nearR a) (mul_near X X) (mul_ne_zero hx hx))).cast (by ring)
  | square =>
    exact lpair_one x (2 * x.val.real) (m := 2) (by omega)
      (fun a => by show a * 2 * x.val.real = _; ring)
      fun a => (mul_near (mul_near (nearR a) near_two) X).cast (by ring)
  | invSquare =>
    have hx : x.val.real ≠ 0 := h
    exact lpair_one x (-(2 / (x.val.real * x.val.real * x.val.real))) (m := 4) (by omega)
      (fun a => by show -(a * 2 / (x.val.real * x.val.real * x.val.real)) = _; ring)
      fun a => (neg_near (div_near (mul_near (nearR a) near_two) (mul_near (mul_near X X) X)
        (mul_ne_zero (mul_ne_zero hx hx) hx))).cast (by ring)
  | invSqrt =>
    have hx : 0 < x.val.real := h
    have hs := (Real.sqrt_pos.mpr hx).ne'
    exact lpair_one x (-(1 / 2 / (x.val.real * √x.val.real))) (m := 4) (by omega)
      (fun a => by show -(1 / 2 * a / (x.val.real * √x.val.real)) = _; ring)
      fun a => (neg_near (div_near (mul_near near_half (nearR a)) (mul_near X (sqrt_near X hx.le))
        (mul_ne_zero hx.ne' hs))).cast (by ring)
  | exp =>
    exact lpair_one x (Real.exp x.val.real) (m := 2) (by omega)
      (fun a => by show a * Real.exp x.val.real = _; ring)
      fun a => (mul_near (nearR a) (near_exp x.val)).cast (by ring)
  | log =>
    have hx : x.val.real ≠ 0 := h
    exact lpair_one x (1 / x.val.real) (m := 1) (by omega)
      (fun a => by show a / x.val.real = _; ring)
      fun a => (div_near (nearR a) X hx).cast (by ring)
  | asin => exact h.elim
  | acos => exact h.elim
  | acosh => exact h.elim
  | atanh => exact h.elim
  | logit => exact h.elim
  | invLogit => exact h.elim
  | erf => exact h.elim
  | erfc => exact h.elim
  | logGamma => exact h.elim

theorem near_hypot (x y : Flo F) : Near F 1 (Arith.hypot x y : Flo F).real (√(x.real ^ 2 + y.real ^ 2)) :=
  near_of_within (F.hypot x y)

/-- two operands -/
theorem lpair_two {v : Flo F} {v' : ℝ} (x y : Num (Flo F)) {g : Flo F → List (Flo F)} {g' : ℝ → List ℝ} (p q : ℝ) {m : Nat}
    (hm : m ≤ 12) (h1 : ∀ a, g' a = [p * a, q * a])
    (h2 : ∀ a : Flo F, ∃ c d, g a = [c, d] ∧ Near F m (Flo.real c) (p * a.real) ∧ Near F m (Flo.real d) (q * a.real)) :
    LPair (step v [x, y] g) (step v' [x.real, y.real] g') :=
  lpair_step (xs := [x, y]) [p, q] (fun a => by simp [h1]) fun a => by
    obtain ⟨c, d, e, k1, k2⟩ := h2 a
    rw [e]
    exact .cons (k1.mono (by simpa using hm)) (.cons (k2.mono (by simpa using hm)) .nil)

theorem hyp_ne {x y : ℝ} (h : x ≠ 0 ∨ y ≠ 0) : √(x ^ 2 + y ^ 2) ≠ 0 := by
  refine (Real.sqrt_pos.mpr ?_).ne'
  rcases h with h | h
  · have := pow_pos (abs_pos.mpr h) 2
    rw [sq_abs] at this
    nlinarith [sq_nonneg y]
  · have := pow_pos (abs_pos.mpr h) 2
    rw [sq_abs] at this
    nlinarith [sq_nonneg x]

theorem near_log (x : Flo F) (h : 0 < x.real) : Near F 1 (Arith.log x : Flo F).real (Real.log x.real) :=
  near_of_within (F.log x h)

theorem near_pow (x y : Flo F) (h : 0 < x.real) : Near F 1 (Arith.pow x y : Flo F).real (x.real ^ y.real) :=
  near_of_within (F.pow x y h)

theorem feq_flo (x y : Flo F) : Arith.feq x y = true ↔ x.real = y.real := F.feq x y

theorem feq_real (x y : ℝ) : Arith.feq x y = true ↔ x = y := by
  show decide (x = y) = true ↔ _
  rw [decide_eq_true_eq]

theorem zero_flo : Flo.real (F := F) Arith.zero = 0 := F.zero
theorem one_flo : Flo.real (F := F) Arith.one = 1 := F.one
theorem two_flo : Flo.real (F := F) Arith.two = 2 := F.two
theorem half_flo : Flo.real (F := F) Arith.half = 1 / 2 := F.half
theorem neg_flo (x : Flo F) : Flo.real (F := F) (Arith.neg x) = -x.real := F.neg x

/-- a comparison with a constant takes the same branch -/
theorem feq_both {x y : Flo F} {y' : ℝ} (hy : y.real = y') : Arith.feq x y = Arith.feq x.real y' := by
  rw [Bool.eq_iff_iff, feq_flo, feq_real, hy]

theorem bin_pair {f : Bin} (x y : Num (Flo F)) (h : f.Tame x.val.real y.val.real) :
    LPair (F := F) (f.write x y) (f.write x.real y.real) := by
  have X := nearR x.val
  have Y := nearR y.val
  cases f with
  | add =>
    exact lpair_two x y 1 1 (m := 0) (by omega) (fun a => by show [a, a] = _; simp)
      fun a => ⟨a, a, rfl, (nearR a).cast (by ring), (nearR a).cast (by ring)⟩
  | sub =>
    exact lpair_two x y 1 (-1) (m := 0) (by omega) (fun a => by show [a, -a] = _; simp)
      fun a => ⟨a, Arith.neg a, rfl, (nearR a).cast (by ring), (neg_near (nearR a)).cast (by ring)⟩
  | mul =>
    exact lpair_two x y y.val.real x.val.real (m := 1) (by omega) (fun a => rfl)
      fun a => ⟨_, _, rfl, mul_near Y (nearR a), mul_near X (nearR a)⟩
  | div =>
    have hy : y.val.real ≠ 0 := h
    exact lpair_two x y (1 / y.val.real) (-(x.val.real / y.val.real / y.val.real)) (m := 3) (by omega)
      (fun a => by
        show [a / y.val.real, -(x.val.real / y.val.real * a / y.val.real)] = _
        congr 1
        · ring
        · congr 1
          ring)
      fun a => ⟨_, _, rfl, ((div_near (nearR a) Y hy).mono (by omega)).cast (by ring),
        (neg_near (div_near (mul_near (div_near X Y hy) (nearR a)) Y hy)).cast (by ring)⟩
  | hypot =>
    have hn := hyp_ne h
    exact lpair_two x y (x.val.real / √(x.val.real ^ 2 + y.val.real ^ 2)) (y.val.real / √(x.val.real ^ 2 + y.val.real ^ 2))
      (m := 3) (by omega)
      (fun a => by
        show [a * x.val.real / √(x.val.real ^ 2 + y.val.real ^ 2), a * y.val.real / √(x.val.real ^ 2 + y.val.real ^ 2)] = _
        congr 1
        · ring
        · congr 1
          ring)
      fun a => ⟨_, _, rfl, (div_near (mul_near (nearR a) X) (near_hypot x.val y.val) hn).cast (by ring),
        (div_near (mul_near (nearR a) Y) (near_hypot x.val y.val) hn).cast (by ring)⟩
  | pow =>
    have hx : 0 < x.val.real := h
    have h1 : Arith.feq x.val (Arith.zero : Flo F) = false := by
      rw [← Bool.not_eq_true, feq_flo, zero_flo]; exact hx.ne'
    have h2 : Arith.feq x.real.val (Arith.zero : ℝ) = false := by
      rw [← Bool.not_eq_true, feq_real]; exact hx.ne'
    have P := near_pow x.val y.val hx
    refine lpair_two x y (y.val.real * x.val.real ^ y.val.real / x.val.real) (x.val.real ^ y.val.real * Real.log x.val.real)
      (m := 4) (by omega) (fun a => ?_) fun a => ?_
    · simp only [Bin.pass, h2]
      show [a * y.val.real * x.val.real ^ y.val.real / x.val.real, a * x.val.real ^ y.val.real * Real.log x.val.real] = _
      congr 1
      · ring
      · congr 1
        ring
    · simp only [Bin.pass, h1]
      exact ⟨_, _, rfl, (div_near (mul_near (mul_near (nearR a) Y) P) X hx.ne').cast (by ring),
        (mul_near (mul_near (nearR a) P) (near_log x.val hx)).cast (by ring)⟩

theorem binVD_pair {f : Bin} (x : Num (Flo F)) (d : Flo F) (h : f.Tame x.val.real d.real) :
    LPair (F := F) (f.writeVD x d) (f.writeVD x.real d.real) := by
  have X := nearR x.val
  have D := nearR d
  cases f with
  | add =>
    exact lpair_one x 1 (m := 0) (by omega) (fun a => by show a = _; ring) fun a => (nearR a).cast (by ring)
  | sub =>
    exact lpair_one x 1 (m := 0) (by omega) (fun a => by show a = _; ring) fun a => (nearR a).cast (by ring)
  | mul =>
    exact lpair_one x d.real (m := 1) (by omega) (fun a => by show a * d.real = _; ring)
      fun a => (mul_near (nearR a) D).cast (by ring)
  | div =>
    have hd : d.real ≠ 0 := h
    exact lpair_one x (1 / d.real) (m := 1) (by omega) (fun a => by show a / d.real = _; ring)
      fun a => (div_near (nearR a) D hd).cast (by ring)
  | hypot =>
    have hn := hyp_ne h
    exact lpair_one x (x.val.real / √(x.val.real ^ 2 + d.real ^ 2)) (m := 3) (by omega)
      (fun a => by show a * x.val.real / √(x.val.real ^ 2 + d.real ^ 2) = _; ring)
      fun a => (div_near (mul_near (nearR a) X) (near_hypot x.val d) hn).cast (by ring)
  | pow =>
    have hx : 0 < x.val.real := h
    have e1 : Arith.feq d (Arith.half : Flo F) = Arith.feq d.real (Arith.half : ℝ) := feq_both half_flo
    have e2 : Arith.feq d (Arith.one : Flo F) = Arith.feq d.real (Arith.one : ℝ) := feq_both one_flo
    have e3 : Arith.feq d (Arith.two : Flo F) = Arith.feq d.real (Arith.two : ℝ) := feq_both two_flo
    have e4 : Arith.feq d (Arith.neg Arith.one : Flo F) = Arith.feq d.real (Arith.neg Arith.one : ℝ) :=
      feq_both ((neg_flo _).trans (by rw [one_flo]; rfl))
    have e5 : Arith.feq d (Arith.neg Arith.half : Flo F) = Arith.feq d.real (Arith.neg Arith.half : ℝ) :=
      feq_both ((neg_flo _).trans (by rw [half_flo]; rfl))
    have e6 : Arith.feq d (Arith.neg Arith.two : Flo F) = Arith.feq d.real (Arith.neg Arith.two : ℝ) :=
      feq_both ((neg_flo _).trans (by rw [two_flo]; rfl))
    have h1 : Arith.feq x.val (Arith.zero : Flo F) = false := by
      rw [← Bool.not_eq_true, feq_flo, zero_flo]; exact hx.ne'
    have h2 : Arith.feq x.real.val (Arith.zero : ℝ) = false := by
      rw [← Bool.not_eq_true, feq_real]; exact hx.ne'
    simp only [Bin.writeVD, Bin.plainVD, Bin.passVD, e1, e2, e3, e4, e5, e6, h1, h2, Bool.false_eq_true, if_false]
    split_ifs with c1 c2 c3 c4 c5 c6
    · exact fn_pair (f := .sqrt) x hx
    · exact lpair_ret _ _
    · exact fn_pair (f := .square) x trivial
    · exact fn_pair (f := .inv) x hx.ne'
    · exact fn_pair (f := .invSqrt) x hx
    · refine lpair_one x (d.real * (1 / (x.val.real * x.val.real)) / x.val.real) (m := 5) (by omega) (fun a => ?_) fun a => ?_
      · show a * d.real * (1 / (x.val.real * x.val.real)) / x.val.real = _
        ring
      · exact (div_near (mul_near (mul_near (nearR a) D) (div_near near_one (mul_near X X) (mul_pos hx hx).ne')) X hx.ne').cast
          (by ring)
    · refine lpair_one x (d.real * x.val.real ^ d.real / x.val.real) (m := 4) (by omega) (fun a => ?_) fun a => ?_
      · show a * d.real * x.val.real ^ d.real / x.val.real = _
        ring
      · exact (div_near (mul_near (mul_near (nearR a) D) (near_pow x.val d hx)) X hx.ne').cast (by ring)

theorem binDV_pair {f : Bin} (d : Flo F) (x : Num (Flo F)) (h : f.Tame d.real x.val.real) :
    LPair (F := F) (f.writeDV d x) (f.writeDV d.real x.real) := by
  have X := nearR x.val
  have D := nearR d
  cases f with
  | add =>
    exact lpair_one x 1 (m := 0) (by omega) (fun a => by show a = _; ring) fun a => (nearR a).cast (by ring)
  | sub =>
    exact lpair_one x (-1) (m := 0) (by omega) (fun a => by show -a = _; ring)
      fun a => (neg_near (nearR a)).cast (by ring)
  | mul =>
    exact lpair_one x d.real (m := 1) (by omega) (fun a => by show a * d.real = _; ring)
      fun a => (mul_near (nearR a) D).cast (by ring)
  | div =>
    have hx : x.val.real ≠ 0 := h
    exact lpair_one x (-(d.real / x.val.real / x.val.real)) (m := 3) (by omega)
      (fun a => by show -(d.real / x.val.real * a / x.val.real) = _; ring)
      fun a => (neg_near (div_near (mul_near (div_near D X hx) (nearR a)) X hx)).cast (by ring)
  | hypot =>
    have hn := hyp_ne h
    exact lpair_one x (x.val.real / √(d.real ^ 2 + x.val.real ^ 2)) (m := 3) (by omega)
      (fun a => by show a * x.val.real / √(d.real ^ 2 + x.val.real ^ 2) = _; ring)
      fun a => (div_near (mul_near (nearR a) X) (near_hypot d x.val) hn).cast (by ring)
  | pow =>
    have hd : 0 < d.real := h
    have h1 : Arith.feq d (Arith.zero : Flo F) = false := by
      rw [← Bool.not_eq_true, feq_flo, zero_flo]; exact hd.ne'
    have h2 : Arith.feq d.real (Arith.zero : ℝ) = false := by
      rw [← Bool.not_eq_true, feq_real]; exact hd.ne'
    simp only [Bin.writeDV, Bin.passDV, h1, h2]
    refine lpair_one x (d.real ^ x.val.real * Real.log d.real) (m := 4) (by omega) (fun a => ?_) fun a => ?_
    · show a * d.real ^ x.val.real * Real.log d.real = _
      ring
    · exact ((mul_near (mul_near (nearR a) (near_pow d x.val hd)) (near_log d hd)).cast (by ring))

/-! ## arrays -/

/-- rules `a * d` -/
theorem lpair_scale {v : Flo F} {v' : ℝ} (xs : List (Num (Flo F))) (ds : List (Flo F)) :
    LPair (step v xs fun a => ds.map fun d => Arith.mul a d)
      (step v' (xs.map Num.real) fun a => (ds.map Flo.real).map fun d => Arith.mul a d) := by
  refine lpair_step (ds.map Flo.real) (fun a => ?_) fun a => ?_
  · refine List.map_congr_left fun d _ => ?_
    show a * d = d * a
    ring
  · induction ds with
    | nil => exact .nil
    | cons d ds ih => exact .cons (((mul_near (nearR a) (nearR d)).mono (by omega)).cast (by ring)) ih

theorem dotStep_pair {v : Flo F} {v' : ℝ} (r c : List (Num (Flo F))) :
    LPair (dotStep v r c) (dotStep v' (r.map Num.real) (c.map Num.real)) := by
  have h := lpair_scale (v := v) (v' := v') (r ++ c) (c.map Num.val ++ r.map Num.val)
  simp only [List.map_append, List.map_map] at h
  unfold dotStep
  simp only [List.map_map]
  exact h

theorem opd_real (env : List (Num (Flo F))) (i : Nat) : opd (env.map Num.real) i = (opd env i).real := by
  unfold opd
  rw [List.getD_eq_getElem?_getD, List.getD_eq_getElem?_getD, List.getElem?_map]
  cases env[i]? with
  | some x => rfl
  | none =>
    show (⟨none, 0⟩ : Num ℝ) = ⟨none, F.arith.zero⟩
    rw [F.zero]

theorem opds_real (env : List (Num (Flo F))) (is : List Nat) :
    is.map (opd (env.map Num.real)) = (is.map (opd env)).map Num.real := by
  rw [List.map_map]
  exact List.map_congr_left fun i _ => opd_real env i

theorem norm2_near (l : List (Flo F)) : Near F (l.length + 2) (Flo.real (fnorm2 l)) (fnorm2 (l.map Flo.real)) := by
  obtain ⟨t, h1, h2, h3⟩ := F.norm2 l
  have hu : 0 < 1 - F.u := by linarith [F.u_lt]
  have e : rho F ^ (l.length + 2) = ((1 - F.u) ^ (l.length + 2))⁻¹ := by
    unfold rho
    rw [one_div, inv_pow]
  refine ⟨t, by rw [e, inv_inv]; exact h1, ?_, ?_⟩
  · rw [e, ← one_div, le_div_iff₀ (by positivity)]
    exact h2
  · refine Eq.trans h3 ?_
    rw [fnorm2_real, List.map_map]
    rfl

theorem norm2_pair (xs : List (Num (Flo F))) (hx : ∃ x ∈ xs, x.val.real ≠ 0) :
    LPair (F := F) (step (fnorm2 (xs.map Num.val)) xs fun a => xs.map fun x => Arith.div (Arith.mul a x.val) (fnorm2 (xs.map Num.val)))
      (step (fnorm2 ((xs.map Num.real).map Num.val)) (xs.map Num.real) fun a =>
        (xs.map Num.real).map fun x => Arith.div (Arith.mul a x.val) (fnorm2 ((xs.map Num.real).map Num.val))) := by
  have hv : (xs.map Num.real).map Num.val = (xs.map Num.val).map Flo.real := by simp only [List.map_map]; rfl
  have hn := norm2_near (xs.map Num.val)
  rw [hv]
  set V : ℝ := fnorm2 ((xs.map Num.val).map Flo.real) with hV
  have hne : V ≠ 0 := by
    rw [hV]
    refine (Real.sqrt_pos.mpr ?_).ne'
    obtain ⟨x, hx, h0⟩ := hx
    have hp : 0 < x.val.real ^ 2 := by positivity
    refine lt_of_lt_of_le hp (List.single_le_sum ?_ _ ?_)
    · intro y hy
      obtain ⟨z, -, rfl⟩ := List.mem_map.mp hy
      exact sq_nonneg _
    · simp only [List.map_map, List.mem_map, Function.comp]
      exact ⟨x, hx, rfl⟩
  refine lpair_step (xs.map fun x => x.val.real / V) (fun a => ?_) fun a => ?_
  · simp only [List.map_map]
    refine List.map_congr_left fun x _ => ?_
    show a * x.val.real / V = x.val.real / V * a
    ring
  · have hl : (xs.map Num.val).length = xs.length := by simp
    rw [hl] at hn
    generalize fnorm2 (xs.map Num.val) = v at hn
    have : ∀ ys : List (Num (Flo F)), List.Forall₂ (fun c q => Near F (8 + 2 * xs.length) (Flo.real c) (q * a.real))
        (ys.map fun x => Arith.div (Arith.mul a x.val) v) (ys.map fun x => x.val.real / V) := by
      intro ys
      induction ys with
      | nil => exact .nil
      | cons y ys ih =>
        exact .cons (((div_near (mul_near (nearR a) (nearR y.val)) hn hne).mono (by omega)).cast (by ring)) ih
    exact this xs

theorem forall2_same {α β γ : Type} {P : β → γ → Prop} (l : List α) {f : α → β} {g : α → γ} (h : ∀ a ∈ l, P (f a) (g a)) :
    List.Forall₂ P (l.map f) (l.map g) := by
  induction l with
  | nil => exact .nil
  | cons a l ih => exact .cons (h a (by simp)) (ih fun b hb => h b (by simp [hb]))

theorem forall2_one {α β : Type} {P : α → β → Prop} {a : α} {b : β} (h : P a b) : List.Forall₂ P [a] [b] := .cons h .nil

theorem num_val (env : List (Num (Flo F))) (i : Nat) : num (env.map Num.val) i = (opd env i).val := by
  unfold num opd
  rw [List.getD_eq_getElem?_getD, List.getD_eq_getElem?_getD, List.getElem?_map]
  cases env[i]? <;> rfl

/-- every call -/
theorem make_pair {m : Make (Flo F)} {env : List (Num (Flo F))} (h : m.Tame (env.map Num.val)) :
    LPair (m.write env) (m.real.write (env.map Num.real)) := by
  cases m with
  | new0 => exact lpair_inputs _ _ rfl
  | new d => exact lpair_inputs _ _ rfl
  | newVals ds => exact lpair_inputs _ _ rfl
  | newArr n =>
    exact lpair_inputs (List.replicate n Arith.zero) (List.replicate n Arith.zero) (by simp)
  | fn f i =>
    simp only [Make.Tame, num_val] at h
    refine lpair_each (forall2_one ?_)
    rw [opd_real]
    exact fn_pair _ h
  | fnArr f is =>
    simp only [Make.Tame, num_val] at h
    show LPair (Log.each f.write (is.map (opd env))) (Log.each f.write (is.map (opd (env.map Num.real))))
    refine lpair_each (forall2_same is fun i hi => ?_)
    rw [opd_real]
    exact fn_pair _ (h i hi)
  | bin f i j =>
    simp only [Make.Tame, num_val] at h
    refine lpair_each (forall2_one ?_)
    dsimp only
    rw [opd_real, opd_real]
    exact bin_pair _ _ h
  | binArr f is js =>
    simp only [Make.Tame, num_val] at h
    show LPair (Log.each (fun p : Num (Flo F) × Num (Flo F) => f.write p.1 p.2) ((is.map (opd env)).zip (js.map (opd env))))
      (Log.each (fun p : Num ℝ × Num ℝ => f.write p.1 p.2)
        ((is.map (opd (env.map Num.real))).zip (js.map (opd (env.map Num.real)))))
    rw [List.zip_map, List.zip_map]
    refine lpair_each (forall2_same _ fun p hp => ?_)
    dsimp only [Prod.map]
    rw [opd_real, opd_real]
    exact bin_pair _ _ (h p hp)
  | binVD f i d =>
    simp only [Make.Tame, num_val] at h
    refine lpair_each (forall2_one ?_)
    rw [opd_real]
    exact binVD_pair _ _ h
  | binDV f d i =>
    simp only [Make.Tame, num_val] at h
    refine lpair_each (forall2_one ?_)
    rw [opd_real]
    exact binDV_pair _ _ h
  | sum is =>
    refine lpair_each (forall2_one ?_)
    rw [opds_real]
    generalize is.map (opd env) = xs
    refine lpair_step (xs.map fun _ => (1:ℝ)) (fun a => ?_) fun a => ?_
    · simp only [List.map_map]
      exact List.map_congr_left fun x _ => (one_mul a).symm
    · exact forall2_same xs fun x _ => ((nearR a).mono (by omega)).cast (by ring)
  | norm2 is =>
    simp only [Make.Tame, num_val] at h
    refine lpair_each (forall2_one ?_)
    rw [opds_real]
    refine norm2_pair _ ?_
    obtain ⟨i, hi, h0⟩ := h
    exact ⟨_, List.mem_map.mpr ⟨i, hi, rfl⟩, h0⟩
  | dotVV is js =>
    refine lpair_each (forall2_one ?_)
    dsimp only
    rw [opds_real, opds_real]
    exact dotStep_pair _ _
  | dotVD is ds =>
    refine lpair_each (forall2_one ?_)
    rw [opds_real]
    have := lpair_scale (v := fdot ((is.map (opd env)).map Num.val) ds)
      (v' := fdot (((is.map (opd env)).map Num.real).map Num.val) (ds.map Flo.real)) (is.map (opd env)) ds
    have e : ds.map Flo.real = (show List ℝ from ds) := List.map_id _
    rw [e] at this
    exact this
  | dotDV ds is =>
    refine lpair_each (forall2_one ?_)
    rw [opds_real]
    have := lpair_scale (v := fdot ds ((is.map (opd env)).map Num.val))
      (v' := fdot (ds.map Flo.real) (((is.map (opd env)).map Num.real).map Num.val)) (is.map (opd env)) ds
    have e : ds.map Flo.real = (show List ℝ from ds) := List.map_id _
    rw [e] at this
    exact this
  | matmulVV a b =>
    show LPair (Log.each _ ((entries a.nrow b.ncol))) (Log.each _ (entries a.nrow b.ncol))
    have := forall2_same (entries a.nrow b.ncol) (f := id) (g := id)
      (P := fun (p q : Nat × Nat) => LPair (F := F)
        (dotStep (mulEntry a.ncol (fun i k => (opd env (a.get i k)).val) (fun k j => (opd env (b.get k j)).val) p.1 p.2)
          ((List.range a.ncol).map fun k => opd env (a.get p.1 k)) ((List.range a.ncol).map fun k => opd env (b.get k p.2)))
        (dotStep (mulEntry a.ncol (fun i k => (opd (env.map Num.real) (a.get i k)).val)
            (fun k j => (opd (env.map Num.real) (b.get k j)).val) q.1 q.2)
          ((List.range a.ncol).map fun k => opd (env.map Num.real) (a.get q.1 k))
          ((List.range a.ncol).map fun k => opd (env.map Num.real) (b.get k q.2)))) (by
        intro p _
        dsimp only [id]
        have e1 : ((List.range a.ncol).map fun k => opd (env.map Num.real) (a.get p.1 k)) =
            ((List.range a.ncol).map fun k => opd env (a.get p.1 k)).map Num.real := by
          rw [List.map_map]
          exact List.map_congr_left fun k _ => opd_real env _
        have e2 : ((List.range a.ncol).map fun k => opd (env.map Num.real) (b.get k p.2)) =
            ((List.range a.ncol).map fun k => opd env (b.get k p.2)).map Num.real := by
          rw [List.map_map]
          exact List.map_congr_left fun k _ => opd_real env _
        rw [e1, e2]
        exact dotStep_pair _ _)
    simp only [List.map_id] at this
    exact lpair_each this
  | matmulVD a b =>
    have := forall2_same (entries a.nrow b.ncol) (f := id) (g := id)
      (P := fun (p q : Nat × Nat) => LPair (F := F)
        (step (mulEntry a.ncol (fun i k => (opd env (a.get i k)).val) b.get p.1 p.2)
          ((List.range a.ncol).map fun k => opd env (a.get p.1 k)) fun ad => (List.range a.ncol).map fun k => Arith.mul ad (b.get k p.2))
        (step (mulEntry a.ncol (fun i k => (opd (env.map Num.real) (a.get i k)).val) (fun i j => (b.get i j).real) q.1 q.2)
          ((List.range a.ncol).map fun k => opd (env.map Num.real) (a.get q.1 k)) fun ad =>
            (List.range a.ncol).map fun k => Arith.mul ad (b.get k q.2).real)) (by
        intro p _
        dsimp only [id]
        have e1 : ((List.range a.ncol).map fun k => opd (env.map Num.real) (a.get p.1 k)) =
            ((List.range a.ncol).map fun k => opd env (a.get p.1 k)).map Num.real := by
          rw [List.map_map]
          exact List.map_congr_left fun k _ => opd_real env _
        rw [e1]
        have h := lpair_scale (v := mulEntry a.ncol (fun i k => (opd env (a.get i k)).val) b.get p.1 p.2)
          (v' := mulEntry a.ncol (fun i k => (opd (env.map Num.real) (a.get i k)).val) (fun i j => (b.get i j).real) p.1 p.2)
          ((List.range a.ncol).map fun k => opd env (a.get p.1 k)) ((List.range a.ncol).map fun k => b.get k p.2)
        simp only [List.map_map] at h ⊢
        exact h)
    simp only [List.map_id] at this
    exact lpair_each this
  | matmulDV a b =>
    have := forall2_same (entries a.nrow b.ncol) (f := id) (g := id)
      (P := fun (p q : Nat × Nat) => LPair (F := F)
        (step (mulEntry a.ncol a.get (fun k j => (opd env (b.get k j)).val) p.1 p.2)
          ((List.range a.ncol).map fun k => opd env (b.get k p.2)) fun ad => (List.range a.ncol).map fun k => Arith.mul ad (a.get p.1 k))
        (step (mulEntry a.ncol (fun i j => (a.get i j).real) (fun k j => (opd (env.map Num.real) (b.get k j)).val) q.1 q.2)
          ((List.range a.ncol).map fun k => opd (env.map Num.real) (b.get k q.2)) fun ad =>
            (List.range a.ncol).map fun k => Arith.mul ad (a.get q.1 k).real)) (by
        intro p _
        dsimp only [id]
        have e1 : ((List.range a.ncol).map fun k => opd (env.map Num.real) (b.get k p.2)) =
            ((List.range a.ncol).map fun k => opd env (b.get k p.2)).map Num.real := by
          rw [List.map_map]
          exact List.map_congr_left fun k _ => opd_real env _
        rw [e1]
        have h := lpair_scale (v := mulEntry a.ncol a.get (fun k j => (opd env (b.get k j)).val) p.1 p.2)
          (v' := mulEntry a.ncol (fun i j => (a.get i j).real) (fun k j => (opd (env.map Num.real) (b.get k j)).val) p.1 p.2)
          ((List.range a.ncol).map fun k => opd env (b.get k p.2)) ((List.range a.ncol).map fun k => a.get p.1 k)
        simp only [List.map_map] at h ⊢
        exact h)
    simp only [List.map_id] at this
    exact lpair_each this
  | partials x is ds =>
    refine lpair_each (forall2_one ?_)
    rw [opds_real]
    have := lpair_scale (v := x) (v' := x.real) (is.map (opd env)) (ds.take (is.map (opd env)).length)
    have e : (ds.take (is.map (opd env)).length).map Flo.real =
        (show List ℝ from ds).take ((is.map (opd env)).map Num.real).length := by
      rw [List.length_map (f := Num.real)]
      exact List.map_id _
    rw [e] at this
    exact this
  | logSumExp is => exact h.elim
  | lpdfVV d xs m s => exact h.elim
  | lpdfVD d xs m s => exact h.elim
  | lpdfDV d xs m s => exact h.elim
  | user x r is ds => exact h.elim

end Fz
