import Verif.Proof.Over

/-!
# C53: `log_sum_exp` and `inv_logit` do not overflow

In an arithmetic with overflow, infinities and NaN (`Spec/Over.lean`), after every history of correct calls, `gradient`
of `log_sum_exp` and `inv_logit` returns the mathematical numbers where the formulas taken literally
(`log(sum(exp(x)))`, `exp(x) / (1 + exp(x))`) overflow.  The intrinsic `sum` adds in any order (`SumOrder`).
-/

set_option linter.unusedSectionVars false

namespace Props
open Fz Spec

variable [SumOrder] {W : Type} [Rep W Over] [LawfulRep W Over] {c : Client W}

/-- the function as a program -/
def lseCode (n : Nat) : Code Over := .make (.logSumExp (List.range n)) (.ret [n])

theorem lse_scalar {n : Nat} (xv : List Var) (s : St W) (h : xv.length = n) :
    (logSumExpV xv : M W Var) s = (lseCode n).scalar [] xv s := by
  unfold lseCode Code.scalar
  simp only [Code.run, List.append_nil, Make.args, List.mem_range, h, imp_self, implies_true, if_true, Make.call,
    map_nth xv h, single]
  cases e : (logSumExpV xv : M W Var) s with
  | error e' => rw [bind_err (bind_err (bind_err e))]
  | ok q =>
    obtain ⟨r, s1⟩ := q
    have e1 : ((logSumExpV xv >>= fun v => pure [v]) : M W (List Var)) s = .ok ([r], s1) := by rw [bind_ok e]; rfl
    rw [bind_ok (by rw [bind_ok e1]; simp [h, nth]; rfl)]
    rfl

theorem lse_gradient (h : Orderly (R := Over) false c) (hl : c.marks.length < 10) (x : List Over)
    (room : c.st.tape.head + (7 * x.length + 6) ≤ tapeLimit)
    (full : ∀ j, c.st.tape.head + (7 * x.length + 6) ≠ 12288 * 2 ^ j + 1) :
    ∃ s', (gradient logSumExpV x : M W (Over × List Over)) c.st =
      .ok ((logSumExpD x, x.map fun y => Arith.add (.fin 0) (Arith.mul (.fin 1) (Arith.exp (Arith.sub y (logSumExpD x))))), s') := by
  have hw : 6 * x.length + (lseCode x.length).words (x ++ []) = 7 * x.length + 6 := by
    simp only [lseCode, Code.words, Make.words, List.length_range]
    omega
  obtain ⟨y, df, s', e, hb⟩ := gradient_by_code (W := W) (k := lseCode x.length) commutes_over h hl
    (fun xv s hx => lse_scalar xv s hx) ⟨⟨trivial, trivial⟩, ⟨trivial, trivial⟩, ⟨trivial, trivial⟩, by
      simp [lseCode, Code.Meets, Make.args, Make.Meets, Make.plain], by simp [lseCode, Code.plain],
      by rw [hw]; exact room, by rw [hw]; exact full⟩
  have h1 := book_one (m := .logSumExp (List.range x.length)) (x := x) (v := logSumExpD x)
    (pass := fun a => x.map fun y => Arith.mul a (Arith.exp (Arith.sub y (logSumExpD x)))) (by
      intro T
      simp only [Make.write, Log.each, Log.next, step, Log.ret, map_opd _ (operands_length x 0), operands_val]
      congr 4
      funext a
      rw [← operands_val x 0, List.map_map, operands_val]
      rfl) (by simp)
  rw [show lseCode x.length = .make (.logSumExp (List.range x.length)) (.ret [x.length]) from rfl, h1] at hb
  simp only [Option.some.injEq, Prod.mk.injEq, List.map_map] at hb
  refine ⟨s', ?_⟩
  rw [e, ← hb.1, ← hb.2]
  rfl

/-- **C53**, the part that holds for `log_sum_exp`: entries that are `-Infinity` or finite (up to a quarter of the
largest double), at least one of them finite.  The value is the logarithm of the sum of the exponentials, and the
derivatives are the quotients of the exponentials and their sum. -/
theorem C53_log_sum_exp_partial (h : Orderly (R := Over) false c) (hl : c.marks.length < 10) {x : List Over}
    (hx : ∀ y ∈ x, Moderate y) (hfin : ∃ a, .fin a ∈ x) (room : c.st.tape.head + (7 * x.length + 6) ≤ tapeLimit)
    (full : ∀ j, c.st.tape.head + (7 * x.length + 6) ≠ 12288 * 2 ^ j + 1) :
    ∃ s', (gradient logSumExpV x : M W (Over × List Over)) c.st =
      .ok ((.fin (Real.log (x.map weight).sum), x.map fun y => .fin (weight y / (x.map weight).sum)), s') := by
  obtain ⟨a, ha⟩ := hfin
  have hn : (x.length : ℝ) ≤ 2 ^ 40 := by
    have h1 : x.length ≤ 2 ^ 40 := by unfold tapeLimit at room; omega
    exact_mod_cast h1
  obtain ⟨e1, -, e2⟩ := logSumExp_over hx ha hn
  obtain ⟨s', e⟩ := lse_gradient h hl x room full
  refine ⟨s', ?_⟩
  rw [e, e1]
  congr 3
  refine List.map_congr_left fun y hy => ?_
  have hpos : 0 < (x.map weight).sum := (Real.exp_pos a).trans_le (weights_pos ha)
  have h1 : weight y / (x.map weight).sum ≤ 1 := by
    rw [div_le_one hpos]
    refine List.single_le_sum ?_ _ (List.mem_map.mpr ⟨_, hy, rfl⟩)
    intro z hz
    obtain ⟨z', -, rfl⟩ := List.mem_map.mp hz
    exact weight_nonneg z'
  have h0 : 0 ≤ weight y / (x.map weight).sum := div_nonneg (weight_nonneg y) hpos.le
  have hb := one_le_big
  rw [e2 y hy, Over.mul_fin (by rw [one_mul, abs_of_nonneg h0]; linarith), one_mul,
    Over.add_fin (by rw [zero_add, abs_of_nonneg h0]; linarith), zero_add]

theorem over_max_inf (xs : List Over) (a : Over) (ha : a ≠ .nan) (hx : ∀ y ∈ xs, y ≠ .nan) (hi : .pinf ∈ a :: xs) :
    xs.foldl (fun m y => if Arith.flt m y then y else m) a = .pinf := by
  induction xs generalizing a with
  | nil =>
    simp only [List.mem_cons, List.not_mem_nil, or_false] at hi
    exact hi.symm
  | cons b xs ih =>
    have hb := hx b (by simp)
    simp only [List.foldl_cons]
    refine ih _ (by split <;> assumption) (fun y hy => hx y (by simp [hy])) ?_
    simp only [List.mem_cons] at hi ⊢
    rcases hi with rfl | rfl | hi
    · left
      cases b <;> simp [Arith.flt, Over.lt]
    · left
      cases a <;> simp_all [Arith.flt, Over.lt]
    · exact .inr hi

/-- **C53**, the part that holds for `log_sum_exp` with an entry `+Infinity` and none NaN: the value is `+Infinity`, the
derivatives by the entries that are not `+Infinity` are 0.  (The derivatives by the infinite ones are NaN.) -/
theorem C53_plus_infinity_partial (h : Orderly (R := Over) false c) (hl : c.marks.length < 10) {x : List Over}
    (hx : .nan ∉ x) (hi : .pinf ∈ x) (room : c.st.tape.head + (7 * x.length + 6) ≤ tapeLimit)
    (full : ∀ j, c.st.tape.head + (7 * x.length + 6) ≠ 12288 * 2 ^ j + 1) :
    ∃ df s', (gradient logSumExpV x : M W (Over × List Over)) c.st = .ok ((.pinf, df), s') ∧ df.length = x.length ∧
      ∀ k, x[k]? ≠ some .pinf → k < x.length → df[k]? = some (.fin 0) := by
  obtain ⟨s', e⟩ := lse_gradient h hl x room full
  have hm : fmaxval x = .pinf := by
    cases x with
    | nil => simp at hi
    | cons z xs =>
      simp only [List.mem_cons, not_or] at hx
      exact over_max_inf xs z (fun h => hx.1 h.symm) (fun y hy h => hx.2 (h ▸ hy)) hi
  have hv : logSumExpD x = .pinf := by
    unfold logSumExpD
    simp only [hm]
    rfl
  rw [hv] at e
  refine ⟨_, s', e, by simp, fun k hk hlt => ?_⟩
  rw [List.getElem?_map, List.getElem?_eq_getElem hlt, Option.map_some]
  rw [List.getElem?_eq_getElem hlt] at hk
  have hmem : x[k] ∈ x := List.getElem_mem hlt
  have hb := big_pos
  have z : (Arith.add (.fin 0) (Arith.mul (.fin 1) (.fin 0)) : Over) = .fin 0 := by
    rw [Over.mul_fin (by simp [hb.le]), Over.add_fin (by simp [hb.le])]
    simp
  generalize x[k] = y at hk hmem ⊢
  cases y with
  | fin a => exact congrArg some z
  | ninf => exact congrArg some z
  | pinf => exact absurd rfl hk
  | nan => exact absurd hmem hx

theorem fold_ninf (n : Nat) :
    (List.replicate n Over.ninf).foldl (fun m y => if Arith.flt m y then y else m) Over.ninf = .ninf := by
  induction n with
  | zero => rfl
  | succ n ih =>
    rw [List.replicate_succ, List.foldl_cons]
    exact ih

theorem lse_all_ninf (n : Nat) : logSumExpD (List.replicate (n + 1) Over.ninf) = .nan := by
  have hm : fmaxval (List.replicate (n + 1) Over.ninf) = .ninf := fold_ninf n
  unfold logSumExpD
  simp only [hm]
  have h1 : fsum ((List.replicate (n + 1) Over.ninf).map fun x => (Arith.exp (Arith.sub x Over.ninf) : Over)) = .nan := by
    obtain ⟨k, -, hs⟩ := SumOrder.some_order ((List.replicate (n + 1) Over.ninf).map fun x =>
      (Arith.exp (Arith.sub x Over.ninf) : Over))
    refine over_nans hs (by simp) fun x hx => ?_
    obtain ⟨y, hy, rfl⟩ := List.mem_map.mp hx
    rw [List.eq_of_mem_replicate hy]
    rfl
  rw [h1]
  rfl

/-- **C53** fails when all entries are `-Infinity` (the logarithm of no probability at all): the exponentials add up to
0, so the value should be `-Infinity`; it is NaN. -/
theorem C53_minus_infinity_refuted (h : Orderly (R := Over) false c) (hl : c.marks.length < 10) (n : Nat)
    (room : c.st.tape.head + (7 * (n + 1) + 6) ≤ tapeLimit)
    (full : ∀ j, c.st.tape.head + (7 * (n + 1) + 6) ≠ 12288 * 2 ^ j + 1) :
    ((List.replicate (n + 1) Over.ninf).map weight).sum = 0 ∧
    ∃ df s', (gradient logSumExpV (List.replicate (n + 1) .ninf) : M W (Over × List Over)) c.st = .ok ((.nan, df), s') := by
  refine ⟨by simp [weight], ?_⟩
  obtain ⟨s', e⟩ := lse_gradient h hl (List.replicate (n + 1) .ninf) (by simpa using room) (by simpa using full)
  rw [lse_all_ninf] at e
  exact ⟨_, s', e⟩

/-! ## `inv_logit` -/

/-- the function as a program -/
def invLogitCode : Code Over := .make (.fn .invLogit 0) (.ret [1])

theorem invLogit_scalar (xv : List Var) (s : St W) (h : xv.length = 1) :
    (invLogitV (xv.getD 0 ⟨0⟩) : M W Var) s = invLogitCode.scalar [] xv s := by
  obtain ⟨v, rfl⟩ := List.length_eq_one_iff.mp h
  unfold invLogitCode Code.scalar
  simp only [Code.run, List.append_nil, Make.args, List.length_singleton, Make.call, single]
  rw [if_pos (by simp)]
  have e0 : (Fn.invLogit.api (nth [v] 0) : M W Var) = invLogitV v := rfl
  rw [e0, List.getD_cons_zero]
  cases e : (invLogitV v : M W Var) s with
  | error e' => rw [bind_err (bind_err (bind_err e))]
  | ok q =>
    obtain ⟨r, s1⟩ := q
    have e1 : ((invLogitV v >>= fun v => pure [v]) : M W (List Var)) s = .ok ([r], s1) := by rw [bind_ok e]; rfl
    rw [bind_ok (by rw [bind_ok e1]; simp [nth]; rfl)]
    rfl

theorem invLogit_gradient (h : Orderly (R := Over) false c) (hl : c.marks.length < 10) (x : Over)
    (room : c.st.tape.head + 13 ≤ tapeLimit) (full : ∀ j, c.st.tape.head + 13 ≠ 12288 * 2 ^ j + 1) :
    ∃ s', (gradient (fun v => invLogitV (v.getD 0 ⟨0⟩)) [x] : M W (Over × List Over)) c.st =
      .ok ((invLogitD x, [Arith.add (.fin 0) (Arith.mul (Arith.mul (.fin 1) (invLogitD x)) (Arith.sub (.fin 1) (invLogitD x)))]), s') := by
  obtain ⟨y, df, s', e, hb⟩ := gradient_by_code (W := W) (k := invLogitCode) (x := [x]) commutes_over h hl
    (fun xv s hx => invLogit_scalar xv s hx) ⟨⟨trivial, trivial⟩, ⟨by simp [Make.Plain], trivial⟩, ⟨trivial, trivial⟩, by
      simp [invLogitCode, Code.Meets, Make.args, Make.Meets, Make.plain, Fn.Meets], by simp [invLogitCode, Code.plain],
      room, full⟩
  have h1 := book_one (m := .fn .invLogit 0) (x := [x]) (v := invLogitD x)
    (pass := fun a => [Arith.mul (Arith.mul a (invLogitD x)) (Arith.sub (.fin 1) (invLogitD x))]) (by
      intro T
      rfl) rfl
  rw [show invLogitCode = .make (.fn .invLogit 0) (.ret [[x].length]) from rfl, h1] at hb
  simp only [Option.some.injEq, Prod.mk.injEq] at hb
  refine ⟨s', ?_⟩
  rw [e, ← hb.1, ← hb.2]
  rfl

theorem logEpsilon_over : (logEpsilon : Over) = .fin (Real.log ((2:ℝ) ^ (-1022 : ℤ))) := by
  have hp : (0:ℝ) < 2 ^ (-1022 : ℤ) := by positivity
  show (if (0:ℝ) < 2 ^ (-1022 : ℤ) then Over.fit (Real.log ((2:ℝ) ^ (-1022 : ℤ))) else _) = _
  rw [if_pos hp, Over.fit_eq]
  rw [Real.log_zpow]
  have h1 := Real.log_le_sub_one_of_pos (by norm_num : (0:ℝ) < 2)
  have h2 := Real.log_pos (by norm_num : (1:ℝ) < 2)
  have hb := big_ge
  rw [abs_le]
  push_cast
  constructor <;> linarith

theorem Over.div_fin {a b : ℝ} (hb : b ≠ 0) (h : |a / b| ≤ big) : (Arith.div (.fin a) (.fin b) : Over) = .fin (a / b) := by
  show (if b = 0 then _ else Over.fit (a / b)) = _
  rw [if_neg hb, Over.fit_eq h]

/-- no overflow: the same number as in exact arithmetic -/
theorem invLogit_over (a : ℝ) : (invLogitD (.fin a) : Over) = .fin (invLogitD a) := by
  have hb := big_ge
  have hb : (2:ℝ) ≤ big := by norm_num at hb; linarith
  have he := Real.exp_pos a
  have he' := Real.exp_pos (-a)
  unfold invLogitD
  simp only [logEpsilon_over]
  show (if decide (a < 0) = true then
      if decide (a < Real.log ((2:ℝ) ^ (-1022 : ℤ))) = true then Arith.exp (.fin a)
      else Arith.div (Arith.exp (.fin a)) (Arith.add (.fin 1) (Arith.exp (.fin a)))
    else Arith.div (.fin 1) (Arith.add (.fin 1) (Arith.exp (.fin (-a))))) =
    Over.fin (if decide (a < 0) = true then
      if decide (a < Real.log ((2:ℝ) ^ (-1022 : ℤ))) = true then Real.exp a
      else Real.exp a / (1 + Real.exp a)
    else 1 / (1 + Real.exp (-a)))
  simp only [decide_eq_true_eq]
  by_cases h0 : a < 0
  · have h1 : Real.exp a ≤ 1 := Real.exp_le_one_iff.mpr h0.le
    rw [if_pos h0, if_pos h0, Over.exp_fin h0.le]
    split
    · rfl
    · rw [Over.add_fin (by rw [abs_of_pos (by linarith)]; linarith), Over.div_fin (by linarith)]
      rw [abs_of_pos (by positivity), div_le_iff₀ (by linarith)]
      nlinarith
  · have h1 : Real.exp (-a) ≤ 1 := Real.exp_le_one_iff.mpr (by linarith)
    rw [if_neg h0, if_neg h0, Over.exp_fin (by linarith), Over.add_fin (by rw [abs_of_pos (by linarith)]; linarith),
      Over.div_fin (by linarith)]
    rw [abs_of_pos (by positivity), div_le_iff₀ (by linarith)]
    nlinarith

/-- **C53**: `inv_logit` of every finite number, however large: the value lies between 0 and 1, its relative error is at
most the smallest normal double, and the derivative is `r (1 - r)`. -/
theorem C53_inv_logit (h : Orderly (R := Over) false c) (hl : c.marks.length < 10) (a : ℝ)
    (room : c.st.tape.head + 13 ≤ tapeLimit) (full : ∀ j, c.st.tape.head + 13 ≠ 12288 * 2 ^ j + 1) :
    ∃ r s', (gradient (fun v => invLogitV (v.getD 0 ⟨0⟩)) [.fin a] : M W (Over × List Over)) c.st =
        .ok ((.fin r, [.fin (r * (1 - r))]), s') ∧ 0 < r ∧ r < 1 ∧
      1 / (1 + Real.exp (-a)) ≤ r ∧ r ≤ (1 + (2:ℝ) ^ (-1022 : ℤ)) * (1 / (1 + Real.exp (-a))) := by
  obtain ⟨s', e⟩ := invLogit_gradient h hl (.fin a) room full
  obtain ⟨h0, h1⟩ := C31_range a
  have hb := one_le_big
  rw [invLogit_over] at e
  refine ⟨invLogitD a, s', ?_, h0, h1, ?_⟩
  · rw [e, Over.mul_fin (by rw [one_mul, abs_of_pos h0]; linarith), one_mul,
      Over.sub_fin (by rw [abs_of_pos (by linarith)]; linarith),
      Over.mul_fin (by rw [abs_of_pos (by nlinarith)]; nlinarith),
      Over.add_fin (by rw [zero_add, abs_of_pos (by nlinarith)]; nlinarith), zero_add]
  · obtain ⟨l1, l2⟩ := C31_logistic a
    by_cases ha : Real.log ((2:ℝ) ^ (-1022 : ℤ)) ≤ a
    · rw [l1 ha]
      have hp : 0 < 1 / (1 + Real.exp (-a)) := by positivity
      have ht : (0:ℝ) < 2 ^ (-1022 : ℤ) := by positivity
      exact ⟨le_rfl, by nlinarith⟩
    · obtain ⟨-, l3, l4⟩ := l2 (not_le.mp ha)
      exact ⟨l3.le, l4.le⟩

/-- **C53**: the limits -/
theorem C53_inv_logit_infinite (h : Orderly (R := Over) false c) (hl : c.marks.length < 10)
    (room : c.st.tape.head + 13 ≤ tapeLimit) (full : ∀ j, c.st.tape.head + 13 ≠ 12288 * 2 ^ j + 1) :
    (∃ s', (gradient (fun v => invLogitV (v.getD 0 ⟨0⟩)) [.pinf] : M W (Over × List Over)) c.st =
      .ok ((.fin 1, [.fin 0]), s')) ∧
    ∃ s', (gradient (fun v => invLogitV (v.getD 0 ⟨0⟩)) [.ninf] : M W (Over × List Over)) c.st =
      .ok ((.fin 0, [.fin 0]), s') := by
  have hb := one_le_big
  have v1 : (invLogitD .pinf : Over) = .fin 1 := by
    show Over.div (.fin 1) (Over.fit (1 + 0)) = _
    rw [Over.fit_eq (by simpa using hb)]
    show (if (1:ℝ) + 0 = 0 then _ else Over.fit (1 / (1 + 0))) = _
    rw [if_neg (by norm_num), Over.fit_eq (by simpa using hb)]
    norm_num
  have v0 : (invLogitD .ninf : Over) = .fin 0 := by
    unfold invLogitD
    rw [logEpsilon_over]
    rfl
  obtain ⟨s1, e1⟩ := invLogit_gradient h hl .pinf room full
  obtain ⟨s0, e0⟩ := invLogit_gradient h hl .ninf room full
  rw [v1, Over.mul_fin (by simpa using hb), Over.sub_fin (by simp; linarith), Over.mul_fin (by simp; linarith),
    Over.add_fin (by simp; linarith)] at e1
  rw [v0, Over.mul_fin (by simp; linarith), Over.sub_fin (by simpa using hb), Over.mul_fin (by simp; linarith),
    Over.add_fin (by simp; linarith)] at e0
  norm_num at e1 e0
  exact ⟨⟨s1, e1⟩, ⟨s0, e0⟩⟩

/-! The hypotheses are met, by numbers whose exponential overflows. -/

noncomputable example : SumOrder := leftToRight

theorem small_full {n : Nat} (h : 1 < n) (h2 : n < 12289) (j : Nat) : n ≠ 12288 * 2 ^ j + 1 := by
  have := Nat.one_le_two_pow (n := j)
  omega

/-- `exp(2000)` overflows -/
theorem exp_2000 : (Arith.exp (.fin 2000) : Over) = .pinf := by
  show (if big < Real.exp 2000 then _ else _) = _
  rw [if_pos]
  have h1 : (2:ℝ) ^ (1024 : ℕ) ≤ Real.exp 2000 := by
    have h2 : (2:ℝ) ≤ Real.exp 1 := by
      have := Real.add_one_le_exp (1:ℝ)
      linarith
    have h3 : Real.exp 2000 = Real.exp 1 ^ 2000 := by
      rw [← Real.exp_nat_mul]
      norm_num
    rw [h3]
    calc (2:ℝ) ^ (1024 : ℕ) ≤ 2 ^ (2000 : ℕ) := pow_le_pow_right₀ (by norm_num) (by norm_num)
      _ ≤ _ := pow_le_pow_left₀ (by norm_num) h2 _
  have h4 : big < 2 ^ (1024 : ℕ) := by
    have e : (2:ℝ) ^ (1024 : ℕ) = 2 * 2 ^ (1023 : ℤ) := by
      rw [show (2:ℝ) ^ (1024 : ℕ) = 2 ^ (1024 : ℤ) from (zpow_natCast 2 1024).symm,
        show (1024 : ℤ) = 1 + 1023 by norm_num, zpow_add₀ (by norm_num), zpow_one]
    rw [e]
    unfold big
    have p1 : (0:ℝ) < 2 ^ (1023 : ℤ) := by positivity
    have p2 : (0:ℝ) < 2 ^ (-52 : ℤ) := by positivity
    clear e h1
    generalize (2:ℝ) ^ (1023 : ℤ) = p at *
    generalize (2:ℝ) ^ (-52 : ℤ) = q at *
    linarith [mul_pos p1 p2, sub_mul 2 q p, mul_comm p q]
  exact h4.trans_le h1

example : ∃ s' : St W, (gradient logSumExpV [.fin 2000, .ninf, .fin 2000] : M W (Over × List Over)) St.init =
    .ok ((.fin (Real.log (Real.exp 2000 + Real.exp 2000)), [.fin (1 / 2), .fin 0, .fin (1 / 2)]), s') := by
  have hb := big_ge
  norm_num at hb
  obtain ⟨s', e⟩ := C53_log_sum_exp_partial (W := W) (c := Client.init) (x := [.fin 2000, .ninf, .fin 2000]) .start
    (by simp [Client.init]) (by
      intro y hy
      simp only [List.mem_cons, List.not_mem_nil, or_false] at hy
      rcases hy with rfl | rfl | rfl
      · show |(2000:ℝ)| ≤ big / 4
        rw [abs_of_pos (by norm_num)]
        linarith
      · trivial
      · show |(2000:ℝ)| ≤ big / 4
        rw [abs_of_pos (by norm_num)]
        linarith) ⟨2000, by simp⟩ (by simp [Client.init, St.init, Tape.init, tapeLimit])
    (fun j => small_full (by simp [Client.init, St.init, Tape.init]) (by simp [Client.init, St.init, Tape.init]) j)
  refine ⟨s', ?_⟩
  rw [show (Client.init : Client W).st = St.init from rfl] at e
  rw [e]
  have hp := Real.exp_pos 2000
  simp only [List.map_cons, List.map_nil, List.sum_cons, List.sum_nil, weight, zero_add, add_zero, zero_div]
  have h2 : Real.exp 2000 / (Real.exp 2000 + Real.exp 2000) = 1 / 2 := by field_simp; norm_num
  rw [h2]

example : (∃ df, ∃ s' : St W, (gradient logSumExpV [.fin 2, .pinf] : M W (Over × List Over)) St.init = .ok ((.pinf, df), s')) ∧
    (∃ df, ∃ s' : St W, (gradient logSumExpV [.ninf, .ninf] : M W (Over × List Over)) St.init = .ok ((.nan, df), s')) ∧
    ∃ r, ∃ s' : St W, (gradient (fun v => invLogitV (v.getD 0 ⟨0⟩)) [.fin 2000] : M W (Over × List Over)) St.init =
      .ok ((.fin r, [.fin (r * (1 - r))]), s') := by
  have hl : (Client.init : Client W).marks.length < 10 := by simp [Client.init]
  obtain ⟨df, s', e, -⟩ := C53_plus_infinity_partial (W := W) (c := Client.init) (x := [.fin 2, .pinf]) .start hl
    (by simp) (by simp) (by simp [Client.init, St.init, Tape.init, tapeLimit])
    (fun j => small_full (by simp [Client.init, St.init, Tape.init]) (by simp [Client.init, St.init, Tape.init]) j)
  obtain ⟨-, df2, s2, e2⟩ := C53_minus_infinity_refuted (W := W) (c := Client.init) .start hl 1
    (by simp [Client.init, St.init, Tape.init, tapeLimit])
    (fun j => small_full (by simp [Client.init, St.init, Tape.init]) (by simp [Client.init, St.init, Tape.init]) j)
  obtain ⟨r, s3, e3, -⟩ := C53_inv_logit (W := W) (c := Client.init) .start hl 2000
    (by simp [Client.init, St.init, Tape.init, tapeLimit])
    (fun j => small_full (by simp [Client.init, St.init, Tape.init]) (by simp [Client.init, St.init, Tape.init]) j)
  exact ⟨⟨df, s', e⟩, ⟨df2, s2, e2⟩, r, s3, e3⟩

end Props
