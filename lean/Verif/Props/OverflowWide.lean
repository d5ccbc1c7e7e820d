import Verif.Props.Overflow
import Verif.Spec.InRange

/-!
# C53: `log_sum_exp` for all arrays whose answer is a double

The theorem of `Props/Overflow.lean` asks for finite entries up to a quarter of the largest double.  Here they are only
asked to be such that the answer, and its distance from each entry, is not itself out of range (`Spec/InRange.lean`).
-/

set_option linter.unusedSectionVars false

namespace Props
open Fz Spec

variable [SumOrder] {W : Type} [Rep W Over] [LawfulRep W Over] {c : Client W}

theorem inRange_low {x : List Over} (h : InRange x) : ∀ y ∈ x, Low y := by
  intro y hy
  rcases h.entries y hy with rfl | ⟨a, rfl, -⟩ <;> trivial

/-- the value, and the factors of the derivatives -/
theorem logSumExp_inRange {x : List Over} (hx : InRange x) {a : ℝ} (ha : .fin a ∈ x) (hn : (x.length : ℝ) ≤ 2 ^ 40) :
    logSumExpD x = .fin (Real.log (x.map weight).sum) ∧
      ∀ y ∈ x, (Arith.exp (Arith.sub y (.fin (Real.log (x.map weight).sum))) : Over) =
        .fin (weight y / (x.map weight).sum) := by
  obtain ⟨m, e, hm, hle⟩ := over_maxval (inRange_low hx) ha
  have hfin : ∀ b, .fin b ∈ x → |b| ≤ big := by
    intro b hb
    rcases hx.entries _ hb with h | ⟨b', h, hb'⟩
    · cases h
    · cases h
      exact hb'
  obtain ⟨m1, m2⟩ := abs_le.mp (hfin m hm)
  obtain ⟨v1, v2⟩ := abs_le.mp hx.value
  have hsp := hx.spread
  have hlow := inRange_low hx
  have hbig := big_ge
  have hb0 := big_pos
  clear hx
  set S := (x.map weight).sum with hS
  have h1 : Real.exp m ≤ S := weights_pos hm
  have h2 : S ≤ x.length * Real.exp m := weights_bound hlow hle
  have hpos : 0 < S := (Real.exp_pos m).trans_le h1
  have l1 : m ≤ Real.log S := by rwa [Real.le_log_iff_exp_le hpos]
  have hn0 : 1 ≤ (x.length : ℝ) := by
    have : 0 < x.length := List.length_pos_of_mem hm
    exact_mod_cast this
  have l2 : Real.log S - m ≤ big := hsp m hm
  have hterm : ∀ y ∈ x, (Arith.exp (Arith.sub y (.fin m)) : Over) = .fin (weight y * Real.exp (-m)) := by
    intro y hy
    have hy' := hlow y hy
    cases y with
    | fin b =>
      have h3 := hle b hy
      have h4 := hsp b hy
      rw [Over.sub_fin (abs_le.mpr ⟨by linarith, by linarith⟩), Over.exp_fin (by linarith)]
      simp only [weight]
      rw [← Real.exp_add, sub_eq_add_neg]
    | ninf =>
      show Over.fin 0 = _
      simp [weight]
    | pinf => exact hy'.elim
    | nan => exact hy'.elim
  have hmap : x.map (fun y => (Arith.exp (Arith.sub y (.fin m)) : Over)) =
      (x.map fun y => weight y * Real.exp (-m)).map Over.fin := by
    rw [List.map_map]
    exact List.map_congr_left hterm
  have hsum : (x.map fun y => weight y * Real.exp (-m)).sum = S * Real.exp (-m) := by
    rw [List.sum_map_mul_right]
  have hEm : Real.exp m * Real.exp (-m) = 1 := by rw [← Real.exp_add]; simp
  have hle2 : S * Real.exp (-m) ≤ 2 ^ 40 := by
    calc S * Real.exp (-m) ≤ x.length * Real.exp m * Real.exp (-m) :=
          mul_le_mul_of_nonneg_right h2 (Real.exp_pos _).le
      _ = x.length := by rw [mul_assoc, hEm, mul_one]
      _ ≤ _ := hn
  have hpos2 : 0 < S * Real.exp (-m) := mul_pos hpos (Real.exp_pos _)
  have hlog : Real.log (S * Real.exp (-m)) = Real.log S - m := by
    rw [Real.log_mul hpos.ne' (Real.exp_pos _).ne', Real.log_exp, sub_eq_add_neg]
  refine ⟨?_, ?_⟩
  · unfold logSumExpD
    simp only [e]
    rw [if_neg (by
      show ¬ decide (big < m) = true
      simp only [decide_eq_true_eq, not_lt]
      exact m2)]
    rw [hmap, over_sum _ (by
      intro z hz
      obtain ⟨y, -, rfl⟩ := List.mem_map.mp hz
      exact mul_nonneg (weight_nonneg y) (Real.exp_pos _).le) (by rw [hsum]; linarith), hsum]
    show Arith.add _ (if 0 < S * Real.exp (-m) then Over.fit (Real.log (S * Real.exp (-m))) else _) = _
    rw [if_pos hpos2, hlog, Over.fit_eq (abs_le.mpr ⟨by linarith, by linarith⟩),
      Over.add_fin (abs_le.mpr ⟨by linarith, by linarith⟩), add_sub_cancel]
  · intro y hy
    have hy' := hlow y hy
    cases y with
    | fin b =>
      have h3 := hle b hy
      have h4 := hsp b hy
      rw [Over.sub_fin (abs_le.mpr ⟨by linarith, by linarith⟩), Over.exp_fin (by linarith)]
      simp only [weight]
      rw [Real.exp_sub, Real.exp_log hpos]
    | ninf =>
      show Over.fin 0 = _
      simp [weight]
    | pinf => exact hy'.elim
    | nan => exact hy'.elim

/-- **C53**, the part that holds for `log_sum_exp`, without a bound on the size of the entries: they are `-Infinity` or
finite, at least one of them finite, and the answer, with its distance from each of them, is in range.  The value is the
logarithm of the sum of the exponentials, and the derivatives are the quotients of the exponentials and their sum. -/
theorem C53_log_sum_exp_wide_partial (h : Orderly (R := Over) false c) (hl : c.marks.length < 10) {x : List Over}
    (hx : InRange x) (hfin : ∃ a, .fin a ∈ x) (room : c.st.tape.head + (7 * x.length + 6) ≤ tapeLimit)
    (full : ∀ j, c.st.tape.head + (7 * x.length + 6) ≠ 12288 * 2 ^ j + 1) :
    ∃ s', (gradient logSumExpV x : M W (Over × List Over)) c.st =
      .ok ((.fin (Real.log (x.map weight).sum), x.map fun y => .fin (weight y / (x.map weight).sum)), s') := by
  obtain ⟨a, ha⟩ := hfin
  have hn : (x.length : ℝ) ≤ 2 ^ 40 := by
    have h1 : x.length ≤ 2 ^ 40 := by unfold tapeLimit at room; omega
    exact_mod_cast h1
  obtain ⟨e1, e2⟩ := logSumExp_inRange hx ha hn
  obtain ⟨s', e⟩ := lse_gradient h hl x room full
  refine ⟨s', ?_⟩
  rw [e, e1]
  congr 3
  refine List.map_congr_left fun y hy => ?_
  have hpos : 0 < (x.map weight).sum := (Real.exp_pos a).trans_le (weights_pos ha)
  have h1 : weight y / (x.map weight).sum ≤ 1 := by
    rw [div_le_one hpos]
    refine List.single_le_sum ?_ _ (List.mem_map.mpr ⟨_, hy, rfl⟩)
    intro z hz
    obtain ⟨z', -, rfl⟩ := List.mem_map.mp hz
    exact weight_nonneg z'
  have h0 : 0 ≤ weight y / (x.map weight).sum := div_nonneg (weight_nonneg y) hpos.le
  have hb := one_le_big
  rw [e2 y hy, Over.mul_fin (by rw [one_mul, abs_of_nonneg h0]; linarith), one_mul,
    Over.add_fin (by rw [zero_add, abs_of_nonneg h0]; linarith), zero_add]

/-- The largest double itself, beside `-Infinity`. -/
example : ∃ s' : St W, (gradient logSumExpV [.fin big, .ninf] : M W (Over × List Over)) St.init =
    .ok ((.fin big, [.fin 1, .fin 0]), s') := by
  have hb := big_pos
  have hs : (([.fin big, .ninf] : List Over).map weight).sum = Real.exp big := by simp [weight]
  have hw : InRange [.fin big, .ninf] := by
    refine ⟨?_, ?_, ?_⟩
    · intro y hy
      simp only [List.mem_cons, List.not_mem_nil, or_false] at hy
      rcases hy with rfl | rfl
      · exact .inr ⟨_, rfl, (abs_of_pos hb).le⟩
      · exact .inl rfl
    · rw [hs, Real.log_exp, abs_of_pos hb]
    · intro a ha
      simp only [List.mem_cons, Over.fin.injEq, reduceCtorEq, List.not_mem_nil, or_false] at ha
      rw [hs, Real.log_exp, ha]
      linarith
  obtain ⟨s', e⟩ := C53_log_sum_exp_wide_partial (W := W) (c := Client.init) .start (by simp [Client.init]) hw
    ⟨big, by simp⟩ (by simp [Client.init, St.init, Tape.init, tapeLimit])
    (fun j => small_full (by simp [Client.init, St.init, Tape.init]) (by simp [Client.init, St.init, Tape.init]) j)
  refine ⟨s', ?_⟩
  rw [hs, Real.log_exp] at e
  have h1 : Real.exp big / Real.exp big = 1 := div_self (Real.exp_pos _).ne'
  simp only [List.map_cons, List.map_nil, weight, h1, zero_div] at e
  exact e

end Props
