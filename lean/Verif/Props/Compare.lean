import Verif.Props.Rules

/-!
# C14, C29: comparisons; domain errors
-/

set_option linter.unusedSectionVars false

namespace Props
open Fz Spec

section generic
variable {W R : Type} [Arith R] [Rep W R]

/-- **C14**: comparing two variables compares their values; in any state, for any `real64` (NaN included), with the
intrinsic comparisons `==` (`feq`), `<` (`flt`), `<=` (`fle`).  The state does not change. -/
theorem C14_var_var {s : St W} {v w : Var} {x y : R} (hx : (v.val : M W R) s = .ok (x, s))
    (hy : (w.val : M W R) s = .ok (y, s)) :
    (relVV (R := R) .eq v w : M W Bool) s = .ok (Arith.feq x y, s) ∧
    (relVV (R := R) .ne v w : M W Bool) s = .ok (!Arith.feq x y, s) ∧
    (relVV (R := R) .lt v w : M W Bool) s = .ok (Arith.flt x y, s) ∧
    (relVV (R := R) .le v w : M W Bool) s = .ok (Arith.fle x y, s) ∧
    (relVV (R := R) .gt v w : M W Bool) s = .ok (Arith.flt y x, s) ∧
    (relVV (R := R) .ge v w : M W Bool) s = .ok (Arith.fle y x, s) := by
  refine ⟨?_, ?_, ?_, ?_, ?_, ?_⟩ <;>
  · unfold relVV
    rw [bind_ok hx, bind_ok hy]
    rfl

/-- **C14**: comparing a variable and a real number. -/
theorem C14_var_real {s : St W} {v : Var} {x : R} (hx : (v.val : M W R) s = .ok (x, s)) (d : R) :
    (relVD .eq v d : M W Bool) s = .ok (Arith.feq x d, s) ∧
    (relVD .ne v d : M W Bool) s = .ok (!Arith.feq x d, s) ∧
    (relVD .lt v d : M W Bool) s = .ok (Arith.flt x d, s) ∧
    (relVD .le v d : M W Bool) s = .ok (Arith.fle x d, s) ∧
    (relVD .gt v d : M W Bool) s = .ok (Arith.flt d x, s) ∧
    (relVD .ge v d : M W Bool) s = .ok (Arith.fle d x, s) := by
  refine ⟨?_, ?_, ?_, ?_, ?_, ?_⟩ <;>
  · unfold relVD
    rw [bind_ok hx]
    rfl

/-- what comparing a real number and a variable does: it compares them **in the opposite order** -/
theorem real_var_swapped {s : St W} {v : Var} {x : R} (hx : (v.val : M W R) s = .ok (x, s)) (d : R) (o : RelOp) :
    (relDV o d v : M W Bool) s = (relVD o v d : M W Bool) s := by
  unfold relDV relVD
  rw [bind_ok hx]

end generic

variable {W : Type} [Rep W ℝ] [LawfulRep W ℝ]
variable {h : List (Call ℝ)} {c : Client W}

/-- **C14** for `d == v` and `d /= v`.  Missing: the order comparisons, see `C14_refuted` and `C14_iff`. -/
theorem C14_real_var_partial {s : St W} {v : Var} {x : ℝ} (hx : (v.val : M W ℝ) s = .ok (x, s)) (d : ℝ) :
    (∃ r, (relDV .eq d v : M W Bool) s = .ok (r, s) ∧ (r = true ↔ d = x)) ∧
    ∃ r, (relDV .ne d v : M W Bool) s = .ok (r, s) ∧ (r = true ↔ d ≠ x) := by
  obtain ⟨h1, h2, -⟩ := C14_var_real hx d
  rw [real_var_swapped hx, real_var_swapped hx]
  refine ⟨⟨_, h1, ?_⟩, _, h2, ?_⟩
  · simp only [Arith.feq, decide_eq_true_eq]
    exact eq_comm
  · simp only [Arith.feq, Bool.not_eq_true', decide_eq_false_iff_not]
    exact ne_comm

/-- the order comparisons `d < v`, `d <= v`, `d > v`, `d >= v` are right exactly when: `d = v` makes no difference
to `<=` and `>=`, and both `<` and `>` are false then; otherwise all four are wrong. -/
theorem C14_iff {s : St W} {v : Var} {x : ℝ} (hx : (v.val : M W ℝ) s = .ok (x, s)) (d : ℝ) :
    (∃ r, (relDV .lt d v : M W Bool) s = .ok (r, s) ∧ ((r = true ↔ d < x) ↔ d = x)) ∧
    (∃ r, (relDV .le d v : M W Bool) s = .ok (r, s) ∧ ((r = true ↔ d ≤ x) ↔ d = x)) ∧
    (∃ r, (relDV .gt d v : M W Bool) s = .ok (r, s) ∧ ((r = true ↔ d > x) ↔ d = x)) ∧
    ∃ r, (relDV .ge d v : M W Bool) s = .ok (r, s) ∧ ((r = true ↔ d ≥ x) ↔ d = x) := by
  obtain ⟨-, -, h3, h4, h5, h6⟩ := C14_var_real hx d
  simp only [real_var_swapped hx]
  refine ⟨⟨_, h3, ?_⟩, ⟨_, h4, ?_⟩, ⟨_, h5, ?_⟩, _, h6, ?_⟩ <;>
  · simp only [Arith.flt, Arith.fle, decide_eq_true_eq]
    constructor
    · intro k
      rcases lt_trichotomy d x with h | h | h
      · have h1 := h.le; have h2 := h.not_ge; have h3 := h.not_gt; simp_all
      · exact h
      · have h1 := h.le; have h2 := h.not_ge; have h3 := h.not_gt; simp_all
    · rintro rfl
      simp

/-- **C14 is false of the code** for a real number on the left: with a variable of value 2, `1 < v` is false and
`1 > v` is true. -/
theorem C14_refuted : ∃ (c : Client W) (v : Var), Reach demo c ∧ v ∈ existing c.st ∧
    (v.val : M W ℝ) c.st = .ok (2, c.st) ∧
    (relDV .lt (1:ℝ) v : M W Bool) c.st = .ok (false, c.st) ∧ (relDV .gt (1:ℝ) v : M W Bool) c.st = .ok (true, c.st) := by
  obtain ⟨c, hr, hh, hex, h1, -⟩ := demo_rates (W := W)
  obtain ⟨-, -, h3, h4, h5, h6⟩ := C14_var_real h1 (1:ℝ)
  refine ⟨c, ⟨1⟩, hr, by simp [hex], h1, ?_, ?_⟩
  · rw [real_var_swapped h1, h3]
    simp [Arith.flt]
  · rw [real_var_swapped h1, h5]
    simp [Arith.flt]

/-- the hypotheses of the C14 theorems are met by a product and a factor -/
example : ∃ c : Client ℝ, Reach demo c ∧ ((⟨3⟩ : Var).val : M ℝ ℝ) c.st = .ok (6, c.st) ∧
    ((⟨1⟩ : Var).val : M ℝ ℝ) c.st = .ok (2, c.st) := by
  obtain ⟨c, hr, hh, hex, h1, h2, h3, hb⟩ := demo_rates (W := ℝ)
  exact ⟨c, hr, h3, h1⟩

/-! ## C29 -/

section generic
variable {W R : Type} [Arith R] [Rep W R] [LawfulRep W R] {h : List (Call R)} {c : Client W}

/-- **C29**: `acosh(v)` stops the program exactly when the value is a number (not a NaN) and `<= 1`; otherwise, with
room on the tape, it returns.  For any `real64`. -/
theorem C29_acosh (hr : Reach h c) {v : Var} (hv : v ∈ existing c.st) {x : R}
    (hx : (v.val : M W R) c.st = .ok (x, c.st)) :
    (Arith.feq x x = true → Arith.fle x Arith.one = true → (acoshV (R := R) v : M W Var) c.st = .error .stop) ∧
    (Arith.feq x x = false ∨ Arith.fle x Arith.one = false → c.st.tape.head + 7 ≤ tapeLimit →
      ∃ r s', (acoshV (R := R) v : M W Var) c.st = .ok (r, s')) := by
  obtain ⟨g, val, adj, G⟩ := hr.good
  have hh := (mem_existing G.inv).mp hv
  have hn : (isNanV (R := R) v : M W Bool) c.st = .ok (!Arith.feq x x, c.st) := by
    unfold isNanV
    rw [bind_ok hx]
    rfl
  have hl : (relVD .le v (Arith.one : R) : M W Bool) c.st = .ok (Arith.fle x Arith.one, c.st) :=
    (C14_var_real hx _).2.2.2.1
  unfold acoshV
  rw [bind_ok hn]
  cases h1 : Arith.feq x x with
  | false =>
    refine ⟨fun h => (nomatch h), fun _ _ => ⟨v, c.st, rfl⟩⟩
  | true =>
    simp only [Bool.not_true, Bool.false_eq_true, if_false]
    rw [bind_ok hl]
    cases h2 : Arith.fle x Arith.one with
    | true => exact ⟨fun _ _ => rfl, fun h => by simp at h⟩
    | false =>
      refine ⟨fun _ h => (nomatch h), fun _ room => ?_⟩
      obtain ⟨s', e, -⟩ := G.inv.unary_ok hh Arith.acosh .acosh room
      exact ⟨_, s', e⟩

/-- **C29**: `atanh(v)` stops the program exactly when the value is a number and `<= -1` or `>= 1`. -/
theorem C29_atanh (hr : Reach h c) {v : Var} (hv : v ∈ existing c.st) {x : R}
    (hx : (v.val : M W R) c.st = .ok (x, c.st)) :
    (Arith.feq x x = true → Arith.fle x (Arith.neg Arith.one) = true ∨ Arith.fle Arith.one x = true →
      (atanhV (R := R) v : M W Var) c.st = .error .stop) ∧
    (Arith.feq x x = false ∨ Arith.fle x (Arith.neg Arith.one) = false ∧ Arith.fle Arith.one x = false →
      c.st.tape.head + 7 ≤ tapeLimit → ∃ r s', (atanhV (R := R) v : M W Var) c.st = .ok (r, s')) := by
  obtain ⟨g, val, adj, G⟩ := hr.good
  have hh := (mem_existing G.inv).mp hv
  have hn : (isNanV (R := R) v : M W Bool) c.st = .ok (!Arith.feq x x, c.st) := by
    unfold isNanV
    rw [bind_ok hx]
    rfl
  have hl : (relVD .le v (Arith.neg Arith.one : R) : M W Bool) c.st = .ok (Arith.fle x (Arith.neg Arith.one), c.st) :=
    (C14_var_real hx _).2.2.2.1
  have hg : (relVD .ge v (Arith.one : R) : M W Bool) c.st = .ok (Arith.fle Arith.one x, c.st) :=
    (C14_var_real hx _).2.2.2.2.2
  unfold atanhV
  rw [bind_ok hn]
  cases h1 : Arith.feq x x with
  | false =>
    refine ⟨fun h => (nomatch h), fun _ _ => ⟨v, c.st, rfl⟩⟩
  | true =>
    simp only [Bool.not_true, Bool.false_eq_true, if_false]
    rw [bind_ok hl, bind_ok hg]
    by_cases h2 : Arith.fle x (Arith.neg Arith.one) = true ∨ Arith.fle Arith.one x = true
    · rw [if_pos (by simpa using h2)]
      refine ⟨fun _ _ => rfl, fun h => ?_⟩
      rcases h2 with h2 | h2 <;> simp [h2] at h
    · rw [if_neg (by simpa using h2)]
      refine ⟨fun _ h => absurd h h2, fun _ room => ?_⟩
      obtain ⟨s', e, -⟩ := G.inv.unary_ok hh Arith.atanh .atanh room
      exact ⟨_, s', e⟩

end generic

/-- **C29** over the real numbers: `acosh(v)` stops if and only if `v <= 1`, `atanh(v)` if and only if `|v| >= 1`. -/
theorem C29_real (hr : Reach h c) {v : Var} (hv : v ∈ existing c.st) {x : ℝ}
    (hx : (v.val : M W ℝ) c.st = .ok (x, c.st)) (room : c.st.tape.head + 7 ≤ tapeLimit) :
    ((acoshV (R := ℝ) v : M W Var) c.st = .error .stop ↔ x ≤ 1) ∧
    ((atanhV (R := ℝ) v : M W Var) c.st = .error .stop ↔ 1 ≤ |x|) := by
  obtain ⟨a1, a2⟩ := C29_acosh hr hv hx
  obtain ⟨b1, b2⟩ := C29_atanh hr hv hx
  simp only [Arith.feq, Arith.fle, Arith.one, Arith.neg, decide_true, forall_const, decide_eq_true_eq,
    Bool.true_eq_false, false_or, decide_eq_false_iff_not, not_le] at a1 a2 b1 b2
  constructor
  · refine ⟨fun e => ?_, a1⟩
    by_contra hlt
    obtain ⟨r, s', e'⟩ := a2 (lt_of_not_ge hlt) room
    rw [e] at e'
    cases e'
  · rw [le_abs]
    refine ⟨fun e => ?_, fun hx => b1 (hx.symm.imp (fun h => by linarith) id)⟩
    by_contra hlt
    push Not at hlt
    obtain ⟨r, s', e'⟩ := b2 ⟨by linarith [hlt.2], hlt.1⟩ room
    rw [e] at e'
    cases e'

/-- the hypotheses of C29 are met: `acosh` of the product 6 returns, `atanh` of it stops -/
example : ∃ c : Client ℝ, Reach demo c ∧ (⟨3⟩ : Var) ∈ existing c.st ∧ c.st.tape.head + 7 ≤ tapeLimit ∧
    (acoshV (R := ℝ) ⟨3⟩ : M ℝ Var) c.st ≠ .error .stop ∧ (atanhV (R := ℝ) ⟨3⟩ : M ℝ Var) c.st = .error .stop := by
  obtain ⟨c, hr, hh, hex, h1, h2, h3, hb⟩ := demo_rates (W := ℝ)
  have room : c.st.tape.head + 7 ≤ tapeLimit := by rw [hh]; simp [tapeLimit]
  obtain ⟨k1, k2⟩ := C29_real hr (v := ⟨3⟩) (by simp [hex]) h3 room
  exact ⟨c, hr, by simp [hex], room, fun h => by have := k1.mp h; norm_num at this, k2.mpr (by norm_num)⟩

end Props
