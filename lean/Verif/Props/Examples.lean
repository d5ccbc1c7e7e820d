import Verif.Props.OdeSol
import Verif.Proof.OdeOne
import Verif.Props.Overflow
import Verif.Props.Density

/-!
# C58: the example of README and user guide

The logarithm of the density of the normal distribution with mean `mu` and standard deviation `sigma`, at `y`, as a
function of `mu` and `sigma`: for all numbers, not only those of the example.
-/

set_option linter.unusedSectionVars false

namespace Props
open Fz Spec

/-- README.md:17-33 and doc/fazang_user_guide.org:83-103, first form:
`f = var(-0.5d0 * log(2 * pi)); f = f - log(sigma); f = f - 0.5d0 * ((y - mu) / sigma) ** 2.d0`, where `mu` and `sigma`
are the variables 0 and 1 -/
noncomputable def quickProg (y : ℝ) : Prog :=
  .op (.const (-(1 / 2) * Real.log (2 * Real.pi))) <|  -- 2
  .op (.un .log 1) <|                                  -- 3
  .op (.bin .sub 2 3) <|                               -- 4
  .op (.binDV .sub y 0) <|                             -- 5
  .op (.bin .div 5 1) <|                               -- 6
  .op (.binVD .pow 6 2) <|                             -- 7
  .op (.binDV .mul (1 / 2) 7) <|                       -- 8
  .op (.bin .sub 4 8) <|                               -- 9
  .ret [9]

/-- README.md:49-57 and doc/fazang_user_guide.org:170-176, second form, a function for `gradient`:
`f = -0.5d0 * log(2 * pi) - log(sigma) - 0.5d0 * ((y - mu) / sigma) ** 2.d0` with `mu = x(1)`, `sigma = x(2)` -/
noncomputable def quickCode (y : ℝ) : Code ℝ :=
  .make (.fn .log 1) <|                                                        -- 2
  .make (.binDV .sub (-(1 / 2) * Real.log (2 * (4 * Real.arctan 1))) 2) <|     -- 3, `pi = 4*atan(1)`
  .make (.binDV .sub y 0) <|                                                   -- 4
  .make (.bin .div 4 1) <|                                                     -- 5
  .make (.binVD .pow 5 2) <|                                                   -- 6
  .make (.binDV .mul (1 / 2) 6) <|                                             -- 7
  .make (.bin .sub 3 7) <|                                                     -- 8
  .ret [8]

theorem quick_value {y mu sigma : ℝ} (hs : 0 < sigma) :
    -(1 / 2) * Real.log (2 * Real.pi) - Real.log sigma - 1 / 2 * ((y - mu) / sigma) ^ 2 =
      Real.log (normalPDF mu sigma y) := by
  rw [← normal_logpdf hs]
  simp only [Dist.logpdf]
  have hp : (0 : ℝ) < 2 * Real.pi := by positivity
  rw [Real.log_mul (by positivity) (Real.exp_ne_zero _), Real.log_exp, Real.log_div (by norm_num) (by positivity),
    Real.log_one, Real.log_mul hs.ne' (by positivity), Real.log_sqrt hp.le]
  field_simp
  ring

/-- the derivative by the mean -/
theorem quick_mu (y mu sigma : ℝ) (hs : 0 < sigma) : HasDerivAt
    (fun m => -(2⁻¹ * Real.log (2 * Real.pi)) - Real.log sigma - 2⁻¹ * ((y - m) / sigma) ^ 2)
    ((y - mu) / sigma ^ 2) mu := by
  have h := ((((hasDerivAt_id mu).const_sub y).div_const sigma).pow 2).const_mul (2⁻¹ : ℝ)
  have h2 := h.const_sub (-(2⁻¹ * Real.log (2 * Real.pi)) - Real.log sigma)
  refine h2.congr_deriv ?_
  simp
  field_simp

/-- the derivative by the standard deviation -/
theorem quick_sigma (y mu sigma : ℝ) (hs : 0 < sigma) : HasDerivAt
    (fun s => -(2⁻¹ * Real.log (2 * Real.pi)) - Real.log s - 2⁻¹ * ((y - mu) / s) ^ 2)
    ((y - mu) ^ 2 / sigma ^ 3 - 1 / sigma) sigma := by
  have h := ((((hasDerivAt_const sigma (y - mu)).div (hasDerivAt_id sigma) hs.ne')).pow 2).const_mul (2⁻¹ : ℝ)
  have h2 := ((Real.hasDerivAt_log hs.ne').const_sub (-(2⁻¹ * Real.log (2 * Real.pi)))).sub h
  refine h2.congr_deriv ?_
  simp
  field_simp
  ring

variable {W : Type} [Rep W ℝ] [LawfulRep W ℝ] {c : Client W}

/-- **C58**: the first program of README and user guide completes for all `y`, `mu` and `sigma > 0`, computes the
logarithm of the density, and the adjoints it prints are the derivatives. -/
theorem C58_grad (y mu sigma : ℝ) (hs : 0 < sigma) : ∃ s' : St W, derive (quickProg y) [] [mu, sigma] 0 St.init =
    .ok (([Real.log (normalPDF mu sigma y)], [(y - mu) / sigma ^ 2, (y - mu) ^ 2 / sigma ^ 3 - 1 / sigma]), s') := by
  obtain ⟨df, s', e, hg⟩ := C01_completes (W := W) (quickProg y) [mu, sigma] 0 (by
    simp [quickProg, Prog.Ok, Instr.Ok, Instr.sem, Bin.domVV, Un.dom, look, Bin.domVD, Bin.domDV, Bin.defectVD,
      Bin.defectDV, hs, hs.ne']
    norm_num) (by simp [quickProg, Prog.sem]) (by
    simp [quickProg, Prog.cost, Instr.cost, Un.cost, tapeLimit, Bin.costVD, Bin.costDV])
  have hv : ∀ m s : ℝ, (quickProg y).sem [m, s] =
      [-(1 / 2) * Real.log (2 * Real.pi) - Real.log s - 1 / 2 * ((y - m) / s) ^ 2] := fun m s => by
    simp [quickProg, Prog.sem, Instr.sem, look, Bin.fn, Un.fn]
  have hd : df.length = 2 := hg.1
  match df, hd with
  | [d0, d1], _ =>
  have h0 := hg.partial (⟨0, by simp⟩ : Fin [mu, sigma].length)
  have h1 := hg.partial (⟨1, by simp⟩ : Fin [mu, sigma].length)
  simp only [List.ofFn_succ, Function.update] at h0 h1
  simp [hv] at h0 h1
  have k0 := h0.unique (quick_mu y mu sigma hs)
  have k1 := h1.unique (quick_sigma y mu sigma hs)
  rw [hv, quick_value hs, k0, k1] at e
  exact ⟨s', e⟩

/-- **C58**: after every history of correct calls, with room on the tape, `gradient` of the second form returns the same
numbers. -/
theorem C58_gradient (h : Orderly (R := ℝ) false c) (hl : c.marks.length < 10)
    (room : c.st.tape.head + 65 ≤ tapeLimit) (full : ∀ j, c.st.tape.head + 65 ≠ 12288 * 2 ^ j + 1) (y mu sigma : ℝ)
    (hs : 0 < sigma) : ∃ s', gradient ((quickCode y).scalar []) [mu, sigma] c.st =
      .ok ((Real.log (normalPDF mu sigma y), [(y - mu) / sigma ^ 2, (y - mu) ^ 2 / sigma ^ 3 - 1 / sigma]), s') := by
  have w1 : 6 * 2 + (quickCode y).words ([mu, sigma] ++ []) = 65 := by
    have h1 : ¬ (2 : ℝ) = 1 / 2 := by norm_num
    have h2 : ¬ (2 : ℝ) = 1 := by norm_num
    simp [quickCode, Code.words, Make.words, Bin.wordsVD, Bin.wordsDV, Fn.words, Arith.feq, Arith.half, Arith.two, Arith.one]
  obtain ⟨z, df, s', e, hb⟩ := gradient_by_code (W := W) (k := quickCode y) (x := [mu, sigma]) commutes_real h hl
    (fun xv s hx => rfl) ⟨by simp [quickCode, Code.Sane, Make.Sane], by simp [quickCode, Code.Plain, Make.Plain, Arith.feq],
      by simp [quickCode, Code.Regular, Make.Regular, Arith.feq], by
        simp [quickCode, Code.Meets, Make.args, Make.Meets, Make.plain, Fn.Meets], by simp [quickCode, Code.plain],
        by rw [show 6 * [mu, sigma].length + _ = _ from w1]; exact room,
        by rw [show 6 * [mu, sigma].length + _ = _ from w1]; exact full⟩
  have hq : (quickCode y).bookGradient [] [mu, sigma] =
      some (-(1 / 2) * Real.log (2 * Real.pi) - Real.log sigma - 1 / 2 * ((y - mu) / sigma) ^ 2,
        [(y - mu) / sigma ^ 2, (y - mu) ^ 2 / sigma ^ 3 - 1 / sigma]) := by
    have hpi : 4 * (Real.pi / 4) = Real.pi := by ring
    have a1 : ¬ (2 : ℝ) = 2⁻¹ := by norm_num
    have hn := hs.ne'
    unfold Code.bookGradient Code.steps
    simp only [Log.next, Log.each, input, step, Log.ret, List.map_nil, List.append_nil, List.length_nil, List.nil_append,
      List.length_singleton]
    simp [quickCode, Code.write, Make.write, Log.each, Log.next, Log.ret, step, Fn.write, Bin.write, opd,
      Arith.feq, Arith.half, Arith.two, Arith.one, a1, hpi, Bin.writeVD, Bin.writeDV]
    simp [rowOf, backFrom, receive, seed, List.range_succ, Fn.pass, Bin.pass, Fn.plain, Bin.plain, Bin.plainDV, Bin.passDV,
      Arith.mul, Arith.one, Arith.zero, Arith.add, Arith.sub, Arith.div, Arith.log, Arith.two, Arith.neg]
    refine ⟨by ring, by field_simp, ?_⟩
    field_simp
    ring
  rw [hq, quick_value hs] at hb
  cases hb
  exact ⟨s', e⟩

/-! ## example/ode/param.F90 -/

/-- example/ode/param.F90:23-30: `fy(1) = y(2); fy(2) = sin(p(1) * p(2) * p(3) * t)`; `y` are the variables 0 and 1, `fy` on
entry 2 and 3, `p` 4, 5 and 6 -/
noncomputable def oscillator (t : ℝ) : Prog :=
  .op (.bin .mul 4 5) <|     -- 7
  .op (.bin .mul 7 6) <|     -- 8
  .op (.binVD .mul 8 t) <|   -- 9
  .op (.un .sin 9) <|        -- 10
  .ret [1, 10]

/-- example/ode/param.F90:14-20, with the parameters in place of the constants -/
noncomputable def oscillatorData (q1 q2 q3 : ℝ) (t : ℝ) (y : List ℝ) : List ℝ :=
  [y.getD 1 0, Real.sin (q1 * q2 * q3 * t)]

/-- the equations of the example and of its sensitivities, in closed form -/
noncomputable def oscillatorProblem (q1 q2 q3 : ℝ) : Problem :=
  ⟨oscillatorData q1 q2 q3, fun t _ S o =>
    o = [[(S.getD 0 []).getD 1 0, t * q2 * q3 * Real.cos (q1 * q2 * q3 * t)],
      [(S.getD 1 []).getD 1 0, t * q1 * q3 * Real.cos (q1 * q2 * q3 * t)],
      [(S.getD 2 []).getD 1 0, t * q1 * q2 * Real.cos (q1 * q2 * q3 * t)]]⟩

/-- the solver asks about vectors of two components, not at time 1 -/
def Planar (t : ℝ) (y : List ℝ) (S : List (List ℝ)) : Prop :=
  t ≠ 1 ∧ y.length = 2 ∧ S.length = 3 ∧ ∀ v ∈ S, v.length = 2

theorem osc_first {t y1 y2 q1 q2 q3 : ℝ} {d : List ℝ}
    (hg : IsGradAt (odeFn (oscillator t) 2 [] 0) ([y1, y2] ++ [q1, q2, q3]) d) : d = [0, 1, 0, 0, 0] := by
  have h0 := hg.partial (⟨0, by simp⟩ : Fin ([y1, y2] ++ [q1, q2, q3]).length)
  have h1 := hg.partial (⟨1, by simp⟩ : Fin ([y1, y2] ++ [q1, q2, q3]).length)
  have h2 := hg.partial (⟨2, by simp⟩ : Fin ([y1, y2] ++ [q1, q2, q3]).length)
  have h3 := hg.partial (⟨3, by simp⟩ : Fin ([y1, y2] ++ [q1, q2, q3]).length)
  have h4 := hg.partial (⟨4, by simp⟩ : Fin ([y1, y2] ++ [q1, q2, q3]).length)
  have hlen : d.length = 5 := hg.1
  match d, hlen with
  | [d0, d1, d2, d3, d4], _ =>
  simp [List.ofFn_succ, Function.update, odeFn, oscillator, Prog.sem, Instr.sem, look, Bin.fn, Un.fn] at h0 h1 h2 h3 h4
  have k0 := h0.unique (hasDerivAt_const _ _)
  have k1 := h1.unique (hasDerivAt_id' _)
  have k2 := h2.unique (hasDerivAt_const _ _)
  have k3 := h3.unique (hasDerivAt_const _ _)
  have k4 := h4.unique (hasDerivAt_const _ _)
  subst k0 k1 k2 k3 k4
  rfl

theorem osc_second {t y1 y2 q1 q2 q3 : ℝ} {d : List ℝ}
    (hg : IsGradAt (odeFn (oscillator t) 2 [] 1) ([y1, y2] ++ [q1, q2, q3]) d) :
    d = [0, 0, t * q2 * q3 * Real.cos (q1 * q2 * q3 * t), t * q1 * q3 * Real.cos (q1 * q2 * q3 * t),
      t * q1 * q2 * Real.cos (q1 * q2 * q3 * t)] := by
  have h0 := hg.partial (⟨0, by simp⟩ : Fin ([y1, y2] ++ [q1, q2, q3]).length)
  have h1 := hg.partial (⟨1, by simp⟩ : Fin ([y1, y2] ++ [q1, q2, q3]).length)
  have h2 := hg.partial (⟨2, by simp⟩ : Fin ([y1, y2] ++ [q1, q2, q3]).length)
  have h3 := hg.partial (⟨3, by simp⟩ : Fin ([y1, y2] ++ [q1, q2, q3]).length)
  have h4 := hg.partial (⟨4, by simp⟩ : Fin ([y1, y2] ++ [q1, q2, q3]).length)
  have hlen : d.length = 5 := hg.1
  match d, hlen with
  | [d0, d1, d2, d3, d4], _ =>
  simp [List.ofFn_succ, Function.update, odeFn, oscillator, Prog.sem, Instr.sem, look, Bin.fn, Un.fn] at h0 h1 h2 h3 h4
  have k0 := h0.unique (hasDerivAt_const _ _)
  have k1 := h1.unique (hasDerivAt_const _ _)
  have line : ∀ a x : ℝ, HasDerivAt (fun x => Real.sin (x * a)) (a * Real.cos (x * a)) x := fun a x => by
    have := ((hasDerivAt_id' x).mul_const a).sin
    exact this.congr_deriv (by ring)
  have k2 := h2.unique ((line (q2 * q3 * t) q1).congr_of_eventuallyEq (.of_forall fun x => by simp only; ring_nf))
  have k3 := h3.unique ((line (q1 * q3 * t) q2).congr_of_eventuallyEq (.of_forall fun x => by simp only; ring_nf))
  have k4 := h4.unique ((line (q1 * q2 * t) q3).congr_of_eventuallyEq (.of_forall fun x => by simp only; ring_nf))
  subst k0 k1 k2 k3 k4
  ring_nf

theorem osc_sens {t y1 y2 q1 q2 q3 : ℝ} {a b c : List ℝ} {o : List (List ℝ)} (ha : a.length = 2)
    (hb : b.length = 2) (hc : c.length = 2)
    (h : IsSensRhs (odeFn (oscillator t) 2 []) [y1, y2] [q1, q2, q3] some [a, b, c] o) :
    o = [[a.getD 1 0, t * q2 * q3 * Real.cos (q1 * q2 * q3 * t)], [b.getD 1 0, t * q1 * q3 * Real.cos (q1 * q2 * q3 * t)],
      [c.getD 1 0, t * q1 * q2 * Real.cos (q1 * q2 * q3 * t)]] := by
  have row : ∀ j (hj : j < 3), (([a, b, c] : List (List ℝ)).getD j []).length = 2 → o.getD j [] =
      [(([a, b, c] : List (List ℝ)).getD j []).getD 1 0,
        ([t * q2 * q3 * Real.cos (q1 * q2 * q3 * t), t * q1 * q3 * Real.cos (q1 * q2 * q3 * t),
          t * q1 * q2 * Real.cos (q1 * q2 * q3 * t)] : List ℝ).getD j 0] := by
    intro j hj hv
    obtain ⟨hl, r⟩ := h.2 j hj
    obtain ⟨dy, dq, l1, g1, e1⟩ := r 0 (by simp)
    obtain ⟨dy', dq', l2, g2, e2⟩ := r 1 (by simp)
    have b1 := osc_first g1
    have b2 := osc_second g2
    match dy, l1, dy', l2 with
    | [d0, d1], _, [d0', d1'], _ =>
    simp only [List.cons_append, List.nil_append, List.cons.injEq] at b1 b2
    obtain ⟨rfl, rfl, rfl⟩ := b1
    obtain ⟨rfl, rfl, rfl⟩ := b2
    generalize o.getD j [] = v at *
    generalize ([a, b, c] : List (List ℝ)).getD j [] = w at *
    match v, hl, w, hv with
    | [v0, v1], _, [w0, w1], _ =>
    simp at e1 e2 ⊢
    refine ⟨?_, e2⟩
    rw [e1]
    match j, hj with
    | 0, _ | 1, _ | 2, _ => simp
  have hl : o.length = 3 := h.1
  have r0 := row 0 (by omega) ha
  have r1 := row 1 (by omega) hb
  have r2 := row 2 (by omega) hc
  match o, hl with
  | [o0, o1, o2], _ =>
  simp at r0 r1 r2
  simp [r0, r1, r2]

theorem solves_mono {σ : Type} {pr pr' : Problem} {ok : ℝ → List ℝ → List (List ℝ) → Prop} (hf : pr.f = pr'.f)
    (hs : ∀ t y S o, ok t y S → pr.sens t y S o → pr'.sens t y S o) : ∀ (call : Solving ℝ σ) {r}, Asks pr ok call →
    Solves pr call r → Solves pr' call r := by
  intro call
  induction call with
  | done => intro r _ h; cases h; exact .done
  | rhs t y k ih =>
    intro r ha h
    cases h with | rhs h =>
    exact .rhs (hf ▸ ih _ ha h)
  | sens t y yS k ih =>
    intro r ha h
    cases h with | sens h1 h2 =>
    exact .sens (hs _ _ _ _ ha.1 h1) (ih _ (ha.2 _ h1) h2)

theorem solvesAll_mono {σ : Type} {pr pr' : Problem} {ok : ℝ → List ℝ → List (List ℝ) → Prop} (hf : pr.f = pr'.f)
    (hs : ∀ t y S o, ok t y S → pr.sens t y S o → pr'.sens t y S o) (sv : Solver ℝ σ) : ∀ (ts : List ℝ) {m : σ} {l},
    AsksAll pr sv ok ts m → SolvesAll pr sv ts m l → SolvesAll pr' sv ts m l := by
  intro ts
  induction ts with
  | nil => intro m l _ h; cases h; exact .nil
  | cons t ts ih =>
    intro m l ha h
    cases h with | cons h1 h2 =>
    exact .cons (solves_mono hf hs _ ha.1 h1) (ih (ha.2 _ _ _ h1) h2)
theorem osc_problem {q1 q2 q3 t : ℝ} {y : List ℝ} {S o : List (List ℝ)} (hp : Planar t y S)
    (h : (paramProblem (oscillatorData q1 q2 q3) oscillator [q1, q2, q3]).sens t y S o) :
    (oscillatorProblem q1 q2 q3).sens t y S o := by
  obtain ⟨-, h1, h2, h3⟩ := hp
  match y, h1, S, h2 with
  | [y1, y2], _, [a, b, c], _ =>
  exact osc_sens (h3 a (by simp)) (h3 b (by simp)) (h3 c (by simp)) h

theorem osc_fair {q1 q2 q3 t : ℝ} {y : List ℝ} {S : List (List ℝ)} (hp : Planar t y S) :
    CallablePar oscillator [q1, q2, q3] 2 74 t y S := by
  obtain ⟨h0, h1, h2, h3⟩ := hp
  match y, h1 with
  | [y1, y2], _ =>
  have hc : (oscillator t).cost ([y1, y2] ++ List.replicate 2 0 ++ [q1, q2, q3]) = 32 := by
    simp [oscillator, Prog.cost, Instr.cost, Un.cost, Bin.costVD, h0]
  refine ⟨⟨rfl, h2, ?_, by rw [hc]; simp⟩, h3, ?_, fun j => ?_⟩
  · simp [oscillator, Prog.Ok, Instr.Ok, Instr.sem, Bin.domVV, Un.dom, look, Bin.domVD, Bin.defectVD, h0]
  · simp [oscillator, Prog.sem]
  · rw [hc]
    have := Nat.one_le_two_pow (n := j)
    simp
    omega

theorem asks_mono {σ : Type} {pr pr' : Problem} {ok ok' : ℝ → List ℝ → List (List ℝ) → Prop} (hf : pr.f = pr'.f)
    (hs : ∀ t y S o, ok t y S → pr.sens t y S o → pr'.sens t y S o) (hk : ∀ t y S, ok t y S → ok' t y S) :
    ∀ (call : Solving ℝ σ), Asks pr' ok call → Asks pr ok' call ∧ Asks pr ok call := by
  intro call
  induction call with
  | done => intro _; exact ⟨trivial, trivial⟩
  | rhs t y k ih =>
    intro ha
    have := ih _ ha
    rw [← hf] at this
    exact this
  | sens t y yS k ih =>
    intro ha
    exact ⟨⟨hk _ _ _ ha.1, fun o ho => (ih _ (ha.2 o (hs _ _ _ _ ha.1 ho))).1⟩, ha.1,
      fun o ho => (ih _ (ha.2 o (hs _ _ _ _ ha.1 ho))).2⟩

theorem asksAll_mono {σ : Type} {pr pr' : Problem} {ok ok' : ℝ → List ℝ → List (List ℝ) → Prop} (hf : pr.f = pr'.f)
    (hs : ∀ t y S o, ok t y S → pr.sens t y S o → pr'.sens t y S o) (hk : ∀ t y S, ok t y S → ok' t y S)
    (sv : Solver ℝ σ) : ∀ (ts : List ℝ) (m : σ), AsksAll pr' sv ok ts m → AsksAll pr sv ok' ts m ∧ AsksAll pr sv ok ts m := by
  intro ts
  induction ts with
  | nil => intro m _; exact ⟨trivial, trivial⟩
  | cons t ts ih =>
    intro m ha
    have a := asks_mono hf hs hk _ ha.1
    exact ⟨⟨a.1, fun y yS m' h => (ih m' (ha.2 y yS m' (solves_mono hf hs _ a.2 h))).1⟩, a.2,
      fun y yS m' h => (ih m' (ha.2 y yS m' (solves_mono hf hs _ a.2 h))).2⟩

variable {σ : Type} {h : List (Call ℝ)} {u : Var} {b : Var → ℝ}

/-- **C58**, the example with an ODE, for all parameters and initial values, any solver and any output times: if
`cvodes_sol` completes, its variables carry what the solver returns when it is told the right-hand side
`(y2, sin(q1 q2 q3 t))` and the sensitivity right-hand sides `(s2, t q2 q3 cos(q1 q2 q3 t))` and so on.  Partial: at time
1, where `... * t` is `... * 1.0`, the call is erroneous (`C58_param_refuted`). -/
theorem C58_param_partial (hr : Reach h c) {q : List Var} (hq : ∀ v ∈ q, v ∈ existing c.st) {q1 q2 q3 : ℝ}
    (hz : vals q c.st = .ok ([q1, q2, q3], c.st)) (sv : Solver ℝ σ) (t0 y1 y2 : ℝ) (ts : List ℝ)
    (ha : AsksAll (oscillatorProblem q1 q2 q3) sv Planar ts (sv.init t0 [y1, y2] [[0, 0], [0, 0], [0, 0]]))
    (room : c.st.tape.head + ts.length * 30 + 74 ≤ tapeLimit)
    (hu : u ∈ existing c.st) (hb : Rates c.st u b) {yt : List (List Var)} {y' : List ℝ} {s' : St W}
    (hrun : cvodesSolPar sv t0 [y1, y2] ts q (oscillatorData q1 q2 q3) (odeP oscillator []) c.st = .ok ((yt, y'), s')) :
    ∃ sol, SolvesAll (oscillatorProblem q1 q2 q3) sv ts (sv.init t0 [y1, y2] [[0, 0], [0, 0], [0, 0]]) sol ∧
      yt.length = ts.length ∧ sol.length = ts.length ∧
      ∀ k (h1 : k < yt.length) (h2 : k < sol.length), yt[k].length = 2 ∧ ∀ i (hi : i < yt[k].length),
        Gives c.st s' yt[k][i] (sol[k].1.getD i 0) u (sensSum sol[k].2 q b i) := by
  have hl : q.length = 3 := by
    obtain ⟨g, val, adj, G⟩ := hr.good
    have := congrArg List.length (vals_eq G.inv (fun v hv => (mem_existing G.inv).mp (hq v hv)) hz)
    simpa using this.symm
  have hi : sv.init t0 [y1, y2] (List.replicate q.length (List.replicate [y1, y2].length 0)) =
      sv.init t0 [y1, y2] [[0, 0], [0, 0], [0, 0]] := by rw [hl]; rfl
  obtain ⟨a1, a2⟩ := asksAll_mono (pr := paramProblem (oscillatorData q1 q2 q3) oscillator [q1, q2, q3])
    (pr' := oscillatorProblem q1 q2 q3) (ok := Planar) (ok' := Fair oscillator [q1, q2, q3] 2 3 74) rfl
    (fun _ _ _ _ => osc_problem) (fun _ _ _ h => (osc_fair h).1) sv ts _ ha
  obtain ⟨sol, h1, h2, h3, h4⟩ := C27_parameters_partial hr hq hz sv t0 [y1, y2] ts (oscillatorData q1 q2 q3) oscillator 74
    (by rw [hi, hl]; exact a1) (by rw [hl]; simpa using room) hu hb hrun
  rw [hi] at h1
  exact ⟨sol, solvesAll_mono (pr := paramProblem (oscillatorData q1 q2 q3) oscillator [q1, q2, q3])
    (pr' := oscillatorProblem q1 q2 q3) (ok := Planar) rfl (fun _ _ _ _ => osc_problem) sv ts a2 h1, h2, h3, fun k k1 k2 =>
    ⟨(h4 k k1 k2).1, fun i hi => ((h4 k k1 k2).2 i hi).2⟩⟩

/-- **C58**: from the start of the program the example with one output time completes, if the solver succeeds. -/
theorem C58_param_completes (q1 q2 q3 y1 y2 t0 t : ℝ) (sv : Solver ℝ σ)
    (ha : Asks (oscillatorProblem q1 q2 q3) Planar (sv.step (sv.init t0 [y1, y2] [[0, 0], [0, 0], [0, 0]]) t))
    (hgood : ∀ r, Solves (oscillatorProblem q1 q2 q3) (sv.step (sv.init t0 [y1, y2] [[0, 0], [0, 0], [0, 0]]) t) r →
      r.1 = 0 ∧ r.2.1.length = 2 ∧ r.2.2.1.length = 3 ∧ ∀ v ∈ r.2.2.1, v.length = 2) :
    ∃ q s1 yt y' s2, (newVars [q1, q2, q3] : M W (List Var)) St.init = .ok (q, s1) ∧ q.length = 3 ∧
      cvodesSolPar sv t0 [y1, y2] [t] q (oscillatorData q1 q2 q3) (odeP oscillator []) s1 = .ok ((yt, y'), s2) := by
  obtain ⟨a1, a2⟩ := asks_mono (pr := paramProblem (oscillatorData q1 q2 q3) oscillator [q1, q2, q3])
    (pr' := oscillatorProblem q1 q2 q3) (ok := Planar) (ok' := CallablePar oscillator [q1, q2, q3] 2 74) rfl
    (fun _ _ _ _ => osc_problem) (fun _ _ _ h => osc_fair h) _ ha
  exact C27_completes_parameters [q1, q2, q3] rfl sv t0 t [y1, y2] _ oscillator 74
    (fun t => by simp [oscillator, Prog.hasConst]) a1
    (fun r hr => hgood r (solves_mono (pr := paramProblem (oscillatorData q1 q2 q3) oscillator [q1, q2, q3])
    (pr' := oscillatorProblem q1 q2 q3) (ok := Planar) rfl (fun _ _ _ _ => osc_problem) _ a2 hr)) (by simp [tapeLimit])

/-- **C58 fails** for the ODE example at time 1: in every reachable state, for all parameters, states and sensitivities,
the question for the sensitivity right-hand side is erroneous. -/
theorem C58_param_refuted (hr : Reach h c) (f : ℝ → List ℝ → List ℝ) (y1 y2 : ℝ) (q : List ℝ) (S : List (List ℝ))
    (out : Nat → Nat → ℝ) :
    ∃ e, setSensRhs (newCvsRhsPvar false 3 q f (odeP oscillator [])) 1 [y1, y2] S out c.st = .error e := by
  obtain ⟨g, val, adj, G⟩ := hr.good
  refine sens_at_one (fun y1 y2 f1 f2 p1 p2 p3 => ?_) rfl G.inv G.cok
  simp [odeP, oscillator, Prog.run, Instr.run, Bin.apiVV, Bin.apiVD, Un.api, one, lookV]
  rfl

/-! ## Cases -/

/-- the numbers of the example: `y = 1.3`, `mu = 0.5`, `sigma = 1.2` -/
example : ∃ s' : St ℝ, derive (quickProg 1.3) [] [0.5, 1.2] 0 St.init =
    .ok (([Real.log (normalPDF 0.5 1.2 1.3)], [(1.3 - 0.5) / 1.2 ^ 2, (1.3 - 0.5) ^ 2 / 1.2 ^ 3 - 1 / 1.2]), s') :=
  C58_grad 1.3 0.5 1.2 (by norm_num)

/-- `gradient` as the first call of a program -/
example : ∃ s', gradient ((quickCode 1.3).scalar []) [0.5, 1.2] (St.init : St ℝ) =
    .ok ((Real.log (normalPDF 0.5 1.2 1.3), [(1.3 - 0.5) / 1.2 ^ 2, (1.3 - 0.5) ^ 2 / 1.2 ^ 3 - 1 / 1.2]), s') :=
  C58_gradient (W := ℝ) (c := Client.init) Orderly.start (by simp [Client.init]) (by simp [Client.init, St.init, Tape.init, tapeLimit])
    (fun j => by
      have := Nat.one_le_two_pow (n := j)
      simp [Client.init, St.init, Tape.init]
      omega) 1.3 0.5 1.2 (by norm_num)

/-- the parameters and initial values of the example, with the Euler method from 0 to 1.2 -/
example : ∃ (q : List Var) (s1 : St ℝ) (yt : List (List Var)) (y' : List ℝ) (s2 : St ℝ),
    (newVars [1 / 2, 1, 1] : M ℝ (List Var)) St.init = .ok (q, s1) ∧ q.length = 3 ∧
      cvodesSolPar euler 0 [0.2, 0.8] [1.2] q (oscillatorData (1 / 2) 1 1) (odeP oscillator []) s1 = .ok ((yt, y'), s2) :=
  C58_param_completes (1 / 2) 1 1 0.2 0.8 0 1.2 euler ⟨⟨by norm_num [euler], rfl, rfl, by simp [euler]⟩, fun _ _ => trivial⟩ (by
    intro r h
    cases h with | rhs h =>
    cases h with | sens h1 h2 =>
    cases h2
    cases h1
    simp [euler, oscillatorProblem, oscillatorData])

end Props
