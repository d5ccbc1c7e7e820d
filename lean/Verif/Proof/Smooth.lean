import Mathlib.Analysis.SpecialFunctions.Trigonometric.ArctanDeriv
import Mathlib.Analysis.SpecialFunctions.Trigonometric.InverseDeriv
import Mathlib.Analysis.SpecialFunctions.Trigonometric.DerivHyp
import Mathlib.Analysis.SpecialFunctions.Sqrt
import Mathlib.Analysis.SpecialFunctions.Pow.Deriv
import Mathlib.Analysis.SpecialFunctions.Arsinh
import Mathlib.Analysis.Calculus.Deriv.Abs
import Mathlib.Analysis.Calculus.ContDiff.Deriv
import Mathlib.Topology.MetricSpace.Thickening
import Verif.Spec.Smooth
import Verif.Proof.Derivs
import Verif.Proof.FlowExist
import Verif.Proof.Variation

/-!
# Programs are continuously differentiable
-/

namespace Spec
open Fz Set Filter Topology

set_option linter.unusedSectionVars false
set_option linter.unusedSimpArgs false

variable {E : Type} [NormedAddCommGroup E] [NormedSpace ℝ E] {x : E}

theorem contDiff_erfFn : ContDiff ℝ 1 erfFn := by
  have h : ∀ x, HasDerivAt erfFn (2 / √Real.pi * Real.exp (-(x * x))) x := fun x => by
    have := hasDerivAt_erfR x
    rwa [show erfR = erfFn from funext erfR_eq] at this
  rw [contDiff_one_iff_deriv]
  refine ⟨fun x => (h x).differentiableAt, ?_⟩
  rw [show deriv erfFn = fun x => 2 / √Real.pi * Real.exp (-(x * x)) from funext fun x => (h x).deriv]
  fun_prop

theorem Un.contDiff {f : Un} {r : ℝ} (h : f.dom r) : ContDiffAt ℝ 1 f.fn r := by
  cases f with
  | pos => exact contDiffAt_id
  | neg => exact contDiffAt_id.neg
  | abs => exact contDiffAt_abs h
  | sin => exact Real.contDiff_sin.contDiffAt
  | cos => exact Real.contDiff_cos.contDiffAt
  | tan => exact Real.contDiffAt_tan.mpr h
  | asin => exact Real.contDiffAt_arcsin (ne_of_gt h.1) (ne_of_lt h.2)
  | acos => exact Real.contDiffAt_arccos (ne_of_gt h.1) (ne_of_lt h.2)
  | atan => exact Real.contDiff_arctan.contDiffAt
  | sinh => exact Real.contDiff_sinh.contDiffAt
  | cosh => exact Real.contDiff_cosh.contDiffAt
  | tanh =>
    show ContDiffAt ℝ 1 Real.tanh r
    rw [show Real.tanh = fun x => Real.sinh x / Real.cosh x from funext Real.tanh_eq_sinh_div_cosh]
    exact Real.contDiff_sinh.contDiffAt.div Real.contDiff_cosh.contDiffAt (Real.cosh_pos r).ne'
  | asinh => exact Real.contDiff_arsinh.contDiffAt
  | acosh => exact Real.contDiffAt_arcosh h
  | atanh =>
    have h1 : -1 < r := h.1
    have h2 : r < 1 := h.2
    show ContDiffAt ℝ 1 (fun x => Real.log √((1 + x) / (1 - x))) r
    have h3 : 0 < (1 + r) / (1 - r) := div_pos (by linarith) (by linarith)
    refine ContDiffAt.log (ContDiffAt.sqrt (ContDiffAt.div ?_ ?_ (by linarith)) h3.ne') (Real.sqrt_pos.mpr h3).ne'
    · exact contDiffAt_const.add contDiffAt_id
    · exact contDiffAt_const.sub contDiffAt_id
  | sqrt => exact Real.contDiffAt_sqrt (ne_of_gt h)
  | inv => exact contDiffAt_const.div contDiffAt_id h
  | square => exact contDiffAt_id.pow 2
  | invSqrt => exact contDiffAt_const.div (Real.contDiffAt_sqrt (ne_of_gt h)) (Real.sqrt_pos.mpr h).ne'
  | exp => exact Real.contDiff_exp.contDiffAt
  | log => exact Real.contDiffAt_log.mpr (ne_of_gt h)
  | logit =>
    have h1 : 0 < r := h.1
    have h2 : r < 1 := h.2
    refine ContDiffAt.log (contDiffAt_id.div (contDiffAt_const.sub contDiffAt_id) ?_) (div_pos h1 ?_).ne'
    · show 1 - r ≠ 0
      linarith
    · show 0 < 1 - r
      linarith
  | invLogit =>
    refine contDiffAt_const.div (contDiffAt_const.add (Real.contDiff_exp.contDiffAt.comp r contDiffAt_id.neg)) ?_
    show 1 + Real.exp (-r) ≠ 0
    positivity
  | erf => exact contDiff_erfFn.contDiffAt
  | erfc => exact contDiffAt_const.sub contDiff_erfFn.contDiffAt

theorem contDiff_hypot {a b : E → ℝ} (ha : ContDiffAt ℝ 1 a x) (hb : ContDiffAt ℝ 1 b x) (h : a x ≠ 0 ∨ b x ≠ 0) :
    ContDiffAt ℝ 1 (fun v => √(a v ^ 2 + b v ^ 2)) x := by
  refine ContDiffAt.sqrt ((ha.pow 2).add (hb.pow 2)) ?_
  rcases h with h | h <;> positivity

theorem Bin.contDiff {f : Bin} (hf : f ≠ .pow) {a b : E → ℝ} (ha : ContDiffAt ℝ 1 a x) (hb : ContDiffAt ℝ 1 b x)
    (h : f.domVV (a x) (b x)) : ContDiffAt ℝ 1 (fun v => f.fn (a v) (b v)) x := by
  cases f with
  | add => exact ha.add hb
  | sub => exact ha.sub hb
  | mul => exact ha.mul hb
  | div => exact ha.div hb h
  | pow => exact absurd rfl hf
  | hypot => exact contDiff_hypot ha hb h

theorem contDiff_powVD {a : E → ℝ} (ha : ContDiffAt ℝ 1 a x) {d : ℝ} (h : Bin.domVD .pow (a x) d) :
    ContDiffAt ℝ 1 (fun v => a v ^ d) x := by
  by_cases h0 : a x = 0
  · have h1 : d = 0 ∨ 1 ≤ d := by
      rcases h with h | h | h | h | h
      · exact absurd h0 h.ne'
      · exact .inr h.ge
      · exact .inr (by rw [h]; norm_num)
      · exact absurd h0 h.1
      · exact h.2.imp id le_of_lt
    rcases h1 with rfl | h1
    · simpa using contDiffAt_const
    · exact_mod_cast ContDiffAt.rpow_const_of_le (m := 1) (by exact_mod_cast ha) (by exact_mod_cast h1)
  · exact ha.rpow_const_of_ne h0

theorem contDiff_powDV {a : E → ℝ} (ha : ContDiffAt ℝ 1 a x) {d : ℝ} (h : Bin.domDV .pow d (a x)) :
    ContDiffAt ℝ 1 (fun v => d ^ a v) x := by
  rcases h with h | ⟨rfl, h⟩
  · exact contDiffAt_const.rpow ha h.ne'
  · refine (contDiffAt_const (c := (0 : ℝ))).congr_of_eventuallyEq ?_
    filter_upwards [ha.continuousAt.eventually (lt_mem_nhds h)] with v hv
    exact Real.zero_rpow hv.ne'

theorem Dist.contDiff {d : Dist} {a b : E → ℝ} {y : ℝ} (ha : ContDiffAt ℝ 1 a x) (hb : ContDiffAt ℝ 1 b x)
    (h : 0 < b x) (hy : d.supp y) : ContDiffAt ℝ 1 (fun v => d.logpdf (a v) (b v) y) x := by
  have hp : 0 < √(2 * Real.pi) := Real.sqrt_pos.mpr (by positivity)
  cases d with
  | normal =>
    refine ContDiffAt.log (ContDiffAt.mul (contDiffAt_const.div (hb.mul contDiffAt_const) (by positivity))
      (ContDiffAt.exp (ContDiffAt.div ((contDiffAt_const.sub ha).pow 2).neg (contDiffAt_const.mul (hb.pow 2))
        (by positivity)))) (by positivity)
  | lognormal =>
    have hy : 0 < y := hy
    refine ContDiffAt.log (ContDiffAt.mul (contDiffAt_const.div ((contDiffAt_const.mul hb).mul contDiffAt_const) (by positivity))
      (ContDiffAt.exp (ContDiffAt.div ((contDiffAt_const.sub ha).pow 2).neg (contDiffAt_const.mul (hb.pow 2))
        (by positivity)))) (by positivity)

theorem contDiff_sum {α : Type} : ∀ {l : List α} {φ : α → E → ℝ}, (∀ i ∈ l, ContDiffAt ℝ 1 (φ i) x) →
    ContDiffAt ℝ 1 (fun v => (l.map fun i => φ i v).sum) x
  | [], _, _ => by simpa using contDiffAt_const
  | i :: l, φ, h => by
    simp only [List.map_cons, List.sum_cons]
    exact (h i (by simp)).add (contDiff_sum fun j hj => h j (by simp [hj]))

theorem contDiff_one {φ : E → ℝ} (h : ContDiffAt ℝ 1 φ x) (j : Nat) : ContDiffAt ℝ 1 (fun v => look [φ v] j) x := by
  cases j with
  | zero => simpa [look] using h
  | succ j => simpa [look] using contDiffAt_const

theorem contDiff_map {α : Type} {l : List α} {φ : α → E → ℝ} (h : ∀ i ∈ l, ContDiffAt ℝ 1 (φ i) x) (j : Nat) :
    ContDiffAt ℝ 1 (fun v => look (l.map fun i => φ i v) j) x := by
  by_cases hj : j < l.length
  · simpa [look, hj] using h l[j] (List.getElem_mem hj)
  · simpa [look, hj] using contDiffAt_const

theorem contDiff_fn {φ : List ℝ → ℝ} {is : List Nat} {env : E → List ℝ}
    (he : ∀ j, ContDiffAt ℝ 1 (fun v => look (env v) j) x)
    (h : ContDiffAt ℝ 1 (fun y : Fin is.length → ℝ => φ (List.ofFn y)) (fun k => look (env x) is[k])) :
    ContDiffAt ℝ 1 (fun v => φ (is.map (look (env v)))) x := by
  have e : ∀ v, φ (is.map (look (env v))) = (fun y : Fin is.length → ℝ => φ (List.ofFn y)) (fun k => look (env v) is[k]) := by
    intro v
    congr 1
    apply List.ext_getElem <;> simp
  rw [funext e]
  exact ContDiffAt.comp (g := fun y : Fin is.length → ℝ => φ (List.ofFn y))
    (f := fun v (k : Fin is.length) => look (env v) is[k]) x h (contDiffAt_pi' fun k => he _)

theorem Instr.contDiff {I : ℝ → Instr} (hI : Instr.Drifts I) {τ : E → ℝ} (hτ : ContDiffAt ℝ 1 τ x) {env : E → List ℝ}
    (he : ∀ j, ContDiffAt ℝ 1 (fun v => look (env v) j) x) (ho : (I (τ x)).Ok (env x)) (hs : (I (τ x)).Smooth (env x))
    (j : Nat) : ContDiffAt ℝ 1 (fun v => look ((I (τ v)).sem (env v)) j) x := by
  cases hI with
  | const hd => exact contDiff_one (hd.contDiffAt.comp x hτ) j
  | @binVD f i d hf hd =>
    refine contDiff_one (Bin.contDiff hf (he i) (hd.contDiffAt.comp x hτ) ?_) j
    have := ho.2.1
    cases f <;> first | exact this | exact absurd rfl hf
  | @binDV f i d hf hd =>
    refine contDiff_one (Bin.contDiff hf (hd.contDiffAt.comp x hτ) (he i) ?_) j
    have := ho.2.1
    cases f <;> first | exact this | exact absurd rfl hf
  | fixed i =>
    cases i with
    | const d => exact contDiff_one contDiffAt_const j
    | un f i => exact contDiff_one ((Un.contDiff ho.2).comp x (he i)) j
    | bin f i k =>
      by_cases hf : f = .pow
      · subst hf
        exact contDiff_one ((he i).rpow (he k) (ne_of_gt hs)) j
      · exact contDiff_one (Bin.contDiff hf (he i) (he k) ho.2.2) j
    | binVD f i d =>
      by_cases hf : f = .pow
      · subst hf
        exact contDiff_one (contDiff_powVD (he i) ho.2.1) j
      · refine contDiff_one (Bin.contDiff hf (he i) contDiffAt_const ?_) j
        have := ho.2.1
        cases f <;> first | exact this | exact absurd rfl hf
    | binDV f d i =>
      by_cases hf : f = .pow
      · subst hf
        exact contDiff_one (contDiff_powDV (he i) ho.2.1) j
      · refine contDiff_one (Bin.contDiff hf contDiffAt_const (he i) ?_) j
        have := ho.2.1
        cases f <;> first | exact this | exact absurd rfl hf
    | sum is => exact contDiff_one (contDiff_sum fun i _ => he i) j
    | norm2 is =>
      refine contDiff_one (ContDiffAt.sqrt (contDiff_sum fun i _ => (he i).pow 2) ?_) j
      obtain ⟨-, i, hi, h0⟩ := ho
      refine (lt_of_lt_of_le (by positivity : 0 < look (env x) i ^ 2) ?_).ne'
      exact List.single_le_sum (by simp only [List.mem_map]; rintro _ ⟨k, -, rfl⟩; positivity) _
        (List.mem_map_of_mem hi)
    | logSumExp is =>
      refine contDiff_one (ContDiffAt.log (contDiff_sum fun i _ => (he i).exp) ?_) j
      obtain ⟨-, h0⟩ := ho
      cases is with
      | nil => exact absurd rfl h0
      | cons i is =>
        simp only [List.map_cons, List.sum_cons]
        have : 0 ≤ (is.map fun i => Real.exp (look (env x) i)).sum :=
          List.sum_nonneg (by simp only [List.mem_map]; rintro _ ⟨k, -, rfl⟩; positivity)
        positivity
    | dotVV is js => exact contDiff_one (contDiff_sum fun p _ => (he p.1).mul (he p.2)) j
    | dotVD is ds => exact contDiff_one (contDiff_sum fun p _ => (he p.1).mul contDiffAt_const) j
    | dotDV ds is => exact contDiff_one (contDiff_sum fun p _ => contDiffAt_const.mul (he p.2)) j
    | matmulVV a b => exact contDiff_map (fun p _ => contDiff_sum fun k _ => (he _).mul (he _)) j
    | matmulVD a b => exact contDiff_map (fun p _ => contDiff_sum fun k _ => (he _).mul contDiffAt_const) j
    | matmulDV a b => exact contDiff_map (fun p _ => contDiff_sum fun k _ => contDiffAt_const.mul (he _)) j
    | lpdfVV d ys m s =>
      exact contDiff_one (contDiff_sum fun y hy => Dist.contDiff (he m) (he s) ho.2.2.1 (ho.2.2.2 y hy)) j
    | lpdfVD d ys m s =>
      exact contDiff_one (contDiff_sum fun y hy => Dist.contDiff (he m) contDiffAt_const ho.2.1 (ho.2.2 y hy)) j
    | lpdfDV d ys m s =>
      exact contDiff_one (contDiff_sum fun y hy => Dist.contDiff contDiffAt_const (he s) ho.2.1 (ho.2.2 y hy)) j
    | partials φ dφ is => exact contDiff_one (contDiff_fn he hs) j
    | user φ r is ds => exact contDiff_one (contDiff_fn he hs) j

/-- near a point where the compared numbers differ the comparison has the same result -/
theorem rel_eventually {o : Rel} {a b : E → ℝ} (ha : ContinuousAt a x) (hb : ContinuousAt b x) (h : a x ≠ b x) :
    ∀ᶠ v in 𝓝 x, o.holds (a v) (b v) ↔ o.holds (a x) (b x) := by
  rcases lt_or_gt_of_ne h with h | h
  · filter_upwards [ha.eventually_lt hb h] with v hv
    cases o <;> simp only [Rel.holds, hv, h, hv.ne, h.ne, hv.le, h.le, hv.not_gt, h.not_gt, hv.not_ge, h.not_ge, gt_iff_lt,
      ge_iff_le, ne_eq, not_false_eq_true, not_true_eq_false]
  · filter_upwards [hb.eventually_lt ha h] with v hv
    cases o <;> simp only [Rel.holds, hv, h, hv.ne', h.ne', hv.le, h.le, hv.not_gt, h.not_gt, hv.not_ge, h.not_ge, gt_iff_lt,
      ge_iff_le, ne_eq, not_false_eq_true, not_true_eq_false]

theorem Instr.sem_len {I : ℝ → Instr} (hI : Instr.Drifts I) (t t' : ℝ) (e e' : List ℝ) :
    ((I t).sem e).length = ((I t').sem e').length := by
  cases hI with
  | fixed i => cases i <;> simp [Instr.sem]
  | _ => rfl

theorem Prog.contDiff {p : ℝ → Prog} (hp : Prog.Drifts p) {τ : E → ℝ} (hτ : ContDiffAt ℝ 1 τ x) : ∀ {env : E → List ℝ},
    (∀ v, (env v).length = (env x).length) → (∀ j, ContDiffAt ℝ 1 (fun v => look (env v) j) x) →
    (p (τ x)).Ok (env x) → (p (τ x)).Smooth (env x) →
    ∀ j, ContDiffAt ℝ 1 (fun v => look ((p (τ v)).sem (env v)) j) x := by
  induction hp with
  | ret outs =>
    intro env hl he ho hs j
    exact contDiff_map (fun i _ => he i) j
  | @op i k hi hk ih =>
    intro env hl he ho hs j
    refine ih (env := fun v => env v ++ (i (τ v)).sem (env v)) (fun v => ?_) (fun j => ?_) ho.2 hs.2 j
    · simp only [List.length_append]
      rw [hl v, Instr.sem_len hi (τ v) (τ x) (env v) (env x)]
    · by_cases hj : j < (env x).length
      · refine (he j).congr_of_eventuallyEq (.of_forall fun v => ?_)
        simp only [look]
        rw [List.getD_append _ _ _ _ (by rw [hl v]; exact hj)]
      · refine (Instr.contDiff hi hτ he ho.1 hs.1 (j - (env x).length)).congr_of_eventuallyEq (.of_forall fun v => ?_)
        simp only [look]
        rw [List.getD_append_right _ _ _ _ (by rw [hl v]; omega), hl v]
  | @ifVV o a b p q _ _ hp hq =>
    intro env hl he ho hs j
    have key := rel_eventually (o := o) (he a).continuousAt (he b).continuousAt ho.2.2.1
    by_cases h : o.holds (look (env x) a) (look (env x) b)
    · refine (hp hl he (ho.2.2.2.1 h) (hs.1 h) j).congr_of_eventuallyEq (key.mono fun v hv => ?_)
      simp only [Prog.sem, if_pos (hv.mpr h)]
    · refine (hq hl he (ho.2.2.2.2 h) (hs.2 h) j).congr_of_eventuallyEq (key.mono fun v hv => ?_)
      simp only [Prog.sem, if_neg (fun h' => h (hv.mp h'))]
  | @ifVD o a d p q hd _ _ hp hq =>
    intro env hl he ho hs j
    have key := rel_eventually (o := o) (he a).continuousAt (hd.contDiffAt.comp x hτ).continuousAt ho.2.1
    by_cases h : o.holds (look (env x) a) (d (τ x))
    · refine (hp hl he (ho.2.2.1 h) (hs.1 h) j).congr_of_eventuallyEq (key.mono fun v hv => ?_)
      simp only [Prog.sem]
      exact congrArg (look · j) (if_pos (hv.mpr h))
    · refine (hq hl he (ho.2.2.2 h) (hs.2 h) j).congr_of_eventuallyEq (key.mono fun v hv => ?_)
      simp only [Prog.sem]
      exact congrArg (look · j) (if_neg (fun h' => h (hv.mp h')))

/-! ## The right-hand side near a solution -/

/-- component `i` of the right-hand side as a function of time, state and parameters -/
noncomputable def rhsAt (p : ℝ → Prog) (n m i : Nat) (v : ℝ × (Fin m → ℝ)) : ℝ := odeFn (p v.1) n [] i (List.ofFn v.2)

theorem look_ofFn {m : Nat} (v : Fin m → ℝ) (j : Nat) : look (List.ofFn v) j = if h : j < m then v ⟨j, h⟩ else 0 := by
  by_cases h : j < m <;> simp [look, h]

theorem rhsAt_contDiff {p : ℝ → Prog} (hp : Prog.Drifts p) {n m i : Nat} {z : ℝ × (Fin m → ℝ)} {e : List ℝ}
    (he : (List.ofFn z.2).take n ++ List.replicate n 0 ++ (List.ofFn z.2).drop n ++ [] = e)
    (ho : (p z.1).Ok e) (hs : (p z.1).Smooth e) : ContDiffAt ℝ 1 (rhsAt p n m i) z := by
  subst he
  refine Prog.contDiff hp (τ := fun v : ℝ × (Fin m → ℝ) => v.1) (x := z) contDiffAt_fst
    (env := fun v => (List.ofFn v.2).take n ++ List.replicate n 0 ++ (List.ofFn v.2).drop n ++ []) (fun v => ?_) (fun j => ?_)
    ho hs i
  · simp
  · have hc : ∀ j, ContDiffAt ℝ 1 (fun v : ℝ × (Fin m → ℝ) => look (List.ofFn v.2) j) z := by
      intro j
      simp only [look_ofFn]
      split
      · exact (contDiff_apply ℝ ℝ _).contDiffAt.comp z contDiffAt_snd
      · exact contDiffAt_const
    have h1 : ∀ v : ℝ × (Fin m → ℝ), look ((List.ofFn v.2).take n ++ List.replicate n 0 ++ (List.ofFn v.2).drop n ++ []) j
        = if j < min n m then look (List.ofFn v.2) j else if j < min n m + n then 0 else look (List.ofFn v.2) (j - min n m) := by
      intro v
      simp only [look, List.getD_eq_getElem?_getD, List.append_nil, List.getElem?_append, List.length_append,
        List.length_take, List.length_ofFn, List.length_replicate]
      by_cases a1 : j < min n m
      · rw [if_pos (by omega), if_pos a1, if_pos a1, List.getElem?_take_of_lt (by omega)]
      · by_cases a2 : j < min n m + n
        · rw [if_pos a2, if_neg a1, if_neg a1, if_pos a2, List.getElem?_replicate_of_lt (by omega)]
          rfl
        · rw [if_neg a2, if_neg a1, if_neg a2, List.getElem?_drop, show n + (j - (min n m + n)) = j - min n m by omega]
    rw [funext h1]
    split
    · exact hc _
    · split
      · exact contDiffAt_const
      · exact hc _

theorem IsSolution.continuous {F : ℝ → Nat → List ℝ → ℝ} {n : Nat} {t0 T : ℝ} {q : List ℝ} {y : ℝ → List ℝ}
    (h : IsSolution F n t0 T q y) (j : Nat) : ContinuousOn (fun t => (y t ++ q).getD j 0) (Icc t0 T) := by
  by_cases hj : j < n
  · refine ContinuousOn.congr (f := fun t => (y t).getD j 0) (fun t ht => ((h t ht).2 j hj).continuousWithinAt) fun t ht => ?_
    exact List.getD_append _ _ _ _ (by rw [(h t ht).1]; exact hj)
  · refine ContinuousOn.congr (f := fun _ => q.getD (j - n) 0) continuousOn_const fun t ht => ?_
    have := (h t ht).1
    simp only []
    rw [List.getD_append_right _ _ _ _ (by omega), this]

/-- near the solution the right-hand side is continuously differentiable -/
theorem smooth_tube {p : ℝ → Prog} (hp : Prog.Drifts p) {n : Nat} {t0 T : ℝ} {q : List ℝ} {y : ℝ → List ℝ}
    (hy : IsSolution (fun t => odeFn (p t) n []) n t0 T q y)
    (ho : ∀ t ∈ Icc t0 T, (p t).Ok (y t ++ List.replicate n 0 ++ q) ∧ (p t).Smooth (y t ++ List.replicate n 0 ++ q)) :
    ∃ ρ > 0, ∀ t ∈ Icc t0 T, ∀ v : Fin (n + q.length) → ℝ, ‖v - fun j : Fin (n + q.length) => (y t ++ q).getD j 0‖ ≤ ρ →
      ∀ i < n, ContDiffAt ℝ 1 (rhsAt p n (n + q.length) i) (t, v) := by
  set m := n + q.length with hm
  let w : ℝ → ℝ × (Fin m → ℝ) := fun t => (t, fun j => (y t ++ q).getD j 0)
  have hw : ContinuousOn w (Icc t0 T) :=
    continuousOn_id.prodMk (continuousOn_pi.mpr fun j => hy.continuous j)
  have hK : IsCompact (w '' Icc t0 T) := isCompact_Icc.image_of_continuousOn hw
  let U : Set (ℝ × (Fin m → ℝ)) := {z | ∀ i < n, ContDiffAt ℝ 1 (rhsAt p n m i) z}
  have hU : IsOpen U := by
    rw [isOpen_iff_eventually]
    intro z hz
    have : ∀ᶠ z' in 𝓝 z, ∀ i ∈ Finset.range n, ContDiffAt ℝ 1 (rhsAt p n m i) z' :=
      (Finset.eventually_all _).mpr fun i hi => (hz i (Finset.mem_range.mp hi)).eventually (by simp)
    exact this.mono fun z' h i hi => h i (Finset.mem_range.mpr hi)
  have hKU : w '' Icc t0 T ⊆ U := by
    rintro _ ⟨t, ht, rfl⟩ i hi
    refine rhsAt_contDiff hp (e := y t ++ List.replicate n 0 ++ q) ?_ (ho t ht).1 (ho t ht).2
    have := (hy t ht).1
    have hofn : List.ofFn (w t).2 = y t ++ q := ofFn_getD (by simp [hm, this])
    rw [hofn, List.take_left' this, List.drop_left' this, List.append_nil]
  obtain ⟨ρ, hρ, hin⟩ := hK.exists_cthickening_subset_open hU hKU
  refine ⟨ρ, hρ, fun t ht v hv => hin (Metric.mem_cthickening_of_dist_le _ (w t) _ _ (mem_image_of_mem _ ht) ?_)⟩
  rw [Prod.dist_eq]
  refine max_le (by simpa [w] using hρ.le) ?_
  rw [dist_eq_norm]
  exact hv

/-- the partial derivatives of component `i` of the right-hand side -/
noncomputable def rhsGrad (p : ℝ → Prog) (n m i : Nat) (t : ℝ) (v : Fin m → ℝ) : List ℝ :=
  List.ofFn fun j : Fin m => fderiv ℝ (rhsAt p n m i) (t, v) (0, Pi.single j 1)

theorem rhsGrad_apply {p : ℝ → Prog} {n m i : Nat} (t : ℝ) (v u : Fin m → ℝ) :
    fderiv ℝ (rhsAt p n m i) (t, v) (0, u) = ∑ j : Fin m, (rhsGrad p n m i t v).getD j 0 * u j := by
  have ev : ((0 : ℝ), u) = ∑ j, u j • ((0 : ℝ), (Pi.single j (1 : ℝ) : Fin m → ℝ)) := by
    refine Prod.ext ?_ ?_
    · simp [Prod.fst_sum]
    · funext k
      simp [Prod.snd_sum, Pi.single_apply]
  rw [ev, map_sum]
  refine Finset.sum_congr rfl fun j _ => ?_
  rw [map_smul]
  simp [rhsGrad, mul_comm]

theorem rhsGrad_grad {p : ℝ → Prog} {n m i : Nat} {t : ℝ} {x : List ℝ} (hl : x.length = m)
    (h : ContDiffAt ℝ 1 (rhsAt p n m i) (t, fun k : Fin m => x.getD k 0)) :
    IsGradAt (odeFn (p t) n [] i) x (rhsGrad p n m i t fun k : Fin m => x.getD k 0) := by
  subst hl
  refine ⟨by simp [rhsGrad], ?_⟩
  have e : (fun k : Fin x.length => x[k]) = fun k : Fin x.length => x.getD k 0 := by
    funext k
    simp
  rw [e]
  have hc := (h.differentiableAt (by simp)).hasFDerivAt.comp (f := fun v : Fin x.length → ℝ => (t, v))
    (fun k : Fin x.length => x.getD k 0) (hasFDerivAt_prodMk_right t _)
  refine hc.congr_fderiv (ContinuousLinearMap.ext fun v => ?_)
  simp only [ContinuousLinearMap.comp_apply, ContinuousLinearMap.inr_apply]
  rw [rhsGrad_apply, sum_apply]
  simp

theorem c1Near_of {p : ℝ → Prog} (hp : Prog.Drifts p) {n : Nat} {t0 T : ℝ} {q : List ℝ} {y : ℝ → List ℝ}
    (hy : IsSolution (fun t => odeFn (p t) n []) n t0 T q y)
    (ho : ∀ t ∈ Icc t0 T, (p t).Ok (y t ++ List.replicate n 0 ++ q) ∧ (p t).Smooth (y t ++ List.replicate n 0 ++ q)) :
    ∃ ρ > 0, C1Near (fun t => odeFn (p t) n []) n (n + q.length) t0 T ρ (fun t => y t ++ q) := by
  obtain ⟨ρ, hρ, near⟩ := smooth_tube hp hy ho
  have hl : ∀ t ∈ Icc t0 T, (y t ++ q).length = n + q.length := fun t ht => by simp [(hy t ht).1]
  refine ⟨ρ, hρ, fun i hi => ⟨fun t x => rhsGrad p n (n + q.length) i t fun k => x.getD k 0, fun t ht x hx => ?_, fun j hj => ?_⟩⟩
  · have hx' : x.length = n + q.length := hx.1.trans (hl t ht)
    refine rhsGrad_grad hx' (near t ht _ ((near_iff hρ.le (hl t ht)).mp ?_) i hi)
    rw [ofFn_getD hx']
    exact hx
  · have e : ∀ z : ℝ × (Fin (n + q.length) → ℝ), (rhsGrad p n (n + q.length) i z.1 fun k => (List.ofFn z.2).getD k 0).getD j 0
        = fderiv ℝ (rhsAt p n (n + q.length) i) z (0, Pi.single ⟨j, hj⟩ 1) := by
      intro z
      simp [rhsGrad, hj]
    simp only [e]
    intro z hz
    have hz2 := (near_iff hρ.le (hl _ hz.1)).mp hz.2
    exact (((near z.1 hz.1 z.2 hz2 i hi).continuousAt_fderiv (by simp)).clm_apply continuousAt_const).continuousWithinAt

/-! ## Solutions and sensitivities exist -/

/-- the right-hand side for state and parameters together -/
noncomputable def fullRhs (p : ℝ → Prog) (n m : Nat) (t : ℝ) (v : Fin m → ℝ) : Fin m → ℝ := fun i =>
  if (i : Nat) < n then rhsAt p n m i (t, v) else 0

theorem full_solution {F : ℝ → Nat → List ℝ → ℝ} {n m : Nat} {t0 T : ℝ} {q : List ℝ} {y : ℝ → List ℝ}
    (hm : n + q.length = m) (hy : IsSolution F n t0 T q y) : ∀ t ∈ Icc t0 T,
    HasDerivWithinAt (fun t (j : Fin m) => (y t ++ q).getD j 0) (fun i => if (i : Nat) < n then F t i (y t ++ q) else 0)
      (Icc t0 T) t := by
  intro t ht
  rw [hasDerivWithinAt_pi]
  intro i
  by_cases hi : (i : Nat) < n
  · simp only [hi, if_true]
    refine ((hy t ht).2 i hi).congr (fun u hu => ?_) ?_
    · rw [List.getD_append _ _ _ _ (by rw [(hy u hu).1]; exact hi)]
    · rw [List.getD_append _ _ _ _ (by rw [(hy t ht).1]; exact hi)]
  · simp only [hi, if_false]
    refine (hasDerivWithinAt_const t (Icc t0 T) (q.getD (i - n) 0)).congr (fun u hu => ?_) ?_
    · rw [List.getD_append_right _ _ _ _ (by rw [(hy u hu).1]; omega), (hy u hu).1]
    · rw [List.getD_append_right _ _ _ _ (by rw [(hy t ht).1]; omega), (hy t ht).1]

/-- a function whose derivative vanishes stays where it is -/
theorem stays {f : ℝ → ℝ} {a b : ℝ} (h : ∀ t ∈ Icc a b, HasDerivWithinAt f 0 (Icc a b) t) : ∀ t ∈ Icc a b, f t = f a :=
  constant_of_has_deriv_right_zero (fun t ht => (h t ht).continuousWithinAt) fun t ht =>
    (h t ⟨ht.1, ht.2.le⟩).mono_of_mem_nhdsWithin
      (mem_of_superset (Icc_mem_nhdsGE ht.2) (Icc_subset_Icc_left ht.1))

/-- near the solution the right-hand side is Lipschitz continuous -/
theorem tube_lipschitz {p : ℝ → Prog} {n m : Nat} {t0 T ρ : ℝ} {w : ℝ → Fin m → ℝ} (hwc : ContinuousOn w (Icc t0 T))
    (near : ∀ t ∈ Icc t0 T, ∀ v : Fin m → ℝ, ‖v - w t‖ ≤ ρ → ∀ i < n, ContDiffAt ℝ 1 (rhsAt p n m i) (t, v)) :
    ∃ K : NNReal, ∀ t ∈ Icc t0 T, LipschitzOnWith K (fullRhs p n m t) (Metric.closedBall (w t) ρ) := by
  have hcomp : IsCompact {z : ℝ × (Fin m → ℝ) | z.1 ∈ Icc t0 T ∧ ‖z.2 - w z.1‖ ≤ ρ} := Analysis.tube_compact hwc
  have hb : ∃ B : ℝ, 0 ≤ B ∧ ∀ i < n, ∀ z ∈ {z : ℝ × (Fin m → ℝ) | z.1 ∈ Icc t0 T ∧ ‖z.2 - w z.1‖ ≤ ρ},
      ‖fderiv ℝ (rhsAt p n m i) z‖ ≤ B := by
    have h1 : ∀ i < n, ∃ B, ∀ z ∈ {z : ℝ × (Fin m → ℝ) | z.1 ∈ Icc t0 T ∧ ‖z.2 - w z.1‖ ≤ ρ},
        ‖fderiv ℝ (rhsAt p n m i) z‖ ≤ B := fun i hi => hcomp.exists_bound_of_continuousOn fun z hz =>
      ((near z.1 hz.1 z.2 hz.2 i hi).continuousAt_fderiv (by simp)).continuousWithinAt
    choose! B hB using h1
    refine ⟨∑ i ∈ Finset.range n, |B i|, Finset.sum_nonneg fun i _ => abs_nonneg _, fun i hi z hz => ?_⟩
    refine ((hB i hi z hz).trans (le_abs_self _)).trans ?_
    exact Finset.single_le_sum (f := fun i => |B i|) (fun i _ => abs_nonneg _) (Finset.mem_range.mpr hi)
  obtain ⟨B, hB0, hB⟩ := hb
  refine ⟨B.toNNReal, fun t ht => LipschitzOnWith.of_dist_le_mul fun x hx x' hx' => by
      rw [dist_eq_norm, dist_eq_norm, pi_norm_le_iff_of_nonneg (by positivity)]
      intro i
      by_cases hi : (i : Nat) < n
      · simp only [fullRhs, Pi.sub_apply, hi, if_true]
        have conv : Convex ℝ (Metric.closedBall (w t) ρ) := convex_closedBall _ _
        refine conv.norm_image_sub_le_of_norm_hasFDerivWithin_le (f := fun v => rhsAt p n m i (t, v))
          (f' := fun v => (fderiv ℝ (rhsAt p n m i) (t, v)).comp (ContinuousLinearMap.inr ℝ ℝ (Fin m → ℝ))) (fun v hv => ?_)
          (fun v hv => ?_) hx' hx
        · rw [mem_closedBall_iff_norm] at hv
          exact (((near t ht v hv i hi).differentiableAt (by simp)).hasFDerivAt.comp (f := fun v : Fin m → ℝ => (t, v)) v
            (hasFDerivAt_prodMk_right t _)).hasFDerivWithinAt
        · rw [mem_closedBall_iff_norm] at hv
          rw [Real.coe_toNNReal B hB0]
          refine (ContinuousLinearMap.opNorm_comp_le _ _).trans ?_
          have h1 := hB i hi (t, v) ⟨ht, hv⟩
          have h2 := ContinuousLinearMap.norm_inr_le_one ℝ ℝ (Fin m → ℝ)
          nlinarith [norm_nonneg (fderiv ℝ (rhsAt p n m i) (t, v)), norm_nonneg (ContinuousLinearMap.inr ℝ ℝ (Fin m → ℝ))]
      · simp only [fullRhs, Pi.sub_apply, hi, if_false, sub_self, norm_zero]
        positivity⟩

/-- solutions with nearby initial values and parameters exist as long as the given one -/
theorem solutions_near {p : ℝ → Prog} (hp : Prog.Drifts p) {n : Nat} {t0 T : ℝ} (hT : t0 ≤ T) {q : List ℝ} {y : ℝ → List ℝ}
    (hy : IsSolution (fun t => odeFn (p t) n []) n t0 T q y)
    (ho : ∀ t ∈ Icc t0 T, (p t).Ok (y t ++ List.replicate n 0 ++ q) ∧ (p t).Smooth (y t ++ List.replicate n 0 ++ q)) :
    ∃ δ > 0, ∀ z q' : List ℝ, z.length = n → q'.length = q.length → NearBy δ (z ++ q') (y t0 ++ q) →
      ∃ Y, IsSolution (fun t => odeFn (p t) n []) n t0 T q' Y ∧ Y t0 = z := by
  obtain ⟨ρ, hρ, near⟩ := smooth_tube hp hy ho
  set m := n + q.length with hm
  let w : ℝ → Fin m → ℝ := fun t j => (y t ++ q).getD j 0
  have hl : ∀ t ∈ Icc t0 T, (y t ++ q).length = m := fun t ht => by simp [(hy t ht).1, hm]
  have hwof : ∀ t ∈ Icc t0 T, List.ofFn (w t) = y t ++ q := fun t ht => ofFn_getD (hl t ht)
  have hw : ∀ t ∈ Icc t0 T, HasDerivWithinAt w (fullRhs p n m t (w t)) (Icc t0 T) t := fun t ht => by
    have e : fullRhs p n m t (w t) = fun i : Fin m => if (i : Nat) < n then odeFn (p t) n [] i (y t ++ q) else 0 := by
      funext i
      simp only [fullRhs, rhsAt, hwof t ht]
    rw [e]
    exact full_solution hm.symm hy t ht
  have hwc : ContinuousOn w (Icc t0 T) := fun t ht => (hw t ht).continuousWithinAt
  obtain ⟨K, hK⟩ := tube_lipschitz hwc near
  obtain ⟨δ, hδ, h⟩ := Analysis.exists_near (G := fullRhs p n m) (w := w) (a := t0) (b := T) (ρ := ρ) (K := K) hρ
    hK
    (by
      refine continuousOn_pi.mpr fun i => ?_
      by_cases hi : (i : Nat) < n
      · simp only [fullRhs, hi, if_true]
        exact fun z hz => (near z.1 hz.1 z.2 hz.2 i hi).continuousAt.continuousWithinAt
      · simp only [fullRhs, hi, if_false]
        exact continuousOn_const)
    hw
  refine ⟨δ, hδ, fun z q' hz hq hn => ?_⟩
  have hzq : (z ++ q').length = m := by simp [hz, hq, hm]
  obtain ⟨α, h0, hα⟩ := h (fun j => (z ++ q').getD j 0) ((near_iff hδ.le (hl t0 ⟨le_rfl, hT⟩)).mp (by rwa [ofFn_getD hzq]))
  have hc : ∀ i : Fin m, n ≤ (i : Nat) → ∀ t ∈ Icc t0 T, α t i = (z ++ q').getD i 0 := by
    intro i hi t ht
    have := stays (f := fun t => α t i) (a := t0) (b := T) (fun t ht => by
      have := (hasDerivWithinAt_pi.mp (hα t ht).2) i
      simpa only [fullRhs, not_lt.mpr hi, if_false] using this) t ht
    simp only [h0] at this
    exact this
  have hof : ∀ t ∈ Icc t0 T, (List.ofFn (α t)).take n ++ q' = List.ofFn (α t) := by
    intro t ht
    apply List.ext_getElem
    · simp [hq, hm]
    · intro i h1 h2
      by_cases hi : i < n
      · rw [List.getElem_append_left (by simp at h2 ⊢; omega), List.getElem_take]
      · have h3 : i < m := by simpa using h2
        rw [List.getElem_append_right (by simp; omega), List.getElem_ofFn, hc ⟨i, h3⟩ (by simpa using hi) t ht]
        have e : (z ++ q').getD i 0 = q'.getD (i - n) 0 := by
          rw [List.getD_append_right _ _ _ _ (by omega), hz]
        simp only [e]
        have e2 : ((List.ofFn (α t)).take n).length = n := by simp [hm]
        simp only [e2]
        exact List.getElem_eq_getD 0
  refine ⟨fun t => (List.ofFn (α t)).take n, fun t ht => ⟨by simp [hm], fun i hi => ?_⟩, ?_⟩
  · have hi' : i < m := by omega
    have := (hasDerivWithinAt_pi.mp (hα t ht).2) ⟨i, hi'⟩
    simp only [fullRhs, hi, if_true, rhsAt] at this
    simp only [hof t ht]
    refine this.congr_of_eventuallyEq (.of_forall fun u => ?_) ?_ <;> simp [hi, hi']
  · simp only [h0]
    rw [ofFn_getD hzq, List.take_left' hz]

/-- there is only one solution -/
theorem solution_unique {p : ℝ → Prog} (hp : Prog.Drifts p) {n : Nat} {t0 T : ℝ} {q : List ℝ} {y z : ℝ → List ℝ}
    (hy : IsSolution (fun t => odeFn (p t) n []) n t0 T q y)
    (ho : ∀ t ∈ Icc t0 T, (p t).Ok (y t ++ List.replicate n 0 ++ q) ∧ (p t).Smooth (y t ++ List.replicate n 0 ++ q))
    (hz : IsSolution (fun t => odeFn (p t) n []) n t0 T q z) (h0 : z t0 = y t0) : ∀ t ∈ Icc t0 T, z t = y t := by
  obtain ⟨ρ, hρ, near⟩ := smooth_tube hp hy ho
  set m := n + q.length with hm
  let w : (ℝ → List ℝ) → ℝ → Fin m → ℝ := fun y t j => (y t ++ q).getD j 0
  have hl : ∀ y, IsSolution (fun t => odeFn (p t) n []) n t0 T q y → ∀ t ∈ Icc t0 T, (y t ++ q).length = m :=
    fun y hy t ht => by simp [(hy t ht).1, hm]
  have hw : ∀ y, IsSolution (fun t => odeFn (p t) n []) n t0 T q y → ∀ t ∈ Icc t0 T,
      HasDerivWithinAt (w y) (fullRhs p n m t (w y t)) (Icc t0 T) t := fun y hy t ht => by
    have e : fullRhs p n m t (w y t) = fun i : Fin m => if (i : Nat) < n then odeFn (p t) n [] i (y t ++ q) else 0 := by
      funext i
      have : List.ofFn (w y t) = y t ++ q := ofFn_getD (hl y hy t ht)
      simp only [fullRhs, rhsAt, this]
    rw [e]
    exact full_solution hm.symm hy t ht
  have hwc : ∀ y, IsSolution (fun t => odeFn (p t) n []) n t0 T q y → ContinuousOn (w y) (Icc t0 T) :=
    fun y hy t ht => (hw y hy t ht).continuousWithinAt
  obtain ⟨K, hK⟩ := tube_lipschitz (hwc y hy) near
  have key := Analysis.gronwall_tube (d := fun t => w z t - w y t) (d' := fun t => fullRhs p n m t (w z t) - fullRhs p n m t (w y t))
    (δ := 0) (K := K) (ε := 0) (m := ρ) (a := t0) (b := T) K.2 le_rfl le_rfl ((hwc z hz).sub (hwc y hy))
    (fun t ht => ((hw z hz t ⟨ht.1, ht.2.le⟩).sub (hw y hy t ⟨ht.1, ht.2.le⟩)).mono_of_mem_nhdsWithin
      (mem_of_superset (Icc_mem_nhdsGE ht.2) (Icc_subset_Icc_left ht.1)))
    (by simp [w, h0])
    (fun t ht hlt => by
      have := (hK t ⟨ht.1, ht.2.le⟩).dist_le_mul (w z t) (by rw [mem_closedBall_iff_norm]; exact hlt.le) (w y t)
        (by rw [mem_closedBall_iff_norm]; simpa using hρ.le)
      rw [dist_eq_norm, dist_eq_norm] at this
      simpa using this)
    (by simpa [gronwallBound_ε0_δ0] using hρ)
  intro t ht
  have h1 := key t ht
  rw [gronwallBound_ε0_δ0, norm_le_zero_iff, sub_eq_zero] at h1
  have h2 : z t ++ q = y t ++ q := by
    rw [← ofFn_getD (hl z hz t ht), ← ofFn_getD (hl y hy t ht)]
    exact congrArg List.ofFn h1
  exact List.append_cancel_right h2

theorem _root_.List.getD_map_range {α : Type*} (f : Nat → α) (d : α) {n j : Nat} (h : j < n) :
    ((List.range n).map f).getD j d = f j := by
  simp [h]

/-- the sensitivities exist as long as the solution -/
theorem sensitivity_exists {p : ℝ → Prog} (hp : Prog.Drifts p) {n ns : Nat} {t0 T : ℝ} {q : List ℝ} {y : ℝ → List ℝ}
    (hy : IsSolution (fun t => odeFn (p t) n []) n t0 T q y)
    (ho : ∀ t ∈ Icc t0 T, (p t).Ok (y t ++ List.replicate n 0 ++ q) ∧ (p t).Smooth (y t ++ List.replicate n 0 ++ q))
    (src : Nat → Option Nat) {S0 : List (List ℝ)} (hS : S0.length = ns) (hS0 : ∀ v ∈ S0, v.length = n) :
    ∃ S, IsSensitivity (fun t => odeFn (p t) n []) t0 T q src ns y S ∧ S t0 = S0 := by
  obtain ⟨ρ, hρ, near⟩ := smooth_tube hp hy ho
  set m := n + q.length with hm
  let w : ℝ → Fin m → ℝ := fun t j => (y t ++ q).getD j 0
  have hl : ∀ t ∈ Icc t0 T, (y t ++ q).length = m := fun t ht => by simp [(hy t ht).1, hm]
  have hd : ∀ t ∈ Icc t0 T, ∀ i < n, ContDiffAt ℝ 1 (rhsAt p n m i) (t, w t) := fun t ht i hi =>
    near t ht (w t) (by simpa [w] using hρ.le) i hi
  have hw : ContinuousOn w (Icc t0 T) := continuousOn_pi.mpr fun j => hy.continuous j
  let A : ℝ → (Fin m → ℝ) →L[ℝ] (Fin m → ℝ) := fun t => ∑ i : Fin m, (ContinuousLinearMap.single ℝ (fun _ => ℝ) i).comp
    (if (i : Nat) < n then (fderiv ℝ (rhsAt p n m i) (t, w t)).comp (ContinuousLinearMap.inr ℝ ℝ (Fin m → ℝ)) else 0)
  have hA : ContinuousOn A (Icc t0 T) := by
    refine continuousOn_finsetSum _ fun i _ => continuousOn_const.clm_comp ?_
    by_cases hi : (i : Nat) < n
    · simp only [hi, if_true]
      refine ContinuousOn.clm_comp (fun t ht => ?_) continuousOn_const
      exact ((hd t ht i hi).continuousAt_fderiv (by simp)).comp_continuousWithinAt (f := fun t => (t, w t))
        (continuousWithinAt_id.prodMk (hw t ht))
    · simp only [hi, if_false]
      exact continuousOn_const
  have hAi : ∀ t u (i : Fin m), A t u i = if (i : Nat) < n then ∑ j : Fin m, (rhsGrad p n m i t (w t)).getD j 0 * u j else 0 := by
    intro t u i
    simp only [A, sum_apply, Finset.sum_apply, ContinuousLinearMap.comp_apply]
    rw [Finset.sum_eq_single i]
    · by_cases hi : (i : Nat) < n
      · simp only [hi, if_true, ContinuousLinearMap.comp_apply, ContinuousLinearMap.inr_apply]
        rw [rhsGrad_apply]
        simp
      · simp [hi]
    · intro k _ hk
      simp [Pi.single_apply, Ne.symm hk]
    · simp
  let x0 : Nat → Fin m → ℝ := fun j i => if (i : Nat) < n then (S0.getD j []).getD i 0 else if src j = some (i - n) then 1 else 0
  choose α h0 hα using fun j => Analysis.exists_linear hA (x0 j)
  have hc : ∀ j, ∀ i : Fin m, n ≤ (i : Nat) → ∀ t ∈ Icc t0 T, α j t i = if src j = some (i - n) then 1 else 0 := by
    intro j i hi t ht
    have := stays (f := fun t => α j t i) (a := t0) (b := T) (fun t ht => by
      have := (hasDerivWithinAt_pi.mp (hα j t ht)) i
      rw [hAi, if_neg (not_lt.mpr hi)] at this
      exact this) t ht
    simp only [h0, x0, not_lt.mpr hi, if_false] at this
    exact this
  let row : Nat → ℝ → List ℝ := fun j t => (List.ofFn (α j t)).take n
  have hrow : ∀ j t, (row j t).length = n := fun j t => by simp [row, hm]
  have hrowi : ∀ j t i (hi : i < n), (row j t).getD i 0 = α j t ⟨i, by omega⟩ := fun j t i hi => by
    have : i < m := by omega
    simp [row, hi, this]
  refine ⟨fun t => (List.range ns).map fun j => row j t, fun t ht => ⟨by simp,
    (List.range ns).map fun j => (List.ofFn (A t (α j t))).take n, ⟨by simp, fun j hj => ?_⟩, fun j hj => ⟨?_, fun i hi => ?_⟩⟩, ?_⟩
  · have hj : j < ns := by simpa using hj
    have hyl := (hy t ht).1
    simp only [List.getD_map_range _ _ hj]
    refine ⟨by simp [hyl, hm], fun i hi => ?_⟩
    rw [hyl] at hi
    have hg := rhsGrad_grad (i := i) (p := p) (n := n) (hl t ht) (hd t ht i hi)
    refine ⟨(rhsGrad p n m i t (w t)).take n, (rhsGrad p n m i t (w t)).drop n, by simp [rhsGrad, hm, hyl], ?_, ?_⟩
    · rw [List.take_append_drop]
      exact hg
    · have hi' : i < m := by omega
      have e1 : ((List.ofFn (A t (α j t))).take n).getD i 0 = A t (α j t) ⟨i, hi'⟩ := by simp [hi, hi']
      rw [e1, hAi]
      simp only [hi, if_true]
      have hgl : (rhsGrad p n m i t (w t)).length = m := by simp [rhsGrad]
      generalize rhsGrad p n m i t (w t) = g at hgl
      have hfin := Finset.sum_range (n := m) fun k => g.getD k 0 * if k < n then (row j t).getD k 0 else
        if src j = some (k - n) then 1 else 0
      refine Eq.trans (Finset.sum_congr rfl fun k _ => ?_) (hfin.symm.trans ?_)
      · congr 1
        by_cases hk : (k : Nat) < n
        · rw [if_pos hk, hrowi _ _ _ hk]
        · rw [if_neg hk, hc j k (by omega) t ht]
      · have hgt : (g.take n).length = n := by simp [hgl, hm]
        rw [hm, Finset.sum_range_add, sum_zip _ _ (by rw [hgt, hrow]), hgt]
        congr 1
        · refine Finset.sum_congr rfl fun k hk => ?_
          have hk := Finset.mem_range.mp hk
          rw [if_pos hk]
          simp [List.getD_eq_getElem?_getD, hk]
        · have hx : ∀ k ∈ Finset.range q.length, (g.getD (n + k) 0 * if n + k < n then (row j t).getD (n + k) 0 else
              if src j = some (n + k - n) then 1 else 0) = if src j = some k then (g.drop n).getD k 0 else 0 := fun k _ => by
            rw [if_neg (by omega), Nat.add_sub_cancel_left]
            split <;> simp [List.getD_eq_getElem?_getD]
          rw [Finset.sum_congr rfl hx]
          cases src j with
          | none => simp
          | some k =>
            simp only [Option.some.injEq]
            rw [Finset.sum_ite_eq]
            split
            · rfl
            · rename_i hk
              rw [Finset.mem_range] at hk
              rw [List.getD_eq_default _ _ (by simp; omega)]
  · simp only [List.getD_map_range _ _ hj, hrow, (hy t ht).1]
  · rw [(hy t ht).1] at hi
    have hi' : i < m := by omega
    simp only [List.getD_map_range _ _ hj, hrowi _ _ _ hi]
    have := (hasDerivWithinAt_pi.mp (hα j t ht)) ⟨i, hi'⟩
    simpa [hi, hi'] using this
  · apply List.ext_getElem (by simp [hS])
    intro j h1 h2
    have hjl := hS0 _ (List.getElem_mem h2)
    apply List.ext_getElem
    · simp [hrow, hjl]
    · intro i h3 h4
      have hi : i < n := by omega
      simp only [List.getElem_map, List.getElem_range]
      rw [List.getElem_eq_getD 0, List.getElem_eq_getD 0, hrowi _ _ _ hi, h0]
      simp [x0, hi, h2]

/-- there is only one solution of the sensitivity equations -/
theorem sensitivity_unique {p : ℝ → Prog} (hp : Prog.Drifts p) {n ns : Nat} {t0 T : ℝ} {q : List ℝ} {y : ℝ → List ℝ}
    (hy : IsSolution (fun t => odeFn (p t) n []) n t0 T q y)
    (ho : ∀ t ∈ Icc t0 T, (p t).Ok (y t ++ List.replicate n 0 ++ q) ∧ (p t).Smooth (y t ++ List.replicate n 0 ++ q))
    {src : Nat → Option Nat} {S S' : ℝ → List (List ℝ)}
    (hS : IsSensitivity (fun t => odeFn (p t) n []) t0 T q src ns y S)
    (hS' : IsSensitivity (fun t => odeFn (p t) n []) t0 T q src ns y S') (h0 : S' t0 = S t0) :
    ∀ t ∈ Icc t0 T, S' t = S t := by
  classical
  intro t ht
  have hT : t0 ≤ T := ht.1.trans ht.2
  have ht0 : t0 ∈ Icc t0 T := ⟨le_rfl, hT⟩
  obtain ⟨ρ, hρ, hC⟩ := c1Near_of hp hy ho
  obtain ⟨δ, hδ, near⟩ := solutions_near hp hT hy ho
  have main : ∀ j < ns, ∀ i < n, ((S' t).getD j []).getD i 0 = ((S t).getD j []).getD i 0 := by
    intro j hj i hi
    let z : ℝ → List ℝ := fun r => (List.range n).map fun i => (y t0).getD i 0 + r * ((S t0).getD j []).getD i 0
    let Q : ℝ → List ℝ := fun r => (List.range q.length).map fun k => q.getD k 0 + r * if src j = some k then 1 else 0
    have hz0 : z 0 = y t0 := by
      apply List.ext_getElem (by simp [z, (hy t0 ht0).1])
      intro k h1 h2
      simp [z, h2]
    have hQ0 : Q 0 = q := by
      apply List.ext_getElem (by simp [Q])
      intro k h1 h2
      simp [Q, h2]
    have hzd : ∀ i < n, HasDerivAt (fun r => (z r).getD i 0) (((S t0).getD j []).getD i 0) 0 := fun i hi => by
      simp only [z, List.getD_map_range _ _ hi]
      simpa using ((hasDerivAt_id (0 : ℝ)).mul_const (((S t0).getD j []).getD i 0)).const_add ((y t0).getD i 0)
    have hQd : ∀ k < q.length, HasDerivAt (fun r => (Q r).getD k 0) (if src j = some k then 1 else 0) 0 := fun k hk => by
      simp only [Q, List.getD_map_range _ _ hk]
      simpa only [id, one_mul] using
        ((hasDerivAt_id (0 : ℝ)).mul_const (if src j = some k then (1 : ℝ) else 0)).const_add (q.getD k 0)
    have hev : ∀ᶠ r in 𝓝 (0 : ℝ), NearBy δ (z r ++ Q r) (y t0 ++ q) := by
      have h1 : ∀ᶠ r in 𝓝 (0 : ℝ), ∀ i ∈ Finset.range n, |(z r).getD i 0 - (z 0).getD i 0| < δ :=
        (Finset.eventually_all _).mpr fun i hi => by
          have := Metric.tendsto_nhds.mp (hzd i (Finset.mem_range.mp hi)).continuousAt δ hδ
          simpa [Real.dist_eq] using this
      have h2 : ∀ᶠ r in 𝓝 (0 : ℝ), ∀ k ∈ Finset.range q.length, |(Q r).getD k 0 - (Q 0).getD k 0| < δ :=
        (Finset.eventually_all _).mpr fun k hk => by
          have := Metric.tendsto_nhds.mp (hQd k (Finset.mem_range.mp hk)).continuousAt δ hδ
          simpa [Real.dist_eq] using this
      rw [hz0] at h1
      rw [hQ0] at h2
      filter_upwards [h1, h2] with r h1 h2
      have hzl : (z r).length = n := by simp [z]
      have hyl := (hy t0 ht0).1
      refine ⟨by simp [z, Q, hyl], fun k hk => ?_⟩
      by_cases hkn : k < n
      · rw [List.getD_append _ _ _ _ (by omega), List.getD_append _ _ _ _ (by omega)]
        exact (h1 k (Finset.mem_range.mpr hkn)).le
      · rw [List.getD_append_right _ _ _ _ (by omega), List.getD_append_right _ _ _ _ (by omega), hzl, hyl]
        refine (h2 (k - n) (Finset.mem_range.mpr ?_)).le
        simp [z, Q] at hk
        omega
    have hex : ∀ r, ∃ Y, NearBy δ (z r ++ Q r) (y t0 ++ q) → IsSolution (fun t => odeFn (p t) n []) n t0 T (Q r) Y ∧ Y t0 = z r :=
      fun r => by
        by_cases h : NearBy δ (z r ++ Q r) (y t0 ++ q)
        · obtain ⟨Y, hY⟩ := near (z r) (Q r) (by simp [z]) (by simp [Q]) h
          exact ⟨Y, fun _ => hY⟩
        · exact ⟨fun _ => [], fun h' => absurd h' h⟩
    choose Y hY using hex
    have hY0 := hY 0 hev.self_of_nhds
    rw [hQ0, hz0] at hY0
    have hyY : ∀ t ∈ Icc t0 T, Y 0 t = y t := solution_unique hp hy ho hY0.1 hY0.2
    let Y' : ℝ → ℝ → List ℝ := fun r => if r = 0 then y else Y r
    have e0 : Y' 0 = y := if_pos rfl
    have hsol : ∀ᶠ r in 𝓝 (0 : ℝ), (Q r).length = q.length ∧ IsSolution (fun t => odeFn (p t) n []) n t0 T (Q r) (Y' r) ∧
        Y' r t0 = z r := hev.mono fun r hr => by
      refine ⟨by simp [Q], ?_⟩
      by_cases h : r = 0
      · subst h
        rw [e0, hQ0, hz0]
        exact ⟨hy, rfl⟩
      · have : Y' r = Y r := if_neg h
        rw [this]
        exact hY r hr
    have sum1 : ∀ f : Nat → ℝ, (∑ k ∈ Finset.range ns, f k * if k = j then 1 else 0) = f j := fun f => by
      simp [hj]
    have sum2 : ∀ k, (∑ l ∈ Finset.range ns, if src l = some k then (if l = j then (1 : ℝ) else 0) else 0) =
        if src j = some k then 1 else 0 := fun k => by
      rw [Finset.sum_eq_single j]
      · simp
      · intro l _ hl
        simp [hl]
      · intro h
        exact absurd (Finset.mem_range.mpr hj) h
    have der : ∀ S : ℝ → List (List ℝ), IsSensitivity (fun t => odeFn (p t) n []) t0 T q src ns y S →
        (∀ i < n, HasDerivAt (fun r => (z r).getD i 0) (((S t0).getD j []).getD i 0) 0) →
        HasDerivAt (fun r => (Y' r t).getD i 0) (((S t).getD j []).getD i 0) 0 := fun S hS hz => by
      have := sens_deriv (Y := Y') (Q := Q) (r0 := 0) (b := fun k => if k = j then 1 else 0) hρ
        (hsol.mono fun r h => ⟨h.1, h.2.1⟩) (by rw [e0, hQ0]; exact hC) (by rw [e0, hQ0]; exact hS)
        (fun i hi => by
          rw [sum1]
          exact (hz i hi).congr_of_eventuallyEq (hsol.mono fun r h => by simp only [h.2.2]))
        (fun k hk => by rw [sum2]; exact hQd k hk) ht hi
      rwa [sum1] at this
    exact (der S' hS' (by rw [h0]; exact hzd)).unique (der S hS hzd)
  obtain ⟨l1, o1, -, r1⟩ := hS t ht
  obtain ⟨l2, o2, -, r2⟩ := hS' t ht
  have hyl := (hy t ht).1
  apply List.ext_getElem (l2.trans l1.symm)
  intro j a1 a2
  have b1 := (r1 j (by omega)).1
  have b2 := (r2 j (by omega)).1
  have m := main j (by omega)
  rw [← List.getElem_eq_getD (h := a1)] at b2 m
  rw [← List.getElem_eq_getD (h := a2)] at b1 m
  apply List.ext_getElem (b2.trans b1.symm)
  intro i c1 c2
  have := m i (by omega)
  rwa [← List.getElem_eq_getD (h := c1), ← List.getElem_eq_getD (h := c2)] at this

end Spec
