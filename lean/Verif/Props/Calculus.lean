import Verif.Props.Algo
import Verif.Spec.Calculus

/-!
# C71: the laws of calculus hold between the results of calls

The results of `gradient` and `jacobian` depend on the function only, not on the way it is written (order of
evaluation, rearranged formulas, other branches or loops), not on the history and not on how numbers are stored.
Linear combinations and compositions of functions have the derivatives the laws of calculus say.  In exact arithmetic.
-/

namespace Props
open Fz Spec

variable {a b d : Algo} {ys ys' ys'' x : List ℝ}

theorem GradientOf.exact {y : ℝ} {df : List ℝ} (h : GradientOf a ys x y df) :
    y = (a.sem (x ++ ys)).getD 0 0 ∧ IsGradAt (fun z => (a.sem (z ++ ys)).getD 0 0) x df := by
  obtain ⟨W, i1, i2, h, c, s', hr, hys, hok, hst, hk, hroom, e⟩ := h
  exact C67_gradient hr hys x hok hst hk hroom e

theorem JacobianOf.exact {o : List ℝ} {rows : List (List ℝ)} (h : JacobianOf a ys x o rows) :
    o = a.sem (x ++ ys) ∧ rows.length = o.length ∧
      ∀ i (hi : i < rows.length), IsGradAt (fun z => (a.sem (z ++ ys)).getD i 0) x rows[i] := by
  obtain ⟨W, i1, i2, h, c, s', hr, hys, hok, hst, hroom, n, e⟩ := h
  obtain ⟨h1, h2, h3, h4⟩ := C67_jacobian hr hys x n hok hst hroom e
  exact ⟨h2, by rw [h3, h1, h2], h4⟩

theorem CloseTo.here {P : List ℝ → Prop} (h : CloseTo x P) : P x := by
  have := h.self_of_nhds
  rwa [show List.ofFn (fun i : Fin x.length => x[i]) = x by simp] at this

theorem CloseTo.grad {F G : List ℝ → ℝ} {df : List ℝ} (h : CloseTo x fun z => F z = G z) (hg : IsGradAt F x df) :
    IsGradAt G x df :=
  ⟨hg.1, hg.2.congr_of_eventuallyEq (h.mono fun _ e => e.symm)⟩

/-- **C71**: two functions that agree near `x`: the same value, the same derivatives. -/
theorem C71_rewrite {y y' : ℝ} {df df' : List ℝ} (h : GradientOf a ys x y df) (h' : GradientOf b ys' x y' df')
    (same : CloseTo x fun z => (a.sem (z ++ ys)).getD 0 0 = (b.sem (z ++ ys')).getD 0 0) : y = y' ∧ df = df' := by
  obtain ⟨e, g⟩ := GradientOf.exact h
  obtain ⟨e', g'⟩ := GradientOf.exact h'
  refine ⟨?_, (CloseTo.grad same g).unique g'⟩
  rw [e, e']
  exact CloseTo.here same

/-- **C71**: the same of `jacobian`. -/
theorem C71_rewrite_jacobian {o o' : List ℝ} {rows rows' : List (List ℝ)} (h : JacobianOf a ys x o rows)
    (h' : JacobianOf b ys' x o' rows') (same : CloseTo x fun z => a.sem (z ++ ys) = b.sem (z ++ ys')) :
    o = o' ∧ rows = rows' := by
  obtain ⟨e, l, g⟩ := JacobianOf.exact h
  obtain ⟨e', l', g'⟩ := JacobianOf.exact h'
  have ho : o = o' := by rw [e, e']; exact CloseTo.here (P := fun z => a.sem (z ++ ys) = b.sem (z ++ ys')) same
  refine ⟨ho, List.ext_getElem (by rw [l, l', ho]) fun i hi hi' => ?_⟩
  exact (CloseTo.grad (same.mono fun _ e => congrArg (fun l : List ℝ => l.getD i 0) e) (g i hi)).unique (g' i hi')

theorem getD_zipWith {f : ℝ → ℝ → ℝ} {u v : List ℝ} {n i : Nat} (hu : u.length = n) (hv : v.length = n) (hi : i < n) :
    (List.zipWith f u v).getD i 0 = f (u.getD i 0) (v.getD i 0) := by
  subst hu
  simp [List.getD_eq_getElem?_getD, List.getElem?_eq_getElem, hi, hv]

/-- **C71**: a linear combination of two functions. -/
theorem C71_linear {y y' y'' : ℝ} {df df' df'' : List ℝ} {α β : ℝ} (h : GradientOf a ys x y df)
    (h' : GradientOf b ys' x y' df') (h'' : GradientOf d ys'' x y'' df'')
    (comb : CloseTo x fun z => (d.sem (z ++ ys'')).getD 0 0 =
      α * (a.sem (z ++ ys)).getD 0 0 + β * (b.sem (z ++ ys')).getD 0 0) :
    y'' = α * y + β * y' ∧ df'' = List.zipWith (fun u v => α * u + β * v) df df' := by
  obtain ⟨e, g⟩ := GradientOf.exact h
  obtain ⟨e', g'⟩ := GradientOf.exact h'
  obtain ⟨e'', g''⟩ := GradientOf.exact h''
  refine ⟨?_, (CloseTo.grad comb g'').unique ⟨by simp [g.1, g'.1], ?_⟩⟩
  · rw [e, e', e'']
    exact CloseTo.here comb
  · refine ((g.2.const_mul α).add (g'.2.const_mul β)).congr_fderiv ?_
    ext v
    simp only [Finset.smul_sum, add_apply, sum_apply,
      smul_apply, ContinuousLinearMap.proj_apply, smul_eq_mul, ← Finset.sum_add_distrib]
    refine Finset.sum_congr rfl fun i _ => ?_
    rw [getD_zipWith g.1 g'.1 i.2]
    ring

/-- the number of outputs does not change where the decisions do not -/
theorem path_length : ∀ (a : Algo) (env env' : List ℝ), ((a.path env).sem env').length = (a.sem env).length
  | .ret outs, env, env' => by simp [Algo.path, Prog.sem, Algo.sem]
  | .op i k, env, env' => by
    simp only [Algo.path, Prog.sem, Algo.sem]
    exact path_length k _ _
  | .look i k, env, env' => by
    simp only [Algo.path, Algo.sem]
    exact path_length (k _) _ _

theorem steady_length (h : a.Steady x ys) : CloseTo x fun z => (a.sem (z ++ ys)).length = (a.sem (x ++ ys)).length := by
  refine h.mono fun z e => ?_
  show (a.sem _).length = _
  rw [← Algo.path_sem a (List.ofFn z ++ ys), e]
  exact path_length a _ _

theorem sum_range_fin (f : Nat → ℝ) : ∀ n, ((List.range n).map f).sum = ∑ k : Fin n, f k
  | 0 => by simp
  | n + 1 => by simp [List.range_succ, sum_range_fin f n, Fin.sum_univ_castSucc]

/-- the chain rule for lists of partial derivatives -/
theorem grad_compose {F : List ℝ → List ℝ} {G : List ℝ → ℝ} {o u : List ℝ} {rows : List (List ℝ)} (ho : F x = o)
    (hl : rows.length = o.length) (len : CloseTo x fun z => (F z).length = o.length)
    (hf : ∀ i (hi : i < rows.length), IsGradAt (fun z => (F z).getD i 0) x rows[i]) (hg : IsGradAt G o u) :
    IsGradAt (fun z => G (F z)) x (combine u rows x.length) := by
  subst ho
  refine ⟨by simp [combine], ?_⟩
  have h1 : HasFDerivAt (fun y : Fin x.length → ℝ => fun k : Fin (F x).length => (F (List.ofFn y)).getD k 0)
      (ContinuousLinearMap.pi fun k : Fin (F x).length => ∑ i : Fin x.length, (rows.getD k []).getD i 0 •
        ContinuousLinearMap.proj (R := ℝ) (φ := fun _ => ℝ) i) (fun i => x[i]) := by
    refine hasFDerivAt_pi.mpr fun k => ?_
    have := (hf k (by rw [hl]; exact k.2)).2
    rwa [show rows[(k : Nat)] = rows.getD k [] by simp [List.getD_eq_getElem?_getD, hl]] at this
  have h2 := hg.2
  have e0 : (fun k : Fin (F x).length => (F (List.ofFn fun i : Fin x.length => x[i])).getD k 0) =
      fun k : Fin (F x).length => (F x)[k] := by
    funext k
    rw [show List.ofFn (fun i : Fin x.length => x[i]) = x by simp]
    simp [List.getD_eq_getElem?_getD]
  rw [← e0] at h2
  have h3 := h2.comp (f := fun y : Fin x.length → ℝ => fun k : Fin (F x).length => (F (List.ofFn y)).getD k 0)
    (fun i : Fin x.length => x[i]) h1
  refine (h3.congr_of_eventuallyEq ?_).congr_fderiv ?_
  · filter_upwards [len] with y hy
    show G _ = G _
    congr 1
    refine List.ext_getElem (by simp [hy]) fun i hi _ => ?_
    simp [List.getD_eq_getElem?_getD, hi]
  · ext v
    simp only [ContinuousLinearMap.comp_apply, sum_apply, smul_apply,
      ContinuousLinearMap.proj_apply, ContinuousLinearMap.pi_apply, smul_eq_mul, Finset.mul_sum]
    rw [Finset.sum_comm]
    refine Finset.sum_congr rfl fun i _ => ?_
    have : (combine u rows x.length).getD i 0 =
        ∑ k : Fin (F x).length, u.getD k 0 * (rows.getD k []).getD i 0 := by
      rw [show (combine u rows x.length).getD i 0 =
        ((List.range rows.length).map fun k => u.getD k 0 * (rows.getD k []).getD i 0).sum by
          simp [combine, List.getD_eq_getElem?_getD], hl, sum_range_fin]
    rw [this, Finset.sum_mul]
    exact Finset.sum_congr rfl fun k _ => by ring

/-- **C71**, the chain rule between calls: `gradient` of a composition is `gradient` of the outer function, taken at the
values of the inner one, times `jacobian` of the inner one. -/
theorem C71_compose {o u u' : List ℝ} {rows : List (List ℝ)} {y y' : ℝ} (h : JacobianOf a ys x o rows)
    (h' : GradientOf b ys' o y u) (h'' : GradientOf d ys'' x y' u')
    (comp : CloseTo x fun z => (d.sem (z ++ ys'')).getD 0 0 = (b.sem (a.sem (z ++ ys) ++ ys')).getD 0 0) :
    y' = y ∧ u' = combine u rows x.length := by
  obtain ⟨e, l, g⟩ := JacobianOf.exact h
  obtain ⟨e', g'⟩ := GradientOf.exact h'
  obtain ⟨e'', g''⟩ := GradientOf.exact h''
  obtain ⟨W, i1, i2, hh, c, s', hr, hys, hok, hst, -⟩ := h
  refine ⟨?_, (CloseTo.grad comp g'').unique (grad_compose (F := fun z => a.sem (z ++ ys)) e.symm l ?_ g g')⟩
  · rw [e', e'', e]
    exact CloseTo.here comp
  · rw [e]
    exact steady_length hst

/-- **C71**, the chain rule for `jacobian`: the product of the matrices. -/
theorem C71_compose_jacobian {o o' o'' : List ℝ} {rows rows' rows'' : List (List ℝ)} (h : JacobianOf a ys x o rows)
    (h' : JacobianOf b ys' o o' rows') (h'' : JacobianOf d ys'' x o'' rows'')
    (comp : CloseTo x fun z => d.sem (z ++ ys'') = b.sem (a.sem (z ++ ys) ++ ys')) :
    o'' = o' ∧ rows'' = rows'.map fun u => combine u rows x.length := by
  obtain ⟨e, l, g⟩ := JacobianOf.exact h
  obtain ⟨e', l', g'⟩ := JacobianOf.exact h'
  obtain ⟨e'', l'', g''⟩ := JacobianOf.exact h''
  obtain ⟨W, i1, i2, hh, c, s', hr, hys, hok, hst, -⟩ := h
  have ho : o'' = o' := by
    rw [e', e'', e]
    exact CloseTo.here (P := fun z => d.sem (z ++ ys'') = b.sem (a.sem (z ++ ys) ++ ys')) comp
  refine ⟨ho, List.ext_getElem (by rw [l'', ho, List.length_map, l']) fun i hi hi' => ?_⟩
  rw [List.getElem_map]
  refine (CloseTo.grad (comp.mono fun _ e => congrArg (fun l : List ℝ => l.getD i 0) e) (g'' i hi)).unique
    (grad_compose (F := fun z => a.sem (z ++ ys)) e.symm l ?_ g (g' i (by simpa using hi')))
  rw [e]
  exact steady_length hst

/-! The hypotheses are met. -/

/-- calls at the start of a program -/
theorem of_start (x : List ℝ) (hok : a.Ok x) (hst : a.Steady x []) (hk : a.sem x ≠ [])
    (h0 : 0 < 6 * x.length + (a.path x).cost x) (small : 6 * x.length + (a.path x).cost x < 12288) :
    (∃ y df, GradientOf a [] x y df) ∧ ∃ o rows, JacobianOf a [] x o rows := by
  have hfull : ∀ j, 6 * x.length + (a.path x).cost x ≠ 12288 * 2 ^ j := fun j => by
    have := Nat.one_le_two_pow (n := j)
    omega
  have hroom : 1 + (6 * x.length + (a.path x).cost x) ≤ tapeLimit := by unfold tapeLimit; omega
  have hr : Room (St.init : St ℝ) (a.path (x ++ [])) x [] := by
    unfold Room
    rw [show (St.init : St ℝ).tape.head = 1 from rfl, List.append_nil]
    exact hroom
  have hok' : a.Ok (x ++ []) := by rwa [List.append_nil]
  have reach : Reach [] (Client.init : Client ℝ) := ⟨by simp, rfl⟩
  have hn : NotFull (St.init : St ℝ) (6 * x.length + (a.path (x ++ [])).cost (x ++ [])) := by
    rw [List.append_nil]
    unfold NotFull
    rw [show (St.init : St ℝ).tape.head = 1 from rfl]
    exact ⟨by omega, fun j => by have := hfull j; omega⟩
  obtain ⟨df, s', e, -⟩ := C67_gradient_completes (W := ℝ) (a := a) x hok hk hroom h0 hfull
  obtain ⟨o, rows, s'', e', -⟩ := jacobian_total (fine_init (W := ℝ) x.length (a.path (x ++ [])).hasConst (fun _ => 0)
    (fun _ => 0)) (by show 0 < 10; omega) (env := []) (ys := []) (by simp) rfl (Algo.path_ok hok') hr hn
  rw [← algo_jacobian (ys := []) (inv_init (fun _ => 0) (fun _ => 0)) (by simp) rfl hok' hr] at e'
  exact ⟨⟨_, df, ℝ, inferInstance, inferInstance, [], Client.init, s', reach, rfl, hok', hst, by rwa [List.append_nil], hr, e⟩,
    o, rows, ℝ, inferInstance, inferInstance, [], Client.init, s'', reach, rfl, hok', hst, hr, _, e'⟩

/-- `x * y + sin(x)`, the product evaluated first -/
def productFirst : Algo := .op (.bin .mul 0 1) (.op (.un .sin 0) (.op (.bin .add 2 3) (.ret [4])))

/-- `x * y + sin(x)`, the sine evaluated first -/
def sineFirst : Algo := .op (.un .sin 0) (.op (.bin .mul 0 1) (.op (.bin .add 3 2) (.ret [4])))

theorem list_two {x : List ℝ} (h : x.length = 2) : ∃ u v, x = [u, v] := List.length_eq_two.mp h

theorem closeTo_two {u v : ℝ} {P : List ℝ → Prop} (h : ∀ s t, P [s, t]) : CloseTo [u, v] P :=
  .of_forall fun y => by
    obtain ⟨s, t, e⟩ := list_two (x := List.ofFn y) (by simp)
    rw [e]
    exact h s t

/-- the compiler may evaluate the operands in either order -/
example (u v : ℝ) : ∃ y df y' df', GradientOf productFirst [] [u, v] y df ∧ GradientOf sineFirst [] [u, v] y' df' ∧
    y = y' ∧ df = df' := by
  obtain ⟨⟨y, df, h⟩, -⟩ := of_start (a := productFirst) [u, v]
    (by simp [productFirst, Algo.Ok, Instr.Ok, Instr.sem, Bin.domVV, Un.dom, look]) (.of_forall fun _ => rfl)
    (by simp [productFirst, Algo.sem]) (by simp) (by simp [productFirst, Algo.path, Prog.cost, Instr.cost, Un.cost])
  obtain ⟨⟨y', df', h'⟩, -⟩ := of_start (a := sineFirst) [u, v]
    (by simp [sineFirst, Algo.Ok, Instr.Ok, Instr.sem, Bin.domVV, Un.dom, look]) (.of_forall fun _ => rfl)
    (by simp [sineFirst, Algo.sem]) (by simp) (by simp [sineFirst, Algo.path, Prog.cost, Instr.cost, Un.cost])
  exact ⟨y, df, y', df', h, h', C71_rewrite h h' (closeTo_two fun s t => by
    simp [productFirst, sineFirst, Algo.sem, Instr.sem, look, Bin.fn, Un.fn])⟩

/-- `x y` and `x + y`; the product of two numbers; `x y (x + y)` -/
def prodAndSum : Algo := .op (.bin .mul 0 1) (.op (.bin .add 0 1) (.ret [2, 3]))
def prodOf : Algo := .op (.bin .mul 0 1) (.ret [2])
def prodTimesSum : Algo := .op (.bin .mul 0 1) (.op (.bin .add 0 1) (.op (.bin .mul 2 3) (.ret [4])))

example (u v : ℝ) : ∃ o rows o' rows' o'' rows'' y df y' df', JacobianOf prodAndSum [] [u, v] o rows ∧
    JacobianOf prodOf [] o o' rows' ∧ JacobianOf prodTimesSum [] [u, v] o'' rows'' ∧ GradientOf prodOf [] o y df ∧
    GradientOf prodTimesSum [] [u, v] y' df' ∧
    o'' = o' ∧ (rows'' = rows'.map fun r => combine r rows 2) ∧ y' = y ∧ df' = combine df rows 2 := by
  obtain ⟨-, o, rows, h⟩ := of_start (a := prodAndSum) [u, v]
    (by simp [prodAndSum, Algo.Ok, Instr.Ok, Instr.sem, Bin.domVV]) (.of_forall fun _ => rfl)
    (by simp [prodAndSum, Algo.sem]) (by simp) (by simp [prodAndSum, Algo.path, Prog.cost, Instr.cost])
  have ho : o = [u * v, u + v] := by
    rw [(JacobianOf.exact h).1]
    simp [prodAndSum, Algo.sem, Instr.sem, look, Bin.fn]
  subst ho
  obtain ⟨⟨y, df, k⟩, o', rows', h'⟩ := of_start (a := prodOf) [u * v, u + v]
    (by simp [prodOf, Algo.Ok, Instr.Ok, Instr.sem, Bin.domVV]) (.of_forall fun _ => rfl)
    (by simp [prodOf, Algo.sem]) (by simp) (by simp [prodOf, Algo.path, Prog.cost, Instr.cost])
  obtain ⟨⟨y', df', k'⟩, o'', rows'', h''⟩ := of_start (a := prodTimesSum) [u, v]
    (by simp [prodTimesSum, Algo.Ok, Instr.Ok, Instr.sem, Bin.domVV]) (.of_forall fun _ => rfl)
    (by simp [prodTimesSum, Algo.sem]) (by simp) (by simp [prodTimesSum, Algo.path, Prog.cost, Instr.cost])
  obtain ⟨e1, e2⟩ := C71_compose_jacobian h h' h'' (closeTo_two fun s t => by
    simp [prodAndSum, prodOf, prodTimesSum, Algo.sem, Instr.sem, look, Bin.fn])
  obtain ⟨e3, e4⟩ := C71_compose h k k' (closeTo_two fun s t => by
    simp [prodAndSum, prodOf, prodTimesSum, Algo.sem, Instr.sem, look, Bin.fn])
  exact ⟨_, rows, o', rows', o'', rows'', y, df, y', df', h, h', h'', k, k', e1, e2, e3, e4⟩

/-- `sin(x)` with a second input that is not used -/
def sineOnly : Algo := .op (.un .sin 0) (.ret [2])

/-- `C71_linear` and `C71_rewrite_jacobian` -/
example (u v : ℝ) : (∃ y df y' df' y'' df'', GradientOf prodOf [] [u, v] y df ∧ GradientOf sineOnly [] [u, v] y' df' ∧
    GradientOf productFirst [] [u, v] y'' df'' ∧ y'' = 1 * y + 1 * y' ∧
    df'' = List.zipWith (fun a b => 1 * a + 1 * b) df df') ∧
    ∃ o rows o' rows', JacobianOf productFirst [] [u, v] o rows ∧ JacobianOf sineFirst [] [u, v] o' rows' ∧
      o = o' ∧ rows = rows' := by
  obtain ⟨⟨y, df, h⟩, -⟩ := of_start (a := prodOf) [u, v]
    (by simp [prodOf, Algo.Ok, Instr.Ok, Instr.sem, Bin.domVV]) (.of_forall fun _ => rfl)
    (by simp [prodOf, Algo.sem]) (by simp) (by simp [prodOf, Algo.path, Prog.cost, Instr.cost])
  obtain ⟨⟨y', df', h'⟩, -⟩ := of_start (a := sineOnly) [u, v]
    (by simp [sineOnly, Algo.Ok, Instr.Ok, Instr.sem, Un.dom]) (.of_forall fun _ => rfl)
    (by simp [sineOnly, Algo.sem]) (by simp) (by simp [sineOnly, Algo.path, Prog.cost, Instr.cost, Un.cost])
  obtain ⟨⟨y'', df'', h''⟩, o, rows, k⟩ := of_start (a := productFirst) [u, v]
    (by simp [productFirst, Algo.Ok, Instr.Ok, Instr.sem, Bin.domVV, Un.dom, look]) (.of_forall fun _ => rfl)
    (by simp [productFirst, Algo.sem]) (by simp) (by simp [productFirst, Algo.path, Prog.cost, Instr.cost, Un.cost])
  obtain ⟨-, o', rows', k'⟩ := of_start (a := sineFirst) [u, v]
    (by simp [sineFirst, Algo.Ok, Instr.Ok, Instr.sem, Bin.domVV, Un.dom, look]) (.of_forall fun _ => rfl)
    (by simp [sineFirst, Algo.sem]) (by simp) (by simp [sineFirst, Algo.path, Prog.cost, Instr.cost, Un.cost])
  refine ⟨⟨y, df, y', df', y'', df'', h, h', h'', C71_linear h h' h'' (closeTo_two fun s t => ?_)⟩,
    o, rows, o', rows', k, k', C71_rewrite_jacobian k k' (closeTo_two fun s t => ?_)⟩
  · simp [productFirst, sineOnly, prodOf, Algo.sem, Instr.sem, look, Bin.fn, Un.fn]
  · simp [productFirst, sineFirst, Algo.sem, Instr.sem, look, Bin.fn, Un.fn]

end Props
