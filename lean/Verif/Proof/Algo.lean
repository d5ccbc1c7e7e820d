import Verif.Proof.Total
import Verif.Spec.Algo

/-!
# Functions whose control flow depends on values run like the straight-line program of the point
-/

set_option linter.unusedSectionVars false

namespace Fz
open Arith Spec

variable {W : Type} [Rep W ℝ] [LawfulRep W ℝ]
variable {E : Type} [NormedAddCommGroup E] [NormedSpace ℝ E] {x0 : E}
variable {s : St W} {g : Graph ℝ} {val adj : Nat → ℝ}

theorem Algo.path_ok : ∀ {a : Algo} {env : List ℝ}, a.Ok env → (a.path env).Ok env := by
  intro a
  induction a with
  | ret outs => intro env h; exact h
  | op i k ih => intro env h; exact ⟨h.1, ih h.2⟩
  | look i k ih => intro env h; exact ih _ h.2

theorem Algo.path_sem : ∀ (a : Algo) (env : List ℝ), (a.path env).sem env = a.sem env := by
  intro a
  induction a with
  | ret outs => intro env; rfl
  | op i k ih => intro env; exact ih _
  | look i k ih => intro env; exact ih _ _

theorem algo_same : ∀ (a : Algo) {s : St W} {g : Graph ℝ} {val adj : Nat → ℝ} {D ε : Nat → E →L[ℝ] ℝ}
    {env : List Var} {σ : E → List ℝ}, Sim s g val adj D ε → EnvTracks x0 g val D env σ →
    a.Ok (σ x0) → s.tape.head + (a.path (σ x0)).cost (σ x0) ≤ cap →
    (a.run env : M W (List Var)) s = (a.path (σ x0)).run env s := by
  intro a
  induction a with
  | ret outs => intro s g val adj D ε env σ _ _ _ _; rfl
  | op i k ih =>
    intro s g val adj D ε env σ h te hok hcap
    simp only [Algo.path, Prog.cost] at hcap
    obtain ⟨vs, s', e, g', val', adj', D', ε', sim, gr, te'⟩ :=
      instr_step (lf := True) h te i hok.1 (by omega) fun _ => trivial
    have hh := gr.head
    simp only [Algo.run, Algo.path, Prog.run]
    rw [bind_ok e, bind_ok e]
    exact ih sim te' hok.2 (by omega)
  | look i k ih =>
    intro s g val adj D ε env σ h te hok hcap
    have t := te.tr i (by rw [← te.len x0]; exact hok.1)
    have e := h.inv.varVal t.has
    rw [← t.value] at e
    simp only [Algo.run, Algo.path]
    rw [bind_ok e]
    exact ih _ h te hok.2 hcap

theorem algo_stable : ∀ (a : Algo) {s : St W} {g : Graph ℝ} {val adj : Nat → ℝ} {D ε : Nat → E →L[ℝ] ℝ}
    {env : List Var} {σ : E → List ℝ}, Sim s g val adj D ε → EnvTracks x0 g val D env σ →
    a.Ok (σ x0) → a.Stable (σ x0) → s.tape.head + (a.path (σ x0)).cost (σ x0) ≤ cap →
    ∀ᶠ x in nhds x0, a.path (σ x) = a.path (σ x0) := by
  intro a
  induction a with
  | ret outs => intro s g val adj D ε env σ _ _ _ _ _; exact .of_forall fun _ => rfl
  | op i k ih =>
    intro s g val adj D ε env σ h te hok hst hcap
    simp only [Algo.path, Prog.cost] at hcap
    obtain ⟨vs, s', e, g', val', adj', D', ε', sim, gr, te'⟩ :=
      instr_step (lf := True) h te i hok.1 (by omega) fun _ => trivial
    have hh := gr.head
    filter_upwards [ih sim te' hok.2 hst (by omega)] with x hx
    simp only [Algo.path]
    rw [hx]
  | look i k ih =>
    intro s g val adj D ε env σ h te hok hst hcap
    have t := te.tr i (by rw [← te.len x0]; exact hok.1)
    have hc := t.deriv.continuousAt.eventually hst.1
    filter_upwards [hc, ih _ h te hok.2 hst.2 hcap] with x hx hx'
    simp only [Algo.path]
    rw [hx, hx']

/-- new variables and those of the caller are tracked -/
theorem inputs_tracks (h : Inv s g val adj) (x : List ℝ) {caps : List Var} (hc : ∀ v ∈ caps, g.Has v)
    (hcap : s.tape.head + 6 * x.length ≤ cap) :
    ∃ xv s1, (newVars x : M W (List Var)) s = .ok (xv, s1) ∧ s1.tape.head = s.tape.head + 6 * x.length ∧
      ∃ (g1 : Graph ℝ) (val1 adj1 : Nat → ℝ) (D1 ε1 : Nat → (Fin x.length → ℝ) →L[ℝ] ℝ),
        Sim s1 g1 val1 adj1 D1 ε1 ∧ EnvTracks (fun i : Fin x.length => x[i]) g1 val1 D1 (xv ++ caps)
          (fun y => List.ofFn y ++ caps.map fun v => val (g.pos v)) := by
  have h0 : Sim s g val adj (fun _ => (0 : (Fin x.length → ℝ) →L[ℝ] ℝ)) (fun _ => 0) := sim_zero h
  have tc := envTracks_const (x0 := fun i : Fin x.length => x[i]) (val := val) hc
  obtain ⟨xv, s1, e1, g1, val1, adj1, D1, ε1, I⟩ :=
    inputs_step ((coords x.length).map fun a => (a.1 (fun i : Fin x.length => x[i]), a.2)) h0
      (by simpa using hcap)
  rw [List.map_map] at e1
  have hx : List.map (Prod.fst ∘ fun a : ((Fin x.length → ℝ) → ℝ) × ((Fin x.length → ℝ) →L[ℝ] ℝ) =>
      (a.1 (fun i => x[i]), a.2)) (coords x.length) = x :=
    (coords_eval x.length fun i => x[i]).trans (ofFn_get x)
  rw [hx] at e1
  have hxl : xv.length = x.length := by rw [I.len]; simp
  refine ⟨xv, s1, e1, by simpa using I.head, g1, val1, adj1, D1, ε1, I.sim, fun y => by simp [hxl], ?_⟩
  intro i hi
  by_cases hi' : i < x.length
  · have hix : i < xv.length := by omega
    obtain ⟨a1, a2, a3, a4, a5, a6, a7⟩ := I.has i hix (by simpa using hi')
    have hlook : lookV (xv ++ caps) i = xv[i] := by
      simp [lookV, List.getD_eq_getElem?_getD, List.getElem?_append_left hix, hix]
    have hfn : (fun y : Fin x.length → ℝ => look (List.ofFn y ++ caps.map fun v => val (g.pos v)) i) =
        fun y => y ⟨i, hi'⟩ := by
      funext y
      simp [look, List.getD_eq_getElem?_getD, List.getElem?_append_left, hi']
    simp only [List.getElem_map, coords, List.getElem_ofFn] at a4 a5
    rw [hlook, hfn]
    exact ⟨a1, a4.symm, by rw [a5]; exact hasFDerivAt_apply (𝕜 := ℝ) (F' := fun _ : Fin x.length => ℝ) _ _⟩
  · obtain ⟨j, rfl⟩ : ∃ j, i = xv.length + j := ⟨i - xv.length, by omega⟩
    have hj : j < caps.length := by simpa using hi
    have t := tc.tr j hj
    have hlt := h.has_lt t.has
    have hp := I.pre.pos t.has
    have hlook : lookV (xv ++ caps) (xv.length + j) = lookV caps j := by
      unfold lookV
      rw [List.getD_eq_getElem?_getD, List.getElem?_append_right (by omega)]
      simp [List.getD_eq_getElem?_getD]
    have hfn : (fun y : Fin x.length → ℝ => look (List.ofFn y ++ caps.map fun v => val (g.pos v)) (xv.length + j)) =
        fun _ => look (caps.map fun v => val (g.pos v)) j := by
      funext y
      unfold look
      rw [hxl, List.getD_eq_getElem?_getD, List.getElem?_append_right (by simp)]
      simp [List.getD_eq_getElem?_getD]
    rw [hlook, hfn]
    exact ⟨I.pre.has t.has, by rw [hp, I.val _ hlt]; exact t.value,
      by rw [hp, I.dd _ hlt]; exact t.deriv⟩

variable {a : Algo} {env : List Var} {x ys : List ℝ}

/-- on new variables and the variables of the caller the function runs like the straight-line program -/
theorem algo_run (h : Inv s g val adj) (he : ∀ v ∈ env, g.Has v) (hy : ys = env.map fun v => val (g.pos v))
    (hok : a.Ok (x ++ ys)) (hroom : Room s (a.path (x ++ ys)) x ys) :
    ∃ xv s1, (newVars x : M W (List Var)) s = .ok (xv, s1) ∧
      (a.run (xv ++ env) : M W (List Var)) s1 = (a.path (x ++ ys)).run (xv ++ env) s1 := by
  subst hy
  obtain ⟨xv, s1, e, hh, g1, val1, adj1, D1, ε1, sim, te⟩ := inputs_tracks h x he (by unfold Room at hroom; exact le_trans (by omega) hroom)
  refine ⟨xv, s1, e, ?_⟩
  have := algo_same a sim te (by simpa [ofFn_get] using hok) (by
    simp only [ofFn_get]
    unfold Room at hroom
    rw [hh]
    exact le_trans (by omega) hroom)
  simpa only [ofFn_get] using this

/-- continuations that do not change give instructions that do not change -/
theorem algo_steady (h : Inv s g val adj) (he : ∀ v ∈ env, g.Has v) (hy : ys = env.map fun v => val (g.pos v))
    (hok : a.Ok (x ++ ys)) (hst : a.Stable (x ++ ys)) (hroom : Room s (a.path (x ++ ys)) x ys) : a.Steady x ys := by
  subst hy
  obtain ⟨xv, s1, e, hh, g1, val1, adj1, D1, ε1, sim, te⟩ := inputs_tracks h x he (by unfold Room at hroom; exact le_trans (by omega) hroom)
  have := algo_stable a sim te (by simpa [ofFn_get] using hok) (by simpa [ofFn_get] using hst) (by
    simp only [ofFn_get]
    unfold Room at hroom
    rw [hh]
    exact le_trans (by omega) hroom)
  simp only [ofFn_get] at this
  exact this

/-- the same for programs with comparisons, when the compared numbers differ -/
theorem algoOf_stable : ∀ (p : Prog) {s : St W} {g : Graph ℝ} {val adj : Nat → ℝ} {D ε : Nat → E →L[ℝ] ℝ}
    {env : List Var} {σ : E → List ℝ}, Sim s g val adj D ε → EnvTracks x0 g val D env σ →
    p.Ok (σ x0) → s.tape.head + p.cost (σ x0) ≤ cap →
    ∀ᶠ x in nhds x0, p.algo.path (σ x) = p.algo.path (σ x0) := by
  intro p
  induction p with
  | ret outs => intro s g val adj D ε env σ _ _ _ _; exact .of_forall fun _ => rfl
  | op i k ih =>
    intro s g val adj D ε env σ h te hok hcap
    simp only [Prog.cost] at hcap
    obtain ⟨vs, s', e, g', val', adj', D', ε', sim, gr, te'⟩ :=
      instr_step (lf := True) h te i hok.1 (by omega) fun _ => trivial
    have hh := gr.head
    filter_upwards [ih sim te' hok.2 (by omega)] with x hx
    simp only [Prog.algo, Algo.path]
    rw [hx]
  | ifVV o i j p q ihp ihq =>
    intro s g val adj D ε env σ h te hok hcap
    obtain ⟨h1, h2, hne, hp, hq⟩ := hok
    have t1 := te.tr i (by rw [← te.len x0]; exact h1)
    have t2 := te.tr j (by rw [← te.len x0]; exact h2)
    have st := Rel.stable o t1.deriv.continuousAt t2.deriv.continuousAt hne
    simp only [Prog.cost] at hcap
    by_cases hc : o.holds (look (σ x0) i) (look (σ x0) j)
    · rw [if_pos hc] at hcap
      filter_upwards [st, ihp h te (hp hc) hcap] with x hx hx'
      simp only [Prog.algo, Algo.path]
      rw [if_pos (hx.mpr hc), if_pos hc, hx']
    · rw [if_neg hc] at hcap
      filter_upwards [st, ihq h te (hq hc) hcap] with x hx hx'
      simp only [Prog.algo, Algo.path]
      rw [if_neg (fun hh => hc (hx.mp hh)), if_neg hc, hx']
  | ifVD o i d p q ihp ihq =>
    intro s g val adj D ε env σ h te hok hcap
    obtain ⟨h1, hne, hp, hq⟩ := hok
    have t1 := te.tr i (by rw [← te.len x0]; exact h1)
    have st := Rel.stable o t1.deriv.continuousAt (continuousAt_const (y := d)) hne
    simp only [Prog.cost] at hcap
    by_cases hc : o.holds (look (σ x0) i) d
    · rw [if_pos hc] at hcap
      filter_upwards [st, ihp h te (hp hc) hcap] with x hx hx'
      simp only [Prog.algo, Algo.path]
      rw [if_pos (hx.mpr hc), if_pos hc, hx']
    · rw [if_neg hc] at hcap
      filter_upwards [st, ihq h te (hq hc) hcap] with x hx hx'
      simp only [Prog.algo, Algo.path]
      rw [if_neg (fun hh => hc (hx.mp hh)), if_neg hc, hx']

theorem algoOf_steady {p : Prog} (h : Inv s g val adj) (he : ∀ v ∈ env, g.Has v) (hy : ys = env.map fun v => val (g.pos v))
    (hok : p.Ok (x ++ ys)) (hroom : Room s p x ys) : p.algo.Steady x ys := by
  subst hy
  obtain ⟨xv, s1, e, hh, g1, val1, adj1, D1, ε1, sim, te⟩ := inputs_tracks h x he (by unfold Room at hroom; exact le_trans (by omega) hroom)
  have := algoOf_stable p sim te (by simpa [ofFn_get] using hok) (by
    simp only [ofFn_get]
    unfold Room at hroom
    rw [hh]
    exact le_trans (by omega) hroom)
  simp only [ofFn_get] at this
  exact this

theorem algoOf_sem : ∀ (p : Prog) (env : List ℝ), p.algo.sem env = p.sem env := by
  intro p
  induction p with
  | ret outs => intro env; rfl
  | op i k ih => intro env; exact ih _
  | ifVV o i j p q ihp ihq =>
    intro env
    simp only [Prog.algo, Algo.sem, Prog.sem]
    split
    · exact ihp env
    · exact ihq env
  | ifVD o i d p q ihp ihq =>
    intro env
    simp only [Prog.algo, Algo.sem, Prog.sem]
    split
    · exact ihp env
    · exact ihq env

theorem algoOf_ok : ∀ {p : Prog} {env : List ℝ}, p.Ok env → p.algo.Ok env := by
  intro p
  induction p with
  | ret outs => intro env h; exact h
  | op i k ih => intro env h; exact ⟨h.1, ih h.2⟩
  | ifVV o i j p q ihp ihq =>
    intro env h
    refine ⟨h.1, h.2.1, ?_⟩
    dsimp only
    split
    · exact ihp (h.2.2.2.1 ‹_›)
    · exact ihq (h.2.2.2.2 ‹_›)
  | ifVD o i d p q ihp ihq =>
    intro env h
    refine ⟨h.1, ?_⟩
    dsimp only
    split
    · exact ihp (h.2.2.1 ‹_›)
    · exact ihq (h.2.2.2 ‹_›)

theorem algoOf_cost : ∀ (p : Prog) (env : List ℝ), (p.algo.path env).cost env = p.cost env := by
  intro p
  induction p with
  | ret outs => intro env; rfl
  | op i k ih => intro env; simp only [Prog.algo, Algo.path, Prog.cost, ih]
  | ifVV o i j p q ihp ihq =>
    intro env
    simp only [Prog.algo, Algo.path, Prog.cost]
    split
    · exact ihp env
    · exact ihq env
  | ifVD o i d p q ihp ihq =>
    intro env
    simp only [Prog.algo, Algo.path, Prog.cost]
    split
    · exact ihp env
    · exact ihq env

theorem algo_gradient (h : Inv s g val adj) (he : ∀ v ∈ env, g.Has v) (hy : ys = env.map fun v => val (g.pos v))
    (hok : a.Ok (x ++ ys)) (hroom : Room s (a.path (x ++ ys)) x ys) :
    (gradient (a.scalarFn env) x : M W (ℝ × List ℝ)) s = gradient ((a.path (x ++ ys)).scalarFn env) x s := by
  unfold gradient
  cases hb : (beginNested : M W Unit) s with
  | error e => rw [bind_err hb, bind_err hb]
  | ok q =>
    obtain ⟨u, s0⟩ := q
    obtain ⟨hl, rfl⟩ := begin_run hb
    rw [bind_ok hb, bind_ok hb]
    obtain ⟨xv, s1, e, e'⟩ := algo_run (W := W) h.begun he hy hok hroom
    rw [bind_ok e, bind_ok e]
    have e2 : (a.scalarFn env xv : M W Var) s1 = (a.path (x ++ ys)).scalarFn env xv s1 := by
      unfold Algo.scalarFn Prog.scalarFn
      exact congrArg (fun r => r >>= fun p : List Var × St W => (pure (lookV p.1 0) : M W Var) p.2) e'
    exact congrArg (fun r => r >>= fun p : Var × St W => (do
      let y ← p.1.val
      p.1.grad
      let df ← adjs xv
      endNested
      pure (y, df) : M W (ℝ × List ℝ)) p.2) e2

theorem algo_jacobian (h : Inv s g val adj) (he : ∀ v ∈ env, g.Has v) (hy : ys = env.map fun v => val (g.pos v))
    (hok : a.Ok (x ++ ys)) (hroom : Room s (a.path (x ++ ys)) x ys) (n : Nat) :
    (jacobian (a.vectorFn env) n x : M W (List ℝ × List (List ℝ))) s =
      jacobian ((a.path (x ++ ys)).vectorFn env) n x s := by
  unfold jacobian
  cases hb : (beginNested : M W Unit) s with
  | error e => rw [bind_err hb, bind_err hb]
  | ok q =>
    obtain ⟨u, s0⟩ := q
    obtain ⟨hl, rfl⟩ := begin_run hb
    rw [bind_ok hb, bind_ok hb]
    obtain ⟨xv, s1, e, e'⟩ := algo_run (W := W) h.begun he hy hok hroom
    rw [bind_ok e, bind_ok e]
    exact congrArg (fun r => r >>= fun p : List Var × St W => (do
      let fv ← confN n p.1
      let ys ← vals fv
      let rows ← jacLoop xv fv
      endNested
      pure (ys, rows) : M W (List ℝ × List (List ℝ))) p.2) e'

theorem algo_derive (h : Inv s g val adj) (he : ∀ v ∈ env, g.Has v) (hy : ys = env.map fun v => val (g.pos v))
    (hok : a.Ok (x ++ ys)) (hroom : Room s (a.path (x ++ ys)) x ys) (k : Nat) :
    (a.derive env x k : M W (List ℝ × List ℝ)) s = derive (a.path (x ++ ys)) env x k s := by
  unfold Algo.derive derive
  obtain ⟨xv, s1, e, e'⟩ := algo_run (W := W) h he hy hok hroom
  rw [bind_ok e, bind_ok e]
  exact congrArg (fun r => r >>= fun p : List Var × St W => (do
      let ys ← vals p.1
      (lookV p.1 k).grad
      let df ← adjs xv
      pure (ys, df) : M W (List ℝ × List ℝ)) p.2) e'

/-- what is the gradient of the straight-line program is the gradient of the function -/
theorem algo_grad (hst : a.Steady x ys) {k : Nat} {df : List ℝ}
    (hg : IsGradAt (fun z => ((a.path (x ++ ys)).sem (z ++ ys)).getD k 0) x df) :
    IsGradAt (fun z => (a.sem (z ++ ys)).getD k 0) x df := by
  refine ⟨hg.1, hg.2.congr_of_eventuallyEq ?_⟩
  filter_upwards [hst] with y hy
  rw [← hy, Algo.path_sem]

end Fz
