import Verif.Proof.Algo
import Verif.Proof.FlowRun

/-!
# Functions whose control flow depends on values, without checks of array shapes
-/

set_option linter.unusedSectionVars false

namespace Fz
open Arith Spec

variable {W : Type} [Rep W ℝ] [LawfulRep W ℝ]
variable {E : Type} [NormedAddCommGroup E] [NormedSpace ℝ E] {x0 : E}
variable {a : Algo} {c d : Client W} {g : Graph ℝ} {val adj : Nat → ℝ} {τ : Type}

theorem algo_sameL {T : Nat → Prop} : ∀ (a : Algo) {s t : St W} {g : Graph ℝ} {val adj : Nat → ℝ} {D ε : Nat → E →L[ℝ] ℝ}
    {env : List Var} {σ : E → List ℝ}, Akin T s t → Sim t g val adj D ε → EnvTracks x0 g val D env σ →
    (a.path (σ x0)).Mild → a.Ok (σ x0) → t.tape.head + (a.path (σ x0)).cost (σ x0) ≤ cap →
    (a.run env : M W (List Var)) s = (a.path (σ x0)).run env s := by
  intro a
  induction a with
  | ret outs => intro s t g val adj D ε env σ _ _ _ _ _ _; rfl
  | op i k ih =>
    intro s t g val adj D ε env σ hA h te hm hok hcap
    simp only [Algo.path, Prog.cost] at hcap
    simp only [Algo.path, Prog.Mild] at hm
    obtain ⟨vs, t', e, g', val', adj', D', ε', sim, gr, te'⟩ :=
      instr_step (lf := True) h te i hok.1 (by omega) fun _ => trivial
    have hh := gr.head
    obtain ⟨s1, f1, A1⟩ := blind_instr hm.1 _ _ _ _ _ hA e
    simp only [Algo.run, Algo.path, Prog.run]
    rw [bind_ok f1, bind_ok f1]
    exact ih A1 sim te' hm.2 hok.2 (by omega)
  | look i k ih =>
    intro s t g val adj D ε env σ hA h te hm hok hcap
    have tr := te.tr i (by rw [← te.len x0]; exact hok.1)
    have e := h.inv.varVal tr.has
    rw [← tr.value] at e
    obtain ⟨s1, f1, A1⟩ := blind_val _ _ _ _ _ hA e
    obtain rfl := Var.val_st f1
    simp only [Algo.run, Algo.path]
    rw [bind_ok f1]
    exact ih _ hA h te hm hok.2 hcap

/-- the straight-line program can be differentiated -/
theorem algo_flow_ok : ∀ (a : Algo) {hd : Nat} {env : List ℝ}, (a.path env).Mild → a.Ok env →
    hd + (a.path env).cost env ≤ tapeLimit → (∀ j, hd + (a.path env).cost env ≠ 12288 * 2 ^ j + 1) →
    ((a.path env).flow : Flow τ).Ok hd env := by
  intro a
  induction a with
  | ret outs =>
    intro hd env _ hok _ hn
    exact ⟨hok, by simpa [Algo.path, Prog.cost] using hn⟩
  | op i k ih =>
    intro hd env hm hok hr hn
    simp only [Algo.path, Prog.cost] at hr hn
    simp only [Algo.path, Prog.Mild] at hm
    refine ⟨hm.1, hok.1, by omega, ih hm.2 hok.2 (by omega) fun j => ?_⟩
    have := hn j
    omega
  | look i k ih =>
    intro hd env hm hok hr hn
    exact ih _ hm hok.2 hr hn

theorem flow_sem (p : Prog) (xs : List ℝ) : (p.flow : Flow τ).sem xs = p.sem xs := by
  induction p generalizing xs with
  | ret outs => rfl
  | op i k ih => exact ih _
  | ifVV o i j p q ihp ihq => simp only [Prog.flow, Flow.sem, Prog.sem, ihp, ihq]
  | ifVD o i d p q ihp ihq => simp only [Prog.flow, Flow.sem, Prog.sem, ihp, ihq]

theorem flow_runL (J : Junk W ℝ) (p : Prog) (env : List Var) : (p.flow : Flow τ).runL J env = p.run env := by
  induction p generalizing env with
  | ret outs => rfl
  | op i k ih => simp only [Prog.flow, Flow.runL, Prog.run, ih]
  | ifVV o i j p q ihp ihq => simp only [Prog.flow, Flow.runL, Prog.run, ihp, ihq]
  | ifVD o i d p q ihp ihq => simp only [Prog.flow, Flow.runL, Prog.run, ihp, ihq]

theorem algo_proper {is : List Nat} {ys x : List ℝ} (h : a.ProperL c is ys x) :
    ((a.path (x ++ ys)).flow : Flow τ).ProperL c is ys x := by
  obtain ⟨hl, hi, hv, hm, hok, h0, hr, hn⟩ := h
  refine ⟨hl, hi, hv, by omega, algo_flow_ok a hm hok (by omega) fun j => ?_, ?_⟩
  · have := hn j
    omega
  · rw [flow_sem, Algo.path_sem]
    exact h0

/-- after the region has begun and the independent variables are there -/
theorem Shadow.algo_run (S : Shadow c d g val adj) {is : List Nat} {ys x : List ℝ} (h : a.ProperL c is ys x) :
    ∃ xv s0 s1, (beginNested : M W Unit) c.st = .ok ((), s0) ∧ (newVars x : M W (List Var)) s0 = .ok (xv, s1) ∧
      (a.run (xv ++ is.map (nth c.env)) : M W (List Var)) s1 = (a.path (x ++ ys)).run (xv ++ is.map (nth c.env)) s1 := by
  obtain ⟨hl, hi, hv, hm, hok, h0, hr, hn⟩ := h
  obtain rfl := S.capVals hi hv
  have hhd : d.st.tape.head = c.st.tape.head := (congrArg Tape.head S.alike.tape).symm
  have hlv : d.st.level = c.marks.length := by rw [S.sound.good.lvl, S.marks]
  have e0 := beginNested_ok d.st (by rw [hlv]; simp only [maxNestedStack]; omega)
  obtain ⟨s0, f0, A0⟩ := blind_begin _ _ _ _ S.alike e0
  obtain ⟨xv, t1, e1, hh, g1, val1, adj1, D1, ε1, sim, te⟩ :=
    inputs_tracks (x := x) (W := W) S.sound.good.inv.begun (S.caps hi) (by
      show d.st.tape.head + _ ≤ tapeLimit
      omega)
  obtain ⟨s1, f1, A1⟩ := blind_newVars _ _ _ _ _ A0 e1
  refine ⟨xv, s0, s1, f0, f1, ?_⟩
  have := algo_sameL a A1 sim te (by simpa [ofFn_get] using hm) (by simpa [ofFn_get] using hok) (by
    simp only [ofFn_get]
    rw [hh]
    show d.st.tape.head + _ + _ ≤ tapeLimit
    omega)
  simp only [ofFn_get] at this
  exact this

theorem Shadow.algoGradient (S : Shadow c d g val adj) {is : List Nat} {ys x : List ℝ} (h : a.ProperL c is ys x)
    (J : Junk W ℝ) : (gradientL J (a.scalarFn (is.map (nth c.env))) x : M W (ℝ × List ℝ)) c.st =
      gradientL J (((a.path (x ++ ys)).flow : Flow τ).scalarL J (is.map (nth c.env))) x c.st := by
  obtain ⟨xv, s0, s1, e0, e1, e⟩ := S.algo_run h
  unfold gradientL
  rw [bind_ok e0, bind_ok e0, bind_ok e1, bind_ok e1]
  have e2 : (a.scalarFn (is.map (nth c.env)) xv : M W Var) s1 =
      ((a.path (x ++ ys)).flow : Flow τ).scalarL J (is.map (nth c.env)) xv s1 := by
    unfold Algo.scalarFn Flow.scalarL
    rw [flow_runL]
    exact congrArg (fun r => r >>= fun p : List Var × St W => (pure (lookV p.1 0) : M W Var) p.2) e
  exact congrArg (fun r => r >>= fun p : Var × St W => (do
      let y ← p.1.val
      p.1.gradL J
      let df ← adjs xv
      endNested
      pure (y, df) : M W (ℝ × List ℝ)) p.2) e2

theorem Shadow.algoJacobian (S : Shadow c d g val adj) {is : List Nat} {ys x : List ℝ} (h : a.ProperL c is ys x)
    (J : Junk W ℝ) (n : Nat) : (jacobianL J (a.vectorFn (is.map (nth c.env))) n x : M W (List ℝ × List (List ℝ))) c.st =
      jacobianL J (((a.path (x ++ ys)).flow : Flow τ).vectorL J (is.map (nth c.env))) n x c.st := by
  obtain ⟨xv, s0, s1, e0, e1, e⟩ := S.algo_run h
  unfold jacobianL
  rw [bind_ok e0, bind_ok e0, bind_ok e1, bind_ok e1]
  have e2 : (a.vectorFn (is.map (nth c.env)) xv n : M W (List Var)) s1 =
      ((a.path (x ++ ys)).flow : Flow τ).vectorL J (is.map (nth c.env)) xv n s1 := by
    unfold Algo.vectorFn Flow.vectorL
    rw [flow_runL]
    exact e
  exact congrArg (fun r => r >>= fun p : List Var × St W => (do
      let fv ← confN n p.1
      let ys ← Fz.vals fv
      let rows ← jacLoopL J xv fv
      endNested
      pure (ys, rows) : M W (List ℝ × List (List ℝ))) p.2) e2

end Fz
