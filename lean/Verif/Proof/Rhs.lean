import Verif.Spec.Rhs
import Verif.Proof.Imperative
import Verif.Proof.AlgoFlow
import Verif.Proof.MirrorOde
import Verif.Proof.OdeSolTotal
import Verif.Proof.OdeJac

/-!
# Right-hand sides of differential equations written as code
-/

set_option linter.unusedSectionVars false

namespace Fz
open Arith Spec

variable {W : Type} [Rep W ℝ] [LawfulRep W ℝ]
variable {s t : St W} {g : Graph ℝ} {val adj : Nat → ℝ}

/-! ## the code runs like a straight-line program -/

theorem Instr.rename_mild {σ : Nat → Nat} {m : Instr} (h : m.Mild) : (m.rename σ).Mild := by
  cases m <;> exact h

theorem mild_path : ∀ (s : Stmt), s.NoReal → s.Mild → ∀ (E : List ℝ) (τ : List Nat), (∀ t ∈ τ, t < E.length) →
    ∀ k : List Nat → Nat → Algo,
      (∀ (τ' : List Nat) (E' : List ℝ), (∀ t ∈ τ', t < E'.length) → ((k τ' E'.length).path E').Mild) →
      ((s.algo τ E.length k).path E).Mild := by
  intro s
  induction s with
  | nop => exact fun _ _ E τ h k hk => hk τ E h
  | copy j i => exact fun _ _ E τ h k hk => hk _ E fun t ht => h t (mem_move ht)
  | real j d => exact fun h => h.elim
  | call js m =>
    intro _ hm E τ h k hk
    refine ⟨Instr.rename_mild hm, ?_⟩
    have hl := (m.rename (nm τ E.length)).sem_arity E
    rw [Instr.rename_arity] at hl
    have e : E.length + m.arity = (E ++ (m.rename (nm τ E.length)).sem E).length := by rw [List.length_append, hl]
    have := hk (writeAt τ js (List.range' E.length m.arity)) (E ++ (m.rename (nm τ E.length)).sem E)
      fun t ht => new_lt h hl (mem_writeAt ht)
    rw [← e] at this
    exact this
  | declare m =>
    intro _ hm E τ h k hk
    refine ⟨Instr.rename_mild hm, ?_⟩
    have hl := (m.rename (nm τ E.length)).sem_arity E
    rw [Instr.rename_arity] at hl
    have e : E.length + m.arity = (E ++ (m.rename (nm τ E.length)).sem E).length := by rw [List.length_append, hl]
    have := hk (τ ++ List.range' E.length m.arity) (E ++ (m.rename (nm τ E.length)).sem E)
      fun t ht => new_lt h hl (List.mem_append.mp ht)
    rw [← e] at this
    exact this
  | seq a b iha ihb =>
    intro hn hm E τ h k hk
    exact iha hn.1 hm.1 E τ h _ fun τ' E' h' => ihb hn.2 hm.2 E' τ' h' k hk
  | look i f ih =>
    intro hn hm E τ h k hk
    exact ih _ (hn _) (hm _) E τ h k hk

theorem proc_mild {p : Proc} (hn : p.body.NoReal) (hm : p.body.Mild) (v : List ℝ) : ((p.algo v.length).path v).Mild :=
  mild_path p.body hn hm v _ (range_lt v) _ fun _ _ _ => trivial

theorem hasConst_op {m : Instr} {k : Prog} (hm : ∀ d, m ≠ .const d) (h : (Prog.op m k).hasConst) : k.hasConst := by
  cases m <;> first | exact h | exact absurd rfl (hm _)

theorem Instr.rename_const {σ : Nat → Nat} {m : Instr} (h : ∀ d, m ≠ .const d) : ∀ d, m.rename σ ≠ .const d := by
  cases m <;> first | exact absurd rfl (h _) | (intro d e; cases e)

theorem const_path : ∀ (s : Stmt), s.NoReal → s.NoConst → ∀ (E : List ℝ) (τ : List Nat), (∀ t ∈ τ, t < E.length) →
    ∀ k : List Nat → Nat → Algo,
      (∀ (τ' : List Nat) (E' : List ℝ), (∀ t ∈ τ', t < E'.length) → ¬ ((k τ' E'.length).path E').hasConst) →
      ¬ ((s.algo τ E.length k).path E).hasConst := by
  intro s
  induction s with
  | nop => exact fun _ _ E τ h k hk => hk τ E h
  | copy j i => exact fun _ _ E τ h k hk => hk _ E fun t ht => h t (mem_move ht)
  | real j d => exact fun h => h.elim
  | call js m =>
    intro _ hm E τ h k hk hc
    have hm' : ∀ d, m ≠ .const d := fun d e => by subst e; exact hm
    have hc := hasConst_op (Instr.rename_const hm') hc
    have hl := (m.rename (nm τ E.length)).sem_arity E
    rw [Instr.rename_arity] at hl
    have e : E.length + m.arity = (E ++ (m.rename (nm τ E.length)).sem E).length := by rw [List.length_append, hl]
    have := hk (writeAt τ js (List.range' E.length m.arity)) (E ++ (m.rename (nm τ E.length)).sem E)
      fun t ht => new_lt h hl (mem_writeAt ht)
    rw [← e] at this
    exact this hc
  | declare m =>
    intro _ hm E τ h k hk hc
    have hm' : ∀ d, m ≠ .const d := fun d e => by subst e; exact hm
    have hc := hasConst_op (Instr.rename_const hm') hc
    have hl := (m.rename (nm τ E.length)).sem_arity E
    rw [Instr.rename_arity] at hl
    have e : E.length + m.arity = (E ++ (m.rename (nm τ E.length)).sem E).length := by rw [List.length_append, hl]
    have := hk (τ ++ List.range' E.length m.arity) (E ++ (m.rename (nm τ E.length)).sem E)
      fun t ht => new_lt h hl (List.mem_append.mp ht)
    rw [← e] at this
    exact this hc
  | seq a b iha ihb =>
    intro hn hm E τ h k hk
    exact iha hn.1 hm.1 E τ h _ fun τ' E' h' => ihb hn.2 hm.2 E' τ' h' k hk
  | look i f ih =>
    intro hn hm E τ h k hk
    exact ih _ (hn _) (hm _) E τ h k hk

theorem proc_noConst {p : Proc} (hn : p.body.NoReal) (hm : p.body.NoConst) (v : List ℝ) :
    ¬ ((p.algo v.length).path v).hasConst :=
  const_path p.body hn hm v _ (range_lt v) _ fun _ _ _ h => h

/-- the straight-line program that the code carries out -/
noncomputable def lineOf (p : Proc) (v : List ℝ) : Prog := (p.algo v.length).path v

variable {p : Proc} {x : List ℝ}

theorem line_ok (hn : p.body.NoReal) (h : p.Ok x) : (lineOf p x).Ok x := Algo.path_ok (proc_ok p hn h)
theorem line_cost (hn : p.body.NoReal) : (lineOf p x).cost x = p.body.cost x := proc_cost p hn x
theorem line_len (hn : p.body.NoReal) : ((lineOf p x).sem x).length = p.outs.length := by
  unfold lineOf
  rw [Algo.path_sem, proc_sem p hn]
  simp [Proc.sem]

/-- on new variables the code runs like the straight-line program -/
theorem line_run (h : Inv s g val adj) (hn : p.body.NoReal) (hok : p.Ok x)
    (hroom : s.tape.head + (6 * x.length + p.body.cost x) ≤ tapeLimit) :
    ∃ xv s1, (newVars x : M W (List Var)) s = .ok (xv, s1) ∧ (p.run xv : M W (List Var)) s1 = (lineOf p x).run xv s1 := by
  have ho := proc_ok p hn hok
  obtain ⟨xv, s1, e, e'⟩ := algo_run (env := []) (ys := []) (a := p.algo x.length) h (by simp) rfl
    (by rw [List.append_nil]; exact ho) (by
      unfold Room
      rw [List.append_nil, proc_cost p hn]
      exact hroom)
  rw [List.append_nil, List.append_nil] at e'
  refine ⟨xv, s1, e, ?_⟩
  rw [← proc_run p hn, newVars_len x e]
  exact e'

/-- the same without checks of array shapes -/
theorem line_runL {T : Nat → Prop} (hA : Akin T s t) (h : Inv t g val adj) (hn : p.body.NoReal) (hm : p.body.Mild)
    (hok : p.Ok x) (hroom : t.tape.head + (6 * x.length + p.body.cost x) ≤ tapeLimit) :
    ∃ xv s1, (newVars x : M W (List Var)) s = .ok (xv, s1) ∧ (p.run xv : M W (List Var)) s1 = (lineOf p x).run xv s1 := by
  have ho := proc_ok p hn hok
  have hc := proc_cost p hn x
  have hcap : cap = tapeLimit := rfl
  obtain ⟨xv, t1, e1, hh, g1, val1, adj1, D1, ε1, sim, te⟩ :=
    inputs_tracks (x := x) (W := W) (caps := []) h (by simp) (by omega)
  obtain ⟨s1, f1, A1⟩ := blind_newVars _ _ _ _ _ hA e1
  refine ⟨xv, s1, f1, ?_⟩
  have := algo_sameL (p.algo x.length) A1 sim te (by simpa [ofFn_get] using proc_mild hn hm x)
    (by simpa [ofFn_get] using ho) (by
      simp only [ofFn_get, List.map_nil, List.append_nil]
      have : cap = tapeLimit := rfl
      omega)
  simp only [ofFn_get, List.map_nil, List.append_nil] at this
  rw [← proc_run p hn, newVars_len x f1]
  exact this

/-! ## the derivatives are those of the code -/

theorem mid_continuous (y z q : List ℝ) (i : Nat) (v0 : Fin (y ++ q).length → ℝ) :
    ContinuousAt (fun v : Fin (y ++ q).length → ℝ =>
      ((List.ofFn v).take y.length ++ z ++ (List.ofFn v).drop y.length).getD i 0) v0 := by
  have hN : (y ++ q).length = y.length + q.length := by simp
  by_cases h1 : i < y.length
  · have : (fun v : Fin (y ++ q).length → ℝ => ((List.ofFn v).take y.length ++ z ++
        (List.ofFn v).drop y.length).getD i 0) = fun v => (List.ofFn v).getD i 0 := by
      funext v
      rw [List.getD_eq_getElem?_getD, List.getD_eq_getElem?_getD, List.append_assoc,
        List.getElem?_append_left (by simp; omega), List.getElem?_take_of_lt h1]
    rw [this]
    exact (cproj_deriv _ _ _).continuousAt
  · by_cases h2 : i < y.length + z.length
    · have : (fun v : Fin (y ++ q).length → ℝ => ((List.ofFn v).take y.length ++ z ++
          (List.ofFn v).drop y.length).getD i 0) = fun v => z.getD (i - y.length) 0 := by
        funext v
        have e1 : ((List.ofFn v).take y.length).length = y.length := by simp
        rw [List.getD_eq_getElem?_getD, List.getD_eq_getElem?_getD, List.append_assoc,
          List.getElem?_append_right (by omega), List.getElem?_append_left (by omega), e1]
      rw [this]
      exact continuousAt_const
    · have : (fun v : Fin (y ++ q).length → ℝ => ((List.ofFn v).take y.length ++ z ++
          (List.ofFn v).drop y.length).getD i 0) = fun v => (List.ofFn v).getD (i - z.length) 0 := by
        funext v
        have e1 : ((List.ofFn v).take y.length ++ z).length = y.length + z.length := by simp
        rw [List.getD_eq_getElem?_getD, List.getD_eq_getElem?_getD,
          List.getElem?_append_right (by omega), List.getElem?_drop, e1]
        congr 2; omega
      rw [this]
      exact (cproj_deriv _ _ _).continuousAt

/-- what holds near `y ++ z ++ q` holds near `y ++ q` with `z` put in -/
theorem mid_eventually {y z q : List ℝ} {A : List ℝ → Prop}
    (h : ∀ᶠ v in nhds (fun i : Fin (y ++ z ++ q).length => (y ++ z ++ q)[i]), A (List.ofFn v)) :
    ∀ᶠ v in nhds (fun i : Fin (y ++ q).length => (y ++ q)[i]),
      A ((List.ofFn v).take y.length ++ z ++ (List.ofFn v).drop y.length) := by
  let B : (Fin (y ++ q).length → ℝ) → (Fin (y ++ z ++ q).length → ℝ) :=
    fun v i => ((List.ofFn v).take y.length ++ z ++ (List.ofFn v).drop y.length).getD i 0
  have hx : B (fun i => (y ++ q)[i]) = fun i => (y ++ z ++ q)[i] := by
    funext i
    simp only [B]
    rw [ofFn_get, List.take_left, List.drop_left, List.getD_eq_getElem?_getD, List.getElem?_eq_getElem i.2]
    rfl
  have hof : ∀ v, List.ofFn (B v) = (List.ofFn v).take y.length ++ z ++ (List.ofFn v).drop y.length := by
    intro v
    apply List.ext_getElem
    · simp
    · intro i h1 h2
      simp [B, List.getD_eq_getElem?_getD]
  have hB : ContinuousAt B (fun i => (y ++ q)[i]) := continuousAt_pi.mpr fun i => mid_continuous y z q i _
  rw [← hx] at h
  have := hB.eventually h
  simp only [hof] at this
  exact this

theorem line_steady (h : Inv s g val adj) (hn : p.body.NoReal) (hok : p.Ok x) (hst : p.body.Stable x)
    (hroom : s.tape.head + (6 * x.length + p.body.cost x) ≤ tapeLimit) :
    ∀ᶠ v in nhds (fun i : Fin x.length => x[i]), (lineOf p x).sem (List.ofFn v) = p.sem (List.ofFn v) := by
  have hs : (p.algo x.length).Steady x [] := algo_steady (env := []) (ys := []) (a := p.algo x.length) h (by simp) rfl
    (by rw [List.append_nil]; exact proc_ok p hn hok) (by rw [List.append_nil]; exact proc_stable p hn hst) (by
      unfold Room
      rw [List.append_nil, proc_cost p hn]
      exact hroom)
  unfold Algo.Steady at hs
  simp only [List.append_nil] at hs
  filter_upwards [hs] with v hv
  have hl : (List.ofFn v).length = x.length := by simp
  unfold lineOf
  rw [← hv, Algo.path_sem, ← proc_sem p hn, hl]

theorem sens_line {y q : List ℝ} {src : Nat → Option Nat} {S o : List (List ℝ)}
    (hev : ∀ᶠ v in nhds (fun i : Fin (y ++ List.replicate y.length 0 ++ q).length =>
      (y ++ List.replicate y.length 0 ++ q)[i]),
      (lineOf p (y ++ List.replicate y.length 0 ++ q)).sem (List.ofFn v) = p.sem (List.ofFn v))
    (h : IsSensRhs (odeFn (lineOf p (y ++ List.replicate y.length 0 ++ q)) y.length []) y q src S o) :
    IsSensRhs (rhsFn p y.length) y q src S o := by
  refine ⟨h.1, fun j hj => ⟨(h.2 j hj).1, fun i hi => ?_⟩⟩
  obtain ⟨dy, dq, h1, h2, h3⟩ := (h.2 j hj).2 i hi
  refine ⟨dy, dq, h1, ⟨h2.1, h2.2.congr_of_eventuallyEq ?_⟩, h3⟩
  filter_upwards [mid_eventually (A := fun w => (lineOf p (y ++ List.replicate y.length 0 ++ q)).sem w = p.sem w) hev]
    with v hv
  simp only [rhsFn, odeFn, List.append_nil]
  rw [hv]

theorem line_grad {y q D : List ℝ} {i : Nat}
    (hev : ∀ᶠ v in nhds (fun i : Fin (y ++ List.replicate y.length 0 ++ q).length =>
      (y ++ List.replicate y.length 0 ++ q)[i]),
      (lineOf p (y ++ List.replicate y.length 0 ++ q)).sem (List.ofFn v) = p.sem (List.ofFn v))
    (h : IsGradAt (odeFn (lineOf p (y ++ List.replicate y.length 0 ++ q)) y.length [] i) (y ++ q) D) :
    IsGradAt (rhsFn p y.length i) (y ++ q) D := by
  refine ⟨h.1, h.2.congr_of_eventuallyEq ?_⟩
  filter_upwards [mid_eventually (A := fun w => (lineOf p (y ++ List.replicate y.length 0 ++ q)).sem w = p.sem w) hev]
    with v hv
  simp only [rhsFn, odeFn, List.append_nil]
  rw [hv]

/-! ## calls for the sensitivity right-hand side -/

theorem same_y {F G : ℝ → List Var → List Var → M W (List Var)} {f : ℝ → List ℝ → List ℝ} {u : ℝ} {y : List ℝ}
    {xv : List Var} {s0 s1 : St W} (hb : (beginNested : M W Unit) s = .ok ((), s0))
    (hx : (newVars (y ++ List.replicate y.length 0) : M W (List Var)) s0 = .ok (xv, s1))
    (he : ∀ yv fv, xv = yv ++ fv → F u yv fv s1 = G u yv fv s1) (S : List (List ℝ)) (out : Nat → Nat → ℝ) :
    setSensRhs (newCvsRhsYvar true y.length f F) u y S out s = setSensRhs (newCvsRhsYvar true y.length f G) u y S out s ∧
    ∀ J : Junk W ℝ, setSensRhsL J (newCvsRhsYvar true y.length f F) u y S out s =
      setSensRhsL J (newCvsRhsYvar true y.length f G) u y S out s := by
  rw [newVars_append] at hx
  obtain ⟨yv, t1, e1, k1⟩ := bind_inv hx
  obtain ⟨fv, t2, e2, k2⟩ := bind_inv k1
  cases k2
  have e2' : (newVars (List.replicate y.length (zero : ℝ)) : M W (List Var)) t1 = .ok (fv, s1) := e2
  have he' := he yv fv rfl
  refine ⟨?_, fun J => ?_⟩
  · rw [setSensRhs_y _ _ _ _ _ _ _ rfl, setSensRhs_y _ _ _ _ _ _ _ rfl, bind_ok hb, bind_ok hb, bind_ok e1, bind_ok e1,
      bind_ok e2', bind_ok e2']
    exact congrArg (fun r => r >>= fun p : List Var × St W => (do
      let fv ← confN y.length p.1
      let out ← sensRows yv [] S y.length 0 false 0 fv out
      endNested
      pure out : M W (Nat → Nat → ℝ)) p.2) he'
  · rw [setSensRhsL_y _ _ _ _ _ _ _ _ rfl, setSensRhsL_y _ _ _ _ _ _ _ _ rfl, bind_ok hb, bind_ok hb, bind_ok e1, bind_ok e1,
      bind_ok e2', bind_ok e2']
    exact congrArg (fun r => r >>= fun p : List Var × St W => (do
      let fv ← confN y.length p.1
      let out ← sensRowsL J yv [] S y.length 0 false 0 fv out
      endNested
      pure out : M W (Nat → Nat → ℝ)) p.2) he'

theorem same_p {F G : ℝ → List Var → List Var → List Var → M W (List Var)} {f : ℝ → List ℝ → List ℝ} {u : ℝ} {y q : List ℝ}
    {b : Bool} {ns : Nat} (hb' : ¬ (b = true ∧ ns = y.length))
    {xv : List Var} {s0 s1 : St W} (hb : (beginNested : M W Unit) s = .ok ((), s0))
    (hx : (newVars (y ++ List.replicate y.length 0 ++ q) : M W (List Var)) s0 = .ok (xv, s1))
    (he : ∀ yv fv qv, xv = yv ++ fv ++ qv → F u yv fv qv s1 = G u yv fv qv s1) (S : List (List ℝ)) (out : Nat → Nat → ℝ) :
    setSensRhs (newCvsRhsPvar b ns q f F) u y S out s =
      setSensRhs (newCvsRhsPvar b ns q f G) u y S out s ∧
    ∀ J : Junk W ℝ, setSensRhsL J (newCvsRhsPvar b ns q f F) u y S out s =
      setSensRhsL J (newCvsRhsPvar b ns q f G) u y S out s := by
  rw [newVars_append, newVars_append] at hx
  obtain ⟨w, t2, k0, k3⟩ := bind_inv hx
  obtain ⟨yv, t1, e1, k1⟩ := bind_inv k0
  obtain ⟨fv, t2', e2, k2⟩ := bind_inv k1
  cases k2
  obtain ⟨qv, t3, e3, k4⟩ := bind_inv k3
  cases k4
  have e2' : (newVars (List.replicate y.length (zero : ℝ)) : M W (List Var)) t1 = .ok (fv, t2) := e2
  have he' := he yv fv qv rfl
  by_cases h3 : qv.length = 3
  · have e4 := confN_ok h3 s1
    refine ⟨?_, fun J => ?_⟩
    · rw [setSensRhs_p _ _ _ _ _ _ _ _ _ _ rfl hb', setSensRhs_p _ _ _ _ _ _ _ _ _ _ rfl hb', bind_ok hb, bind_ok hb,
        bind_ok e1, bind_ok e1, bind_ok e2', bind_ok e2', bind_ok e3, bind_ok e3, bind_ok e4, bind_ok e4]
      exact congrArg (fun r => r >>= fun p : List Var × St W => (do
        let fv ← confN y.length p.1
        let out ← sensRows yv qv S ns (if b = true then ns - y.length else ns) true 0 fv out
        endNested
        pure out : M W (Nat → Nat → ℝ)) p.2) he'
    · rw [setSensRhsL_p _ _ _ _ _ _ _ _ _ _ _ rfl hb', setSensRhsL_p _ _ _ _ _ _ _ _ _ _ _ rfl hb', bind_ok hb, bind_ok hb,
        bind_ok e1, bind_ok e1, bind_ok e2', bind_ok e2', bind_ok e3, bind_ok e3, bind_ok e4, bind_ok e4]
      exact congrArg (fun r => r >>= fun p : List Var × St W => (do
        let fv ← confN y.length p.1
        let out ← sensRowsL J yv qv S ns (if b = true then ns - y.length else ns) true 0 fv out
        endNested
        pure out : M W (Nat → Nat → ℝ)) p.2) he'
  · have e4 : ∃ e, (confN 3 qv : M W (List Var)) s1 = .error e := by
      cases e4 : (confN 3 qv : M W (List Var)) s1 with
      | error e => exact ⟨e, rfl⟩
      | ok r => exact absurd (confN_inv (l' := r.1) (s' := r.2) e4).1 h3
    obtain ⟨e, e4⟩ := e4
    refine ⟨?_, fun J => ?_⟩
    · rw [setSensRhs_p _ _ _ _ _ _ _ _ _ _ rfl hb', setSensRhs_p _ _ _ _ _ _ _ _ _ _ rfl hb', bind_ok hb, bind_ok hb,
        bind_ok e1, bind_ok e1, bind_ok e2', bind_ok e2', bind_ok e3, bind_ok e3, bind_err e4, bind_err e4]
    · rw [setSensRhsL_p _ _ _ _ _ _ _ _ _ _ _ rfl hb', setSensRhsL_p _ _ _ _ _ _ _ _ _ _ _ rfl hb', bind_ok hb, bind_ok hb,
        bind_ok e1, bind_ok e1, bind_ok e2', bind_ok e2', bind_ok e3, bind_ok e3, bind_err e4, bind_err e4]

theorem same_jac {F G : ℝ → List Var → List Var → M W (List Var)} {f : ℝ → List ℝ → List ℝ} {u : ℝ} {y : List ℝ}
    {xv : List Var} {s0 s1 : St W} (hb : (beginNested : M W Unit) s = .ok ((), s0))
    (hx : (newVars (y ++ List.replicate y.length 0) : M W (List Var)) s0 = .ok (xv, s1))
    (he : ∀ yv fv, xv = yv ++ fv → F u yv fv s1 = G u yv fv s1) (b : Bool) (ns : Nat) (jac : Nat → ℝ) :
    calcJacYvar (newCvsRhsYvar b ns f F) u y jac s = calcJacYvar (newCvsRhsYvar b ns f G) u y jac s := by
  rw [newVars_append] at hx
  obtain ⟨yv, t1, e1, k1⟩ := bind_inv hx
  obtain ⟨fv, t2, e2, k2⟩ := bind_inv k1
  cases k2
  have e2' : (newVars (List.replicate y.length (zero : ℝ)) : M W (List Var)) t1 = .ok (fv, s1) := e2
  have he' := he yv fv rfl
  rw [calcJac_eq, calcJac_eq, bind_ok hb, bind_ok hb, bind_ok e1, bind_ok e1, bind_ok e2, bind_ok e2]
  exact congrArg (fun r => r >>= fun p : List Var × St W => (do
    let fv ← confN y.length p.1
    let jac ← jacRows y.length yv 0 fv jac
    endNested
    pure jac : M W (Nat → ℝ)) p.2) he'

variable {f : ℝ → List ℝ → List ℝ} {P : ℝ → Proc}

theorem sens_eqY {u : ℝ} {y : List ℝ} (hi : Inv s g val adj)
    (hb : ∃ s0, (beginNested : M W Unit) s = .ok ((), s0))
    (hn : (P u).body.NoReal) (h1 : (P u).Ok (y ++ List.replicate y.length 0 ++ []))
    (hr : s.tape.head + (6 * (y ++ List.replicate y.length 0 ++ []).length +
      (P u).body.cost (y ++ List.replicate y.length 0 ++ [])) ≤ tapeLimit) (S : List (List ℝ)) (out : Nat → Nat → ℝ) :
    setSensRhs (newCvsRhsYvar true y.length f (rhsY P)) u y S out s = setSensRhs (newCvsRhsYvar true y.length f
      (odeY (fun _ => lineOf (P u) (y ++ List.replicate y.length 0 ++ [])) [])) u y S out s := by
  obtain ⟨s0, hb⟩ := hb
  obtain ⟨-, rfl⟩ := begin_run hb
  obtain ⟨xv, s1, e1, e2⟩ := line_run (W := W) hi.begun hn h1 (by
    show s.tape.head + _ ≤ _
    exact hr)
  exact (same_y (F := rhsY P) (G := odeY (fun _ => lineOf (P u) (y ++ List.replicate y.length 0 ++ [])) []) (f := f)
    (u := u) hb (by simpa using e1) (fun yv fv h => by
      subst h
      simpa [rhsY, odeY] using e2) S out).1

theorem jac_sameY {u : ℝ} {y : List ℝ} {b : Bool} {ns : Nat} {jac jac' : Nat → ℝ} (hi : Inv s g val adj)
    (hn : (P u).body.NoReal) (h1 : (P u).Ok (y ++ List.replicate y.length 0 ++ []))
    (hr : s.tape.head + (6 * (y ++ List.replicate y.length 0 ++ []).length +
      (P u).body.cost (y ++ List.replicate y.length 0 ++ [])) ≤ tapeLimit)
    (e : calcJacYvar (newCvsRhsYvar b ns f (rhsY P)) u y jac s = .ok (jac', t)) :
    calcJacYvar (newCvsRhsYvar b ns f
      (odeY (fun _ => lineOf (P u) (y ++ List.replicate y.length 0 ++ [])) [])) u y jac s = .ok (jac', t) := by
  have e' := e
  rw [calcJac_eq] at e'
  obtain ⟨⟨⟩, s0, hb, -⟩ := bind_inv e'
  obtain ⟨-, rfl⟩ := begin_run hb
  obtain ⟨xv, s1, e1, e2⟩ := line_run (W := W) hi.begun hn h1 (by
    show s.tape.head + _ ≤ _
    exact hr)
  rw [← e]
  exact (same_jac (F := rhsY P) (G := odeY (fun _ => lineOf (P u) (y ++ List.replicate y.length 0 ++ [])) []) (f := f)
    (u := u) hb (by simpa using e1) (fun yv fv h => by
      subst h
      simpa [rhsY, odeY] using e2) b ns jac).symm

theorem sens_sameY {u : ℝ} {y : List ℝ} {S : List (List ℝ)} {out out' : Nat → Nat → ℝ} (hi : Inv s g val adj)
    (hn : (P u).body.NoReal) (h1 : (P u).Ok (y ++ List.replicate y.length 0 ++ []))
    (hr : s.tape.head + (6 * (y ++ List.replicate y.length 0 ++ []).length +
      (P u).body.cost (y ++ List.replicate y.length 0 ++ [])) ≤ tapeLimit)
    (e : setSensRhs (newCvsRhsYvar true y.length f (rhsY P)) u y S out s = .ok (out', t)) :
    setSensRhs (newCvsRhsYvar true y.length f
      (odeY (fun _ => lineOf (P u) (y ++ List.replicate y.length 0 ++ [])) [])) u y S out s = .ok (out', t) := by
  rw [← e]
  refine (sens_eqY hi ?_ hn h1 hr S out).symm
  rw [setSensRhs_y _ _ _ _ _ _ _ rfl] at e
  obtain ⟨⟨⟩, s0, e0, -⟩ := bind_inv e
  exact ⟨s0, e0⟩

theorem sens_eqP {u : ℝ} {y q : List ℝ} {b : Bool} {ns : Nat} (hb' : ¬ (b = true ∧ ns = y.length)) (hi : Inv s g val adj)
    (hb : ∃ s0, (beginNested : M W Unit) s = .ok ((), s0))
    (hn : (P u).body.NoReal) (h1 : (P u).Ok (y ++ List.replicate y.length 0 ++ q))
    (hr : s.tape.head + (6 * (y ++ List.replicate y.length 0 ++ q).length +
      (P u).body.cost (y ++ List.replicate y.length 0 ++ q)) ≤ tapeLimit) (S : List (List ℝ)) (out : Nat → Nat → ℝ) :
    setSensRhs (newCvsRhsPvar b ns q f (rhsP P)) u y S out s = setSensRhs (newCvsRhsPvar b ns q f
      (odeP (fun _ => lineOf (P u) (y ++ List.replicate y.length 0 ++ q)) [])) u y S out s := by
  obtain ⟨s0, hb⟩ := hb
  obtain ⟨-, rfl⟩ := begin_run hb
  obtain ⟨xv, s1, e1, e2⟩ := line_run (W := W) hi.begun hn h1 (by
    show s.tape.head + _ ≤ _
    exact hr)
  exact (same_p hb' (F := rhsP P) (G := odeP (fun _ => lineOf (P u) (y ++ List.replicate y.length 0 ++ q)) []) (f := f)
    (u := u) hb e1 (fun yv fv qv h => by
      subst h
      simpa [rhsP, odeP] using e2) S out).1

theorem sens_sameP {u : ℝ} {y q : List ℝ} {b : Bool} {ns : Nat} (hb' : ¬ (b = true ∧ ns = y.length))
    {S : List (List ℝ)} {out out' : Nat → Nat → ℝ} (hi : Inv s g val adj)
    (hn : (P u).body.NoReal) (h1 : (P u).Ok (y ++ List.replicate y.length 0 ++ q))
    (hr : s.tape.head + (6 * (y ++ List.replicate y.length 0 ++ q).length +
      (P u).body.cost (y ++ List.replicate y.length 0 ++ q)) ≤ tapeLimit)
    (e : setSensRhs (newCvsRhsPvar b ns q f (rhsP P)) u y S out s = .ok (out', t)) :
    setSensRhs (newCvsRhsPvar b ns q f
      (odeP (fun _ => lineOf (P u) (y ++ List.replicate y.length 0 ++ q)) [])) u y S out s = .ok (out', t) := by
  rw [← e]
  refine (sens_eqP hb' hi ?_ hn h1 hr S out).symm
  rw [setSensRhs_p _ _ _ _ _ _ _ _ _ _ rfl hb'] at e
  obtain ⟨⟨⟩, s0, e0, -⟩ := bind_inv e
  exact ⟨s0, e0⟩

theorem sensOk_rhsY {n K : Nat} (hn : ∀ u, (P u).body.NoReal) :
    SensOk (W := W) (rhsInit f P) (FairRhs P [] n n K) (newCvsRhsYvar true n f (rhsY P)) K := by
  intro g val adj s t u y S out out' hi hfit hroom hok e
  obtain ⟨rfl, hS, h1, h2, h3⟩ := hok
  have hcap : cap = tapeLimit := rfl
  have hr : s.tape.head + (6 * (y ++ List.replicate y.length 0 ++ []).length +
      (P u).body.cost (y ++ List.replicate y.length 0 ++ [])) ≤ tapeLimit := by
    simp only [List.length_append, List.length_replicate, List.length_nil] at *
    omega
  obtain ⟨a1, a2, a3⟩ := sensOk_y (P := fun _ => lineOf (P u) (y ++ List.replicate y.length 0 ++ [])) (K := K) hi hfit hroom
    ⟨rfl, hS, line_ok (hn u) h1, by rw [line_cost (hn u)]; exact h3⟩ (sens_sameY hi (hn u) h1 hr e)
  exact ⟨sens_line (line_steady hi (hn u) h1 h2 hr) (show IsSensRhs (odeFn (lineOf (P u)
    (y ++ List.replicate y.length 0 ++ [])) y.length []) y [] (fun _ => none) S _ from a1), a2, a3⟩

theorem sensOk_rhsP {q : List ℝ} {n K : Nat} (hn : ∀ u, (P u).body.NoReal) :
    SensOk (W := W) (rhsParam f P q) (FairRhs P q n q.length K) (newCvsRhsPvar false q.length q f (rhsP P)) K := by
  intro g val adj s t u y S out out' hi hfit hroom hok e
  obtain ⟨rfl, hS, h1, h2, h3⟩ := hok
  have hcap : cap = tapeLimit := rfl
  have hr : s.tape.head + (6 * (y ++ List.replicate y.length 0 ++ q).length +
      (P u).body.cost (y ++ List.replicate y.length 0 ++ q)) ≤ tapeLimit := by
    simp only [List.length_append, List.length_replicate] at *
    omega
  obtain ⟨a1, a2, a3⟩ := sensOk_p (P := fun _ => lineOf (P u) (y ++ List.replicate y.length 0 ++ q)) (K := K) hi hfit hroom
    ⟨rfl, hS, line_ok (hn u) h1, by rw [line_cost (hn u)]; exact h3⟩ (sens_sameP (by simp) hi (hn u) h1 hr e)
  exact ⟨sens_line (line_steady hi (hn u) h1 h2 hr) (show IsSensRhs (odeFn (lineOf (P u)
    (y ++ List.replicate y.length 0 ++ q)) y.length []) y q some S _ from a1), a2, a3⟩

theorem sensTotal_rhsY {n K hd lv : Nat} (hlv : lv < maxNestedStack) (hroom : hd + K ≤ cap)
    (hn : ∀ u, (P u).body.NoReal) (hc : ∀ u, (P u).body.NoConst) (h0 : 0 < n) :
    SensTotal (W := W) (rhsInit f P) (CallableRhs P [] n n K hd 1) (newCvsRhsYvar true n f (rhsY P)) (2 * n) hd lv := by
  intro g val adj s u y S out hi hhd hl hok
  obtain ⟨⟨rfl, hS, h1, h2, h3⟩, hS', hlen, hfull⟩ := hok
  have hcap : cap = tapeLimit := rfl
  have hr : s.tape.head + (6 * (y ++ List.replicate y.length 0 ++ []).length +
      (P u).body.cost (y ++ List.replicate y.length 0 ++ [])) ≤ tapeLimit := by
    simp only [List.length_append, List.length_replicate, List.length_nil] at *
    omega
  have hsame := sens_eqY (f := f) hi.inv ⟨_, beginNested_ok s (by omega)⟩ (hn u) h1 hr S out
  obtain ⟨out', t, val', a, e, a1, a2⟩ := sensTotal_y (W := W) (f := f) (K := K)
    (P := fun _ => lineOf (P u) (y ++ List.replicate y.length 0 ++ [])) hlv hroom
    (fun _ => proc_noConst (hn u) (hc u) _) (u := u) (y := y) (S := S) (out := out) hi hhd hl
    ⟨⟨rfl, hS, line_ok (hn u) h1, by rw [line_cost (hn u)]; exact h3⟩, hS', by
      have := line_len (x := y ++ List.replicate y.length 0 ++ []) (hn u)
      rw [List.append_nil] at this ⊢
      rw [this]; exact hlen, h0, fun j => by
      have := line_cost (x := y ++ List.replicate y.length 0 ++ []) (hn u)
      have hf := hfull 0 (by omega) j
      rw [List.append_nil] at this hf ⊢
      rw [this]; simpa using hf⟩
  exact ⟨out', t, val', a, hsame.trans e, sens_line (line_steady hi.inv (hn u) h1 h2 hr) (show IsSensRhs (odeFn
    (lineOf (P u) (y ++ List.replicate y.length 0 ++ [])) y.length []) y [] (fun _ => none) S _ from a1), a2⟩

theorem sensTotal_rhsP {q : List ℝ} {n K hd lv : Nat} (hq : q.length = 3) (hlv : lv < maxNestedStack)
    (hroom : hd + K ≤ cap) (hn : ∀ u, (P u).body.NoReal) (hc : ∀ u, (P u).body.NoConst) :
    SensTotal (W := W) (rhsParam f P q) (CallableRhs P q n q.length K hd 1) (newCvsRhsPvar false q.length q f (rhsP P))
      (2 * n + 3) hd lv := by
  intro g val adj s u y S out hi hhd hl hok
  obtain ⟨⟨rfl, hS, h1, h2, h3⟩, hS', hlen, hfull⟩ := hok
  have hcap : cap = tapeLimit := rfl
  have hr : s.tape.head + (6 * (y ++ List.replicate y.length 0 ++ q).length +
      (P u).body.cost (y ++ List.replicate y.length 0 ++ q)) ≤ tapeLimit := by
    simp only [List.length_append, List.length_replicate] at *
    omega
  have hsame := sens_eqP (f := f) (b := false) (ns := q.length) (by simp) hi.inv ⟨_, beginNested_ok s (by omega)⟩ (hn u) h1 hr S out
  obtain ⟨out', t, val', a, e, a1, a2⟩ := sensTotal_p (W := W) (f := f) (K := K)
    (P := fun _ => lineOf (P u) (y ++ List.replicate y.length 0 ++ q)) hq hlv hroom
    (fun _ => proc_noConst (hn u) (hc u) _) (u := u) (y := y) (S := S) (out := out) hi hhd hl
    ⟨⟨rfl, hS, line_ok (hn u) h1, by rw [line_cost (hn u)]; exact h3⟩, hS', by
      rw [line_len (hn u)]; exact hlen, fun j => by
      rw [line_cost (hn u)]; simpa using hfull 0 (by omega) j⟩
  exact ⟨out', t, val', a, hsame.trans e, sens_line (line_steady hi.inv (hn u) h1 h2 hr) (show IsSensRhs (odeFn
    (lineOf (P u) (y ++ List.replicate y.length 0 ++ q)) y.length []) y q some S _ from a1), a2⟩

theorem sensL_rhsY {n K hd h0 m k lv k0 : Nat} (hlv : lv < maxNestedStack)
    (hk : k < m) (hhd : hd = h0 + k * (n * (6 + 3 * n))) (h0' : 0 < n)
    (hroom : hd + K ≤ cap) (hn : ∀ u, (P u).body.NoReal) (hm : ∀ u, (P u).body.Mild) :
    SensL W (rhsInit f P) (CallableRhs P [] n n K h0 m) (newCvsRhsYvar true n f (rhsY P)) k0 hd lv := by
  intro g val adj s t u y S out hi hh hl hok
  obtain ⟨⟨rfl, hS, h1, h2, h3⟩, hS', hlen, hfull⟩ := hok
  have hcap : cap = tapeLimit := rfl
  have hr : t.tape.head + (6 * (y ++ List.replicate y.length 0 ++ []).length +
      (P u).body.cost (y ++ List.replicate y.length 0 ++ [])) ≤ tapeLimit := by
    simp only [List.length_append, List.length_replicate, List.length_nil] at *
    omega
  have e0 := beginNested_ok t (by omega)
  obtain ⟨s0, f0, A0⟩ := blind_begin _ _ _ _ hi.akin e0
  obtain ⟨xv, s1, e1, e2⟩ := line_runL (W := W) A0 hi.fine.inv.begun (hn u) (hm u) h1 (by
    show t.tape.head + _ ≤ _
    exact hr)
  have hsame := (same_y (F := rhsY P) (G := odeY (fun _ => lineOf (P u) (y ++ List.replicate y.length 0 ++ [])) []) (f := f)
    (u := u) f0 (by simpa using e1) (fun yv fv h => by
      subst h
      simpa [rhsY, odeY] using e2) S out).2
  obtain ⟨out', s', t', e, a1, a2⟩ := sensL_y (W := W) (k0 := k0) (f := f)
    (P := fun _ => lineOf (P u) (y ++ List.replicate y.length 0 ++ [])) hlv hk hhd h0' hroom
    (fun _ => proc_mild (hn u) (hm u) _) (u := u) (y := y) (S := S) out hi hh hl
    ⟨⟨rfl, hS, line_ok (hn u) h1, by rw [line_cost (hn u)]; exact h3⟩, hS', by rw [line_len (hn u)]; exact hlen,
      by rw [line_cost (hn u)]; exact hfull⟩
  exact ⟨out', s', t', fun J => by rw [hsame J]; exact e J,
    sens_line (line_steady hi.fine.inv (hn u) h1 h2 hr) (show IsSensRhs (odeFn (lineOf (P u) (y ++ List.replicate y.length 0 ++ [])) y.length []) y [] (fun _ => none) S _
      from a1), a2⟩

theorem sensL_rhsP {q : List ℝ} {n K hd h0 m k lv k0 : Nat} (hq : q.length = 3)
    (hlv : lv < maxNestedStack) (hk : k < m) (hhd : hd = h0 + k * (n * (6 + 3 * q.length)))
    (hroom : hd + K ≤ cap) (hn : ∀ u, (P u).body.NoReal) (hm : ∀ u, (P u).body.Mild) :
    SensL W (rhsParam f P q) (CallableRhs P q n q.length K h0 m) (newCvsRhsPvar false q.length q f (rhsP P)) k0 hd lv := by
  intro g val adj s t u y S out hi hh hl hok
  obtain ⟨⟨rfl, hS, h1, h2, h3⟩, hS', hlen, hfull⟩ := hok
  have hcap : cap = tapeLimit := rfl
  have hr : t.tape.head + (6 * (y ++ List.replicate y.length 0 ++ q).length +
      (P u).body.cost (y ++ List.replicate y.length 0 ++ q)) ≤ tapeLimit := by
    simp only [List.length_append, List.length_replicate] at *
    omega
  have e0 := beginNested_ok t (by omega)
  obtain ⟨s0, f0, A0⟩ := blind_begin _ _ _ _ hi.akin e0
  obtain ⟨xv, s1, e1, e2⟩ := line_runL (W := W) A0 hi.fine.inv.begun (hn u) (hm u) h1 (by
    show t.tape.head + _ ≤ _
    exact hr)
  have hsame := (same_p (b := false) (ns := q.length) (by simp) (F := rhsP P) (G := odeP (fun _ => lineOf (P u) (y ++ List.replicate y.length 0 ++ q)) []) (f := f)
    (u := u) f0 e1 (fun yv fv qv h => by
      subst h
      simpa [rhsP, odeP] using e2) S out).2
  obtain ⟨out', s', t', e, a1, a2⟩ := sensL_p (W := W) (k0 := k0) (f := f)
    (P := fun _ => lineOf (P u) (y ++ List.replicate y.length 0 ++ q)) hq hlv hk hhd hroom
    (fun _ => proc_mild (hn u) (hm u) _) (u := u) (y := y) (S := S) out hi hh hl
    ⟨⟨rfl, hS, line_ok (hn u) h1, by rw [line_cost (hn u)]; exact h3⟩, hS', by rw [line_len (hn u)]; exact hlen,
      by rw [line_cost (hn u)]; exact hfull⟩
  exact ⟨out', s', t', fun J => by rw [hsame J]; exact e J,
    sens_line (line_steady hi.fine.inv (hn u) h1 h2 hr) (show IsSensRhs (odeFn (lineOf (P u) (y ++ List.replicate y.length 0 ++ q)) y.length []) y q some S _
      from a1), a2⟩

end Fz
