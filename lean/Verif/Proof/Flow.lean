import Verif.Proof.MirrorOde
import Verif.Spec.Flow

/-!
# Functions that solve differential equations on the way: derivatives
-/

set_option linter.unusedSectionVars false

namespace Fz
open Arith Spec

variable {W : Type} [Rep W ℝ] [LawfulRep W ℝ]
variable {E : Type} [NormedAddCommGroup E] [NormedSpace ℝ E]
variable {s t s' t' s'' t'' : St W} {g g' g'' : Graph ℝ} {val adj val' adj' val'' adj'' : Nat → ℝ}
  {D ε D' ε' D'' ε'' : Nat → E →L[ℝ] ℝ} {x0 : E} {env : List Var} {σ : E → List ℝ} {k0 : Nat}

/-- a later state: as `Grows`, without the contents of the free part of the table -/
structure Went (t : St W) (g : Graph ℝ) (val adj : Nat → ℝ) (D ε : Nat → E →L[ℝ] ℝ)
    (t' : St W) (g' : Graph ℝ) (val' adj' : Nat → ℝ) (D' ε' : Nat → E →L[ℝ] ℝ) (words : Nat) : Prop where
  pre : g.Prefix g'
  val : ∀ p < t.tape.head, val' p = val p
  adj : ∀ p < t.tape.head, adj' p = adj p
  dd : ∀ p < t.tape.head, D' p = D p
  ee : ∀ p < t.tape.head, ε' p = ε p
  news : ∀ nd ∈ g'.nodes.drop g.nodes.length, t.tape.head ≤ nd.pos ∧ adj' nd.pos = 0 ∧ ε' nd.pos = 0
  head : t'.tape.head = t.tape.head + words
  level : t'.level = t.level
  nest : ∀ k ≤ t.level, t'.nestTape k = t.nestTape k ∧ t'.nestVari k = t.nestVari k

theorem Went.refl (t : St W) (g : Graph ℝ) (val adj : Nat → ℝ) (D ε : Nat → E →L[ℝ] ℝ) :
    Went t g val adj D ε t g val adj D ε 0 :=
  ⟨Graph.Prefix.refl g, fun _ _ => rfl, fun _ _ => rfl, fun _ _ => rfl, fun _ _ => rfl,
    fun nd hn => by simp at hn, rfl, rfl, fun _ _ => ⟨rfl, rfl⟩⟩

theorem Went.trans {n m : Nat} (h : Went t g val adj D ε t' g' val' adj' D' ε' n)
    (h' : Went t' g' val' adj' D' ε' t'' g'' val'' adj'' D'' ε'' m) (i' : Inv t' g' val' adj') :
    Went t g val adj D ε t'' g'' val'' adj'' D'' ε'' (n + m) := by
  have hh := h.head
  have hh' := h'.head
  refine ⟨h.pre.trans h'.pre, ?_, ?_, ?_, ?_, ?_, by omega, by rw [h'.level, h.level], fun k hk => ?_⟩
  · intro p hp; rw [h'.val p (by omega), h.val p hp]
  · intro p hp; rw [h'.adj p (by omega), h.adj p hp]
  · intro p hp; rw [h'.dd p (by omega), h.dd p hp]
  · intro p hp; rw [h'.ee p (by omega), h.ee p hp]
  · intro nd hn
    rw [h.pre.drop h'.pre] at hn
    rcases List.mem_append.mp hn with hn | hn
    · obtain ⟨a1, a2, a3⟩ := h.news nd hn
      have := i'.node_lt (List.mem_of_mem_drop hn)
      rw [h'.adj _ this, h'.ee _ this]
      exact ⟨a1, a2, a3⟩
    · obtain ⟨a1, a2, a3⟩ := h'.news nd hn
      exact ⟨by omega, a2, a3⟩
  · obtain ⟨a1, a2⟩ := h.nest k hk
    obtain ⟨b1, b2⟩ := h'.nest k (by rw [h.level]; exact hk)
    exact ⟨b1.trans a1, b2.trans a2⟩

theorem Grows.went {n : Nat} {lf : Prop} (h : Grows lf t g val adj D ε t' g' val' adj' D' ε' n) :
    Went t g val adj D ε (scrub t') g' val' adj' D' ε' n :=
  ⟨h.pre, h.val, h.adj, h.dd, h.ee, fun nd hn => ⟨(h.news nd hn).1, (h.news nd hn).2.1, (h.news nd hn).2.2.1⟩, h.head,
    h.keep.level, fun k _ => ⟨congrFun h.keep.nestTape k, congrFun h.keep.nestVari k⟩⟩

theorem Tracks.went {n : Nat} (i : Inv t g val adj) (h : Went t g val adj D ε t' g' val' adj' D' ε' n) {v : Var}
    {f : E → ℝ} (tr : Tracks x0 g val D v f) : Tracks x0 g' val' D' v f := by
  have hlt := i.has_lt tr.has
  have hp := h.pre.pos tr.has
  exact ⟨h.pre.has tr.has, by rw [hp, h.val _ hlt]; exact tr.value, by rw [hp, h.dd _ hlt]; exact tr.deriv⟩

theorem EnvTracks.went {n : Nat} (i : Inv t g val adj) (h : Went t g val adj D ε t' g' val' adj' D' ε' n)
    (te : EnvTracks x0 g val D env σ) : EnvTracks x0 g' val' D' env σ := ⟨te.len, fun k hk => (te.tr k hk).went i h⟩

theorem EnvTracks.append {env' : List Var} {σ' : E → List ℝ} (te : EnvTracks x0 g val D env σ)
    (te' : EnvTracks x0 g val D env' σ') : EnvTracks x0 g val D (env ++ env') (fun x => σ x ++ σ' x) := by
  refine te.extend te'.len fun k hk => ?_
  have := te'.tr k hk
  have hl : lookV env' k = env'[k] := by simp [lookV, List.getD_eq_getElem?_getD, hk]
  rw [hl] at this
  exact this

theorem EnvTracks.pick (te : EnvTracks x0 g val D env σ) (is : List Nat) (h : ∀ i ∈ is, i < (σ x0).length) :
    EnvTracks x0 g val D (is.map (lookV env)) (fun x => is.map (look (σ x))) := by
  refine ⟨fun x => by simp, fun k hk => ?_⟩
  have hk' : k < is.length := by simpa using hk
  have := te.tr is[k] (by rw [← te.len x0]; exact h _ (List.getElem_mem hk'))
  have e1 : lookV (is.map (lookV env)) k = lookV env is[k] := by
    simp [lookV, List.getD_eq_getElem?_getD, List.getElem?_map, hk']
  have e2 : (fun x => look (is.map (look (σ x))) k) = fun x => look (σ x) is[k] := by
    funext x
    simp [look, List.getD_eq_getElem?_getD, List.getElem?_map, hk']
  rw [e1, e2]
  exact this

theorem Sim.move (h : Sim s g val adj D ε) (hi : Inv t g val adj) : Sim t g val adj D ε := ⟨hi, h.rules⟩

/-- all records fit after a step from a state whose free entries are harmless -/
theorem Fine.grown {n : Nat} (h : Fine t g val adj 0 True) (gr : Grows True t g val adj D ε t' g' val' adj' D' ε' n) :
    ∀ nd ∈ g'.nodes, nd.Fits val' := by
  intro nd hnd
  have hsplit : g'.nodes = g.nodes ++ g'.nodes.drop g.nodes.length := by
    obtain ⟨l, hl⟩ := gr.pre.nodes
    rw [← hl, List.drop_left]
  rw [hsplit] at hnd
  rcases List.mem_append.mp hnd with hnd | hnd
  · have hlt := h.inv.node_lt hnd
    refine Fits.congr (h.fits nd hnd) (gr.val _ hlt) fun p hp => gr.val _ ?_
    have := (h.inv.wf.args nd hnd p hp).1
    omega
  · rcases (gr.news nd hnd).2.2.2 with h4 | ⟨-, o1, o2, o3, k, hk, hc⟩
    · exact h4
    · intro ad
      obtain ⟨l, hl⟩ := h.leaf k hk (Or.inr trivial) (val' nd.pos) (ad nd.pos)
      refine ⟨l, ?_⟩
      unfold Node.contrib
      rw [o3, o1, o2, hc]
      exact hl

/-- one step of the run, and its twin -/
theorem Shade.grown {n : Nat} (h : Shade k0 s t g val adj) (hA : Akin (fun k => k0 ≤ k) s' t')
    (sim : Sim t' g' val' adj' D' ε') (gr : Grows True t g val adj D ε t' g' val' adj' D' ε' n) :
    Shade k0 s' (scrub t') g' val' adj' :=
  Shade.of hA sim.inv (h.fine.grown gr) (h.le.trans gr.keep.vhead)

theorem range_lookV (l : List Var) : (List.range l.length).map (lookV l) = l := by
  apply List.ext_getElem (by simp)
  intro n h1 h2
  simp [lookV, List.getD_eq_getElem?_getD, h2]

theorem range_look (l : List ℝ) : (List.range l.length).map (look l) = l := by
  apply List.ext_getElem (by simp)
  intro n h1 h2
  simp [look, List.getD_eq_getElem?_getD, h2]

theorem IsGradAt.partials {F : List ℝ → ℝ} {x df : List ℝ} (h : IsGradAt F x df) : PartialsAt F (fun _ => df) x := by
  obtain ⟨hl, hd⟩ := h
  refine ⟨hl, _, hd, fun y => ?_⟩
  simp only [ContinuousLinearMap.sum_apply, ContinuousLinearMap.smul_apply, ContinuousLinearMap.proj_apply, smul_eq_mul]
  rw [← List.sum_ofFn]
  congr 1
  apply List.ext_getElem
  · simp [hl]
  · intro n h1 h2
    have h3 : n < df.length := by simp at h1; omega
    simp [List.getD_eq_getElem?_getD, h3]

/-- the variables of one output time -/
theorem solVars_step {ops : List Var} {Z : E → List ℝ} {φ : List ℝ → List ℝ} {yS : List (List ℝ)} {n : Nat}
    (hS : yS.length = ops.length) (hS' : ∀ v ∈ yS, v.length = n) (hn : (φ (Z x0)).length = n)
    (hg : ∀ i < n, IsGradAt (fun w => (φ w).getD i 0) (Z x0) (yS.map fun v => v.getD i 0)) :
    ∀ (is : List Nat) {t : St W} {g : Graph ℝ} {val adj : Nat → ℝ} {D ε : Nat → E →L[ℝ] ℝ},
    Sim t g val adj D ε → EnvTracks x0 g val D ops Z → (∀ i ∈ is, i < n) →
    t.tape.head + is.length * (6 + 3 * ops.length) ≤ cap →
    ∃ vs t', solVars ops ops.length (φ (Z x0)) yS is t = .ok (vs, t') ∧
      ∃ g' val' adj' D' ε', Sim t' g' val' adj' D' ε' ∧
        Grows True t g val adj D ε t' g' val' adj' D' ε' (is.length * (6 + 3 * ops.length)) ∧
        EnvTracks x0 g' val' D' vs (fun x => is.map fun i => (φ (Z x)).getD i 0) := by
  intro is
  induction is with
  | nil =>
    intro t g val adj D ε h _ _ _
    refine ⟨[], t, rfl, g, val, adj, D, ε, h, ?_, fun _ => rfl, fun i hi => by simp at hi⟩
    simpa using Grows.refl t g val adj D ε
  | cons i is ih =>
    intro t g val adj D ε h te hi room
    have hlen : (i :: is).length * (6 + 3 * ops.length) = (6 + 3 * ops.length) + is.length * (6 + 3 * ops.length) := by
      simp [Nat.succ_mul, Nat.add_comm]
    rw [hlen] at room ⊢
    have hin := hi i (by simp)
    have hZ : ∀ x, (Z x).length = ops.length := te.len
    obtain ⟨g1, e1, hl⟩ := gather_total yS i t (List.range ops.length) (List.replicate ops.length zero)
      (fun k hk => by
        have := List.mem_range.mp hk
        simp
        omega) (fun v hv => by rw [hS' v hv]; exact hin)
    obtain ⟨-, hg1⟩ := gather_all e1
    have hg2 : g1 = yS.map fun v => v.getD i 0 := by
      rw [hg1]
      apply List.ext_getElem (by simp [hS])
      intro k h1 h2
      have : k < yS.length := by simpa using h2
      simp [List.getD_eq_getElem?_getD, this]
    have e2 : (deref (φ (Z x0))[i]? : M W ℝ) t = .ok ((φ (Z x0)).getD i 0, t) := by
      rw [List.getElem?_eq_getElem (by omega), List.getD_eq_getElem?_getD, List.getElem?_eq_getElem (by omega)]
      rfl
    have hps : ∀ x, (List.range ops.length).map (look (Z x)) = Z x := fun x => by rw [← hZ x]; exact range_look _
    have ht : ∀ k ∈ List.range ops.length, Tracks x0 g val D (lookV ops k) (fun x => look (Z x) k) :=
      fun k hk => te.tr k (List.mem_range.mp hk)
    have hd := partials_deriv (φ := fun w => (φ w).getD i 0) (dφ := fun _ => g1) (List.range ops.length) ht (by
      rw [hps, hg2]
      exact IsGradAt.partials (hg i hin))
    simp only [hps] at hd
    obtain ⟨t1, e3, g2, val2, adj2, D2, ε2, h2, gr2, tr2⟩ := step_partials (lf := True) h (List.range ops.length)
      (us := lookV ops) (F := fun k x => look (Z x) k) ht (φ := fun x => (φ (Z x)).getD i 0) (ds := g1) rfl
      (by simpa using hl) hd (by simpa using (by omega : t.tape.head + (6 + 3 * ops.length) ≤ cap))
    rw [range_lookV] at e3
    rw [List.length_range] at gr2
    have hh := gr2.head
    obtain ⟨vs, t2, e4, g3, val3, adj3, D3, ε3, h3, gr3, tr3⟩ := ih h2 (te.mono h.inv gr2)
      (fun j hj => hi j (by simp [hj])) (by omega)
    refine ⟨⟨t.vhead⟩ :: vs, t2, ?_, g3, val3, adj3, D3, ε3, h3, gr2.trans gr3 h2.inv, ?_⟩
    · unfold solVars
      rw [bind_ok e1, bind_ok e2, bind_ok e3, bind_ok e4]
      rfl
    · have := EnvTracks.append (env := [⟨t.vhead⟩]) (σ := fun x => [(φ (Z x)).getD i 0]) (x0 := x0) (g := g3)
        (val := val3) (D := D3) ⟨fun _ => rfl, fun k hk => ?_⟩ tr3
      · simpa using this
      · have hk0 : k = 0 := by simpa using hk
        subst hk0
        exact tr2.mono h2.inv gr3

/-- all output times -/
theorem solLoop_step {pr : Problem} {ok : ℝ → List ℝ → List (List ℝ) → Prop} {ode : CvsRhs W ℝ} {lv : Nat} {τ : Type}
    (hf : pr.f = ode.f) (sv : Solver ℝ τ) (n : Nat) {ops : List Var} (hns : ode.ns = ops.length) {Z : E → List ℝ} :
    ∀ (ts : List ℝ) (φs : List (List ℝ → List ℝ)) (mem : τ) {s t : St W} {g : Graph ℝ} {val adj : Nat → ℝ}
      {D ε : Nat → E →L[ℝ] ℝ} {y0 : List ℝ},
    Shade k0 s t g val adj → Sim t g val adj D ε → t.level = lv → EnvTracks x0 g val D ops Z →
    t.tape.head + ts.length * (n * (6 + 3 * ops.length)) ≤ cap →
    (∀ k < ts.length, SensL W pr ok ode k0 (t.tape.head + k * (n * (6 + 3 * ops.length))) lv) →
    AsksAll pr sv ok ts mem → Right pr sv n (Z x0) ts mem φs →
    (∀ φ ∈ φs, ∀ w, w.length = (Z x0).length → (φ w).length = n) →
    ∃ yt y1 s', (∀ J : Junk W ℝ, solLoopL J sv ode ops n ts mem y0 s = .ok ((yt, y1), s')) ∧
      ∃ t' g' val' adj' D' ε', Shade k0 s' t' g' val' adj' ∧ Sim t' g' val' adj' D' ε' ∧
      Went t g val adj D ε t' g' val' adj' D' ε' (ts.length * (n * (6 + 3 * ops.length))) ∧
      EnvTracks x0 g' val' D' yt.flatten (fun x => φs.flatMap fun φ => φ (Z x)) := by
  intro ts
  induction ts with
  | nil =>
    intro φs mem s t g val adj D ε y0 h H _ _ _ _ _ hr _
    cases φs with
    | nil =>
      exact ⟨[], y0, s, fun _ => rfl, t, g, val, adj, D, ε, h, H, by simpa using Went.refl t g val adj D ε,
        fun _ => rfl, fun i hi => by simp at hi⟩
    | cons => exact hr.elim
  | cons t0 ts ih =>
    intro φs mem s t g val adj D ε y0 h H hlv te room hs ha hr hshape
    cases φs with
    | nil => exact hr.elim
    | cons φ φs =>
    have hlen : (t0 :: ts).length * (n * (6 + 3 * ops.length)) =
        n * (6 + 3 * ops.length) + ts.length * (n * (6 + 3 * ops.length)) := by
      simp [Nat.succ_mul, Nat.add_comm]
    rw [hlen] at room ⊢
    have hs0 := hs 0 (by simp)
    rw [Nat.zero_mul, Nat.add_zero] at hs0
    obtain ⟨⟨ierr, y, yS, mem'⟩, s1, t1, e1, hsol, h1, hh1, hl1, hn1⟩ := answerL_total hf
      hs0 (sv.step mem t0) h rfl hlv ha.1
    obtain ⟨rfl, hy, hS, hS', hgr⟩ := hr.1 _ hsol
    simp only at hy hS hS' hgr
    subst hy
    have H1 := H.move h1.fine.inv
    have hZ : (Z x0).length = ops.length := te.len x0
    obtain ⟨vs, t2, e2, g2, val2, adj2, D2, ε2, H2, gr2, te2⟩ := solVars_step (φ := φ) (yS := yS) (n := n)
      (hS.trans hZ) hS' (hshape φ (by simp) _ rfl) hgr (List.range n) H1 te (fun i hi => List.mem_range.mp hi)
      (by rw [hh1, List.length_range]; omega)
    rw [List.length_range] at gr2
    obtain ⟨s2, f2, A2⟩ := blind_solVars _ _ _ _ _ _ _ _ _ h1.akin e2
    have h3 := h1.grown A2 H2 gr2
    have w1 : Went t g val adj D ε t1 g val adj D ε 0 :=
      ⟨Graph.Prefix.refl g, fun _ _ => rfl, fun _ _ => rfl, fun _ _ => rfl, fun _ _ => rfl,
        fun nd hn => by simp at hn, by omega, by omega, fun k hk => hn1 k (by omega)⟩
    have w2 := w1.trans gr2.went h1.fine.inv
    rw [Nat.zero_add] at w2
    have hvs : EnvTracks x0 g2 val2 D2 vs (fun x => φ (Z x)) := by
      have : (fun x => (List.range n).map fun i => (φ (Z x)).getD i 0) = fun x => φ (Z x) := by
        funext x
        have hφ := hshape φ (by simp) (Z x) (by rw [hZ]; exact te.len x)
        have := range_look (φ (Z x))
        rw [hφ] at this
        exact this
      rw [this] at te2
      exact te2
    have hb : (scrub t2).tape.head = t.tape.head + n * (6 + 3 * ops.length) := w2.head
    obtain ⟨rest, y1, s3, e3, t3, g3, val3, adj3, D3, ε3, h4, H4, w3, te3⟩ := ih φs mem' (y0 := φ (Z x0)) h3
      (H2.move h3.fine.inv) (by rw [w2.level]; exact hlv) (te.went H.inv w2) (by omega)
      (fun k hk => by
        have := hs (k + 1) (by simpa using hk)
        rw [hb]
        rw [Nat.succ_mul, Nat.add_comm (k * _), ← Nat.add_assoc] at this
        exact this) (ha.2 _ yS mem' hsol) (hr.2 _ yS mem' hsol) (fun φ' h' => hshape φ' (by simp [h']))
    refine ⟨vs :: rest, y1, s3, fun J => ?_, t3, g3, val3, adj3, D3, ε3, h4, H4, w2.trans w3 h3.fine.inv, ?_⟩
    · unfold solLoopL
      rw [bind_ok (e1 J)]
      simp only [ne_eq, not_true_eq_false, if_false]
      have f2' : solVars ops ode.ns (φ (Z x0)) yS (List.range n) s1 = .ok (vs, s2) := by rw [hns]; exact f2
      rw [bind_ok f2', bind_ok (e3 J)]
      rfl
    · have := (hvs.went h3.fine.inv w3).append te3
      simpa using this

/-- initial values computed before -/
theorem init_step {τ : Type} {e : Ivp τ} {is : List Nat} (h : Shade k0 s t g val adj) (H : Sim t g val adj D ε)
    (hlv : t.level < maxNestedStack) (te : EnvTracks x0 g val D env σ) (hi : ∀ i ∈ is, i < (σ x0).length)
    (h0 : 0 < is.length)
    (hok : e.Ok (initProblem e.f e.p) [] is.length (is.map (look (σ x0)))
        (e.sv.init e.t0 (is.map (look (σ x0))) (unitVectors is.length)) t.tape.head) :
    ∃ yt s', (∀ J : Junk W ℝ, cvodesSolY0L J e.sv e.t0 (is.map (lookV env)) e.ts e.f (odeY e.p []) s = .ok (yt, s')) ∧
      ∃ t' g' val' adj' D' ε', Shade k0 s' t' g' val' adj' ∧ Sim t' g' val' adj' D' ε' ∧
      Went t g val adj D ε t' g' val' adj' D' ε' (e.ts.length * (is.length * (6 + 3 * is.length))) ∧
      EnvTracks x0 g' val' D' yt.flatten (fun x => e.states (is.map (look (σ x)))) := by
  obtain ⟨hm, room, ha, hr, hsh⟩ := hok
  rw [List.length_map] at room ha hsh
  have tp := te.pick is hi
  have hcap : cap = tapeLimit := rfl
  have hv := H.inv.varVals (vs := is.map (lookV env)) (fun v hv => by
    obtain ⟨i, hi', rfl⟩ := List.mem_map.mp hv
    exact (te.tr i (by rw [← te.len x0]; exact hi i hi')).has)
  have hvv : ((is.map (lookV env)).map fun v => val (g.pos v)) = is.map (look (σ x0)) := by
    rw [List.map_map]
    exact List.map_congr_left fun i hi' => ((te.tr i (by rw [← te.len x0]; exact hi i hi')).value).symm
  rw [hvv] at hv
  obtain ⟨s1, f1, A1⟩ := blind_vals _ _ _ _ _ h.akin hv
  obtain rfl := vals_st f1
  obtain ⟨yt, y1, s', e1, t', g', val', adj', D', ε', h1, H1, w1, te1⟩ := solLoop_step (x0 := x0) (k0 := k0) (lv := t.level)
    (pr := initProblem e.f e.p) (ok := CallableL e.p [] is.length is.length e.words t.tape.head e.ts.length)
    (ode := newCvsRhsYvar true is.length e.f (odeY e.p [])) rfl e.sv is.length (ops := is.map (lookV env))
    (by simp [newCvsRhsYvar]) (Z := fun x => is.map (look (σ x))) e.ts e.sol _ (y0 := is.map (look (σ x0))) h H rfl tp
    (by rw [List.length_map]; omega) (fun k hk => by
      rw [List.length_map]
      exact sensL_y hlv hk rfl h0 (by
        have : k * (is.length * (6 + 3 * is.length)) ≤ e.ts.length * (is.length * (6 + 3 * is.length)) :=
          Nat.mul_le_mul_right _ (by omega)
        omega) hm) ha hr (by simpa using hsh)
  rw [List.length_map] at w1
  refine ⟨yt, s', fun J => ?_, t', g', val', adj', D', ε', h1, H1, w1, te1⟩
  unfold cvodesSolY0L
  rw [bind_ok f1]
  have := e1 J
  rw [← sensInit_y is.length e.f (odeY (W := W) e.p [])] at this
  simp only [List.length_map]
  rw [bind_ok this]
  rfl

/-- parameters computed before -/
theorem par_step {τ : Type} {e : Ivp τ} {y : List ℝ} {is : List Nat} (h : Shade k0 s t g val adj) (H : Sim t g val adj D ε)
    (hlv : t.level < maxNestedStack) (te : EnvTracks x0 g val D env σ) (hi : ∀ i ∈ is, i < (σ x0).length)
    (h3 : is.length = 3)
    (hok : e.Ok (paramProblem e.f e.p (is.map (look (σ x0)))) (is.map (look (σ x0))) y.length (is.map (look (σ x0)))
        (e.sv.init e.t0 y (List.replicate 3 (List.replicate y.length 0))) t.tape.head) :
    ∃ r s', (∀ J : Junk W ℝ, cvodesSolParL J e.sv e.t0 y e.ts (is.map (lookV env)) e.f (odeP e.p []) s = .ok (r, s')) ∧
      ∃ t' g' val' adj' D' ε', Shade k0 s' t' g' val' adj' ∧ Sim t' g' val' adj' D' ε' ∧
      Went t g val adj D ε t' g' val' adj' D' ε' (e.ts.length * (y.length * (6 + 3 * 3))) ∧
      EnvTracks x0 g' val' D' r.1.flatten (fun x => e.states (is.map (look (σ x)))) := by
  obtain ⟨hm, room, ha, hr, hsh⟩ := hok
  have tp := te.pick is hi
  have hcap : cap = tapeLimit := rfl
  have hv := H.inv.varVals (vs := is.map (lookV env)) (fun v hv => by
    obtain ⟨i, hi', rfl⟩ := List.mem_map.mp hv
    exact (te.tr i (by rw [← te.len x0]; exact hi i hi')).has)
  have hvv : ((is.map (lookV env)).map fun v => val (g.pos v)) = is.map (look (σ x0)) := by
    rw [List.map_map]
    exact List.map_congr_left fun i hi' => ((te.tr i (by rw [← te.len x0]; exact hi i hi')).value).symm
  rw [hvv] at hv
  obtain ⟨s1, f1, A1⟩ := blind_vals _ _ _ _ _ h.akin hv
  obtain rfl := vals_st f1
  generalize hq : is.map (look (σ x0)) = q at *
  have hql : q.length = 3 := by rw [← hq, List.length_map, h3]
  have hol : (is.map (lookV env)).length = q.length := by rw [List.length_map, h3, hql]
  obtain ⟨yt, y1, s', e1, t', g', val', adj', D', ε', h1, H1, w1, te1⟩ := solLoop_step (x0 := x0) (k0 := k0) (lv := t.level)
    (pr := paramProblem e.f e.p q) (ok := CallableL e.p q y.length q.length e.words t.tape.head e.ts.length)
    (ode := newCvsRhsPvar false q.length q e.f (odeP e.p [])) rfl e.sv y.length (ops := is.map (lookV env))
    (by simp [newCvsRhsPvar, hol]) (Z := fun x => is.map (look (σ x))) e.ts e.sol _ (y0 := y) h H rfl tp
    (by rw [hol]; omega) (fun k hk => by
      rw [hol]
      exact sensL_p hql hlv hk rfl (by
        have : k * (y.length * (6 + 3 * q.length)) ≤ e.ts.length * (y.length * (6 + 3 * q.length)) :=
          Nat.mul_le_mul_right _ (by omega)
        omega) hm) ha (by rw [hq]; exact hr) (by rw [hq]; exact hsh)
  rw [hol, hql] at w1
  refine ⟨(yt, y1), s', fun J => ?_, t', g', val', adj', D', ε', h1, H1, w1, te1⟩
  unfold cvodesSolParL
  rw [bind_ok f1]
  have := e1 J
  rw [← hql, ← sensInit_p y.length q.length q e.f (odeP (W := W) e.p [])] at this
  rw [hol]
  exact this

/-- near the point the same is done -/
theorem EnvTracks.steadily {τ : Type} {k : ℝ → Flow τ} (te : EnvTracks x0 g val D env σ) {i : Nat}
    (hi : i < (σ x0).length) (h : Steadily k (look (σ x0) i) (σ x0)) :
    ∀ᶠ x in nhds x0, (k (look (σ x) i)).sem (σ x) = (k (look (σ x0) i)).sem (σ x) := by
  obtain ⟨δ, hδ, hs⟩ := h
  have near : ∀ j < env.length, ∀ᶠ x in nhds x0, |look (σ x) j - look (σ x0) j| < δ := fun j hj =>
    (te.tr j hj).deriv.continuousAt.eventually (Metric.ball_mem_nhds _ hδ)
  have all : ∀ᶠ x in nhds x0, ∀ j < env.length, |look (σ x) j - look (σ x0) j| < δ :=
    (Set.finite_lt_nat env.length).eventually_all.mpr near
  filter_upwards [all] with x hx
  have hl : (σ x).length = (σ x0).length := by rw [te.len x, te.len x0]
  refine hs _ (hx i (by rw [← te.len x0]; exact hi)) _ hl fun j => ?_
  by_cases hj : j < env.length
  · exact hx j hj
  · have h1 : look (σ x) j = 0 := by
      unfold look
      rw [List.getD_eq_getElem?_getD, List.getElem?_eq_none (by rw [te.len x]; omega)]
      rfl
    have h2 : look (σ x0) j = 0 := by
      unfold look
      rw [List.getD_eq_getElem?_getD, List.getElem?_eq_none (by rw [te.len x0]; omega)]
      rfl
    rw [h1, h2]
    simpa using hδ

/-- the whole function -/
theorem flow_step {τ : Type} : ∀ (fl : Flow τ) {s t : St W} {g : Graph ℝ} {val adj : Nat → ℝ} {D ε : Nat → E →L[ℝ] ℝ}
    {env : List Var} {σ : E → List ℝ}, Shade k0 s t g val adj → Sim t g val adj D ε → t.level < maxNestedStack →
    EnvTracks x0 g val D env σ → fl.Ok t.tape.head (σ x0) →
    ∃ outs s', (∀ J : Junk W ℝ, (fl.runL J env : M W (List Var)) s = .ok (outs, s')) ∧
      ∃ t' g' val' adj' D' ε' n, Shade k0 s' t' g' val' adj' ∧ Sim t' g' val' adj' D' ε' ∧
      Went t g val adj D ε t' g' val' adj' D' ε' n ∧ (∀ j, t'.tape.head ≠ 12288 * 2 ^ j + 1) ∧
      outs.length = (fl.sem (σ x0)).length ∧
      ∀ k (h : k < outs.length), Tracks x0 g' val' D' outs[k] (fun x => (fl.sem (σ x)).getD k 0) := by
  intro fl
  induction fl with
  | ret outs =>
    intro s t g val adj D ε env σ h H _ te hok
    refine ⟨outs.map (lookV env), s, fun _ => rfl, t, g, val, adj, D, ε, 0, h, H, Went.refl _ _ _ _ _ _, hok.2,
      by simp [Flow.sem], ?_⟩
    intro k hk
    have hk' : k < outs.length := by simpa using hk
    have ht := te.tr outs[k] (by rw [← te.len x0]; exact hok.1 _ (List.getElem_mem hk'))
    simpa [Flow.sem, List.getD_eq_getElem?_getD, List.getElem?_map, List.getElem?_eq_getElem hk'] using ht
  | op i k ih =>
    intro s t g val adj D ε env σ h H hlv te hok
    obtain ⟨hm, hi, room, hk⟩ := hok
    obtain ⟨vs, t1, e1, g1, val1, adj1, D1, ε1, H1, gr, te1⟩ := instr_step (lf := True) H te i hi room (fun _ => trivial)
    obtain ⟨s1, f1, A1⟩ := blind_instr hm _ _ _ _ _ h.akin e1
    have h1 := h.grown A1 H1 gr
    have w1 := gr.went
    obtain ⟨outs, s2, e2, t2, g2, val2, adj2, D2, ε2, n, h2, H2, w2, r⟩ := ih h1 (H1.move h1.fine.inv)
      (by rw [w1.level]; exact hlv) te1 (by rw [w1.head]; exact hk)
    refine ⟨outs, s2, fun J => ?_, t2, g2, val2, adj2, D2, ε2, _, h2, H2, w1.trans w2 h1.fine.inv, r⟩
    simp only [Flow.runL]
    rw [bind_ok f1]
    exact e2 J
  | ifVV o i j p q ihp ihq =>
    intro s t g val adj D ε env σ h H hlv te hok
    obtain ⟨h1, h2, hne, hp, hq⟩ := hok
    have t1 := te.tr i (by rw [← te.len x0]; exact h1)
    have t2 := te.tr j (by rw [← te.len x0]; exact h2)
    have er := relVV_ok H.inv t1.has t2.has o.op
    rw [← t1.value, ← t2.value] at er
    obtain ⟨s1, f1, A1⟩ := blind_relVV _ _ _ _ _ _ _ h.akin er
    have h' : Shade k0 s1 t g val adj := ⟨A1, h.fine, h.le⟩
    have st := Rel.stable o t1.deriv.continuousAt t2.deriv.continuousAt hne
    by_cases hc : o.holds (look (σ x0) i) (look (σ x0) j)
    · obtain ⟨outs, s2, e2, t2, g2, val2, adj2, D2, ε2, n, h2, H2, w2, b1, b2, b3⟩ := ihp h' H hlv te (hp hc)
      refine ⟨outs, s2, fun J => ?_, t2, g2, val2, adj2, D2, ε2, n, h2, H2, w2, b1, ?_, fun k hk => ?_⟩
      · simp only [Flow.runL]
        rw [bind_ok f1, if_pos ((Rel.op_cmp _ _ _).mpr hc)]
        exact e2 J
      · simp only [Flow.sem]
        rw [if_pos hc]
        exact b2
      · refine (b3 k hk).congr (st.mono fun x hx => ?_)
        simp only [Flow.sem]
        rw [if_pos (hx.mpr hc)]
    · obtain ⟨outs, s2, e2, t2, g2, val2, adj2, D2, ε2, n, h2, H2, w2, b1, b2, b3⟩ := ihq h' H hlv te (hq hc)
      refine ⟨outs, s2, fun J => ?_, t2, g2, val2, adj2, D2, ε2, n, h2, H2, w2, b1, ?_, fun k hk => ?_⟩
      · simp only [Flow.runL]
        rw [bind_ok f1, if_neg (fun hh => hc ((Rel.op_cmp _ _ _).mp hh))]
        exact e2 J
      · simp only [Flow.sem]
        rw [if_neg hc]
        exact b2
      · refine (b3 k hk).congr (st.mono fun x hx => ?_)
        simp only [Flow.sem]
        rw [if_neg (fun hh => hc (hx.mp hh))]
  | ifVD o i d p q ihp ihq =>
    intro s t g val adj D ε env σ h H hlv te hok
    obtain ⟨h1, hne, hp, hq⟩ := hok
    have t1 := te.tr i (by rw [← te.len x0]; exact h1)
    have er := relVD_ok H.inv t1.has o.op d
    rw [← t1.value] at er
    have hbl : Blind (fun k => k0 ≤ k) (relVD (R := ℝ) o.op (lookV env i) d : M W Bool) :=
      .bind (blind_val _) fun _ => .pure _
    obtain ⟨s1, f1, A1⟩ := hbl _ _ _ _ h.akin er
    have h' : Shade k0 s1 t g val adj := ⟨A1, h.fine, h.le⟩
    have st := Rel.stable o t1.deriv.continuousAt (continuousAt_const (y := d)) hne
    by_cases hc : o.holds (look (σ x0) i) d
    · obtain ⟨outs, s2, e2, t2, g2, val2, adj2, D2, ε2, n, h2, H2, w2, b1, b2, b3⟩ := ihp h' H hlv te (hp hc)
      refine ⟨outs, s2, fun J => ?_, t2, g2, val2, adj2, D2, ε2, n, h2, H2, w2, b1, ?_, fun k hk => ?_⟩
      · simp only [Flow.runL]
        rw [bind_ok f1, if_pos ((Rel.op_cmp _ _ _).mpr hc)]
        exact e2 J
      · simp only [Flow.sem]
        rw [if_pos hc]
        exact b2
      · refine (b3 k hk).congr (st.mono fun x hx => ?_)
        simp only [Flow.sem]
        rw [if_pos (hx.mpr hc)]
    · obtain ⟨outs, s2, e2, t2, g2, val2, adj2, D2, ε2, n, h2, H2, w2, b1, b2, b3⟩ := ihq h' H hlv te (hq hc)
      refine ⟨outs, s2, fun J => ?_, t2, g2, val2, adj2, D2, ε2, n, h2, H2, w2, b1, ?_, fun k hk => ?_⟩
      · simp only [Flow.runL]
        rw [bind_ok f1, if_neg (fun hh => hc ((Rel.op_cmp _ _ _).mp hh))]
        exact e2 J
      · simp only [Flow.sem]
        rw [if_neg hc]
        exact b2
      · refine (b3 k hk).congr (st.mono fun x hx => ?_)
        simp only [Flow.sem]
        rw [if_neg (fun hh => hc (hx.mp hh))]
  | look i k ih =>
    intro s t g val adj D ε env σ h H hlv te hok
    obtain ⟨h1, hst, hk⟩ := hok
    have t1 := te.tr i (by rw [← te.len x0]; exact h1)
    have er := H.inv.varVal t1.has
    rw [← t1.value] at er
    obtain ⟨s1, f1, A1⟩ := blind_val _ _ _ _ _ h.akin er
    have h' : Shade k0 s1 t g val adj := ⟨A1, h.fine, h.le⟩
    obtain ⟨outs, s2, e2, t2, g2, val2, adj2, D2, ε2, n, h2, H2, w2, b1, b2, b3⟩ := ih _ h' H hlv te hk
    refine ⟨outs, s2, fun J => ?_, t2, g2, val2, adj2, D2, ε2, n, h2, H2, w2, b1, b2, fun j hj => ?_⟩
    · simp only [Flow.runL]
      rw [bind_ok f1]
      exact e2 J
    · refine (b3 j hj).congr ((te.steadily h1 hst).mono fun x hx => ?_)
      simp only [Flow.sem]
      rw [hx]
  | init e is k ih =>
    intro s t g val adj D ε env σ h H hlv te hok
    obtain ⟨hi, h0, he, hk⟩ := hok
    obtain ⟨yt, s1, e1, t1, g1, val1, adj1, D1, ε1, h1, H1, w1, te1⟩ := init_step h H hlv te hi h0 he
    obtain ⟨outs, s2, e2, t2, g2, val2, adj2, D2, ε2, n, h2, H2, w2, r⟩ := ih h1 H1
      (by rw [w1.level]; exact hlv) ((te.went H.inv w1).append te1) (by rw [w1.head]; exact hk)
    refine ⟨outs, s2, fun J => ?_, t2, g2, val2, adj2, D2, ε2, _, h2, H2, w1.trans w2 h1.fine.inv, r⟩
    simp only [Flow.runL]
    rw [bind_ok (e1 J)]
    exact e2 J
  | par e y is k ih =>
    intro s t g val adj D ε env σ h H hlv te hok
    obtain ⟨hi, h3, he, hk⟩ := hok
    obtain ⟨r, s1, e1, t1, g1, val1, adj1, D1, ε1, h1, H1, w1, te1⟩ := par_step h H hlv te hi h3 he
    obtain ⟨outs, s2, e2, t2, g2, val2, adj2, D2, ε2, n, h2, H2, w2, r⟩ := ih h1 H1
      (by rw [w1.level]; exact hlv) ((te.went H.inv w1).append te1) (by rw [w1.head]; exact hk)
    refine ⟨outs, s2, fun J => ?_, t2, g2, val2, adj2, D2, ε2, _, h2, H2, w1.trans w2 h1.fine.inv, r⟩
    simp only [Flow.runL]
    rw [bind_ok (e1 J)]
    exact e2 J

end Fz
