import Verif.Spec.Partial
import Verif.Proof.Outer
import Verif.Proof.Linear
import Verif.Proof.Views

/-!
# The chain rule for computations on arbitrary variables
-/

set_option linter.unusedSectionVars false

namespace Fz
open Arith Spec

variable {W : Type} [Rep W ℝ] [LawfulRep W ℝ]
variable {s s' : St W} {g g' : Graph ℝ} {val adj val' adj' : Nat → ℝ} {x : List ℝ} {p : Prog}

/-- the source at the variable at position `q` -/
noncomputable def srcAt (q : Nat) : Nat → ℝ →L[ℝ] ℝ := fun k => if k = q then 1 else 0

/-- the sweep computes the tangents of a source -/
theorem rate_ok {D ε : Nat → ℝ →L[ℝ] ℝ} (h : Sim s g val adj D ε) {u : Var} (hu : g.Has u)
    (hε : ∀ nd ∈ g.nodes, ε nd.pos = srcAt (g.pos u) nd.pos) (hf : ∀ nd ∈ g.nodes, nd.Fits val) {v : Var}
    (hv : g.Has v) : rate s v u = .ok (D (g.pos v) 1) := by
  obtain ⟨m, a, e1, i1, hz⟩ := h.inv.setZeroAllAdj_ok
  obtain ⟨m', e2, i2⟩ := i1.grad_ok hv hf
  have e : (partialOf v u : M W ℝ) s = .ok (sweep val g.nodes (upd a (g.pos v) one) (g.pos u), (s.withMem m).withMem m') := by
    unfold partialOf
    rw [bind_ok e1, bind_ok e2]
    exact i2.varAdj hu
  unfold rate
  rw [e]
  have key := sweep_all h.inv.wf h.rules hf (upd a (g.pos v) one)
  have nd := h.inv.wf.nodup
  obtain ⟨x, hx, hxp⟩ := hv.mem_pos
  obtain ⟨y, hy, hyp⟩ := hu.mem_pos
  rw [pair_single _ nd _ _ (g.pos v) (hxp ▸ List.mem_map_of_mem hx), upd_self,
    pair_single _ nd _ _ (g.pos u) (hyp ▸ List.mem_map_of_mem hy)] at key
  · rw [← hyp, hε y hy, hyp] at key
    have := congrArg (fun L : ℝ →L[ℝ] ℝ => L 1) key
    simp [srcAt, Arith.one] at this
    exact congrArg Except.ok this.symm
  · intro q hq hne
    obtain ⟨z, hz', rfl⟩ := List.mem_map.mp hq
    rw [hε z hz', srcAt, if_neg hne, smul_zero]
  · intro q hq hne
    obtain ⟨z, hz', rfl⟩ := List.mem_map.mp hq
    rw [upd_ne _ _ hne, hz z hz']
    exact zero_smul _ _

/-- if the sweep from some variable completes, no record fails -/
theorem rate_fits (h : Inv s g val adj) (hok : ∀ nd ∈ g.nodes, nd.ChainOK ∨ nd.Fits val) {v u : Var}
    (hv : g.Has v) {a : ℝ} (e : rate s v u = .ok a) : ∀ nd ∈ g.nodes, nd.Fits val := by
  obtain ⟨m, b, e1, i1, hz⟩ := h.setZeroAllAdj_ok
  unfold rate partialOf at e
  rw [bind_ok e1] at e
  cases e2 : (v.grad : M W Unit) (s.withMem m) with
  | error x => rw [show ((v.grad : M W Unit) >>= fun _ => u.adj (R := ℝ)) (s.withMem m) = .error x by
      show Except.bind _ _ = _; rw [e2]; rfl] at e; cases e
  | ok r => exact (grad_run i1 hok hv e2).1

/-- the values of the variables moved by their tangents -/
theorem env_affine {D ε : Nat → ℝ →L[ℝ] ℝ} (h : Sim s g val adj D ε) {env : List Var} (he : ∀ v ∈ env, g.Has v) :
    EnvTracks (0 : ℝ) g val D env
      (along (env.map fun v => val (g.pos v)) (env.map fun v => D (g.pos v) 1)) := by
  refine ⟨fun t => by simp [along], fun i hi => ?_⟩
  have hlook : lookV env i = env[i] := by simp [lookV, List.getD_eq_getElem?_getD, hi]
  have hfn : (fun t => look (along (env.map fun v => val (g.pos v)) (env.map fun v => D (g.pos v) 1) t) i) =
      fun t => val (g.pos env[i]) + t * D (g.pos env[i]) 1 := by
    funext t
    simp [look, along, List.getD_eq_getElem?_getD, List.getElem?_zipWith, hi]
  rw [hlook, hfn]
  refine ⟨he _ (List.getElem_mem hi), by simp, ?_⟩
  have h1 : HasDerivAt (fun t : ℝ => val (g.pos env[i]) + t * D (g.pos env[i]) 1) (D (g.pos env[i]) 1) 0 := by
    simpa using ((hasDerivAt_id (0:ℝ)).mul_const (D (g.pos env[i]) 1)).const_add (val (g.pos env[i]))
  have h2 := h1.hasFDerivAt
  have h3 : (ContinuousLinearMap.toSpanSingleton ℝ (D (g.pos env[i]) 1)) = D (g.pos env[i]) := by
    ext
    simp
  rwa [h3] at h2

/-- the tangents `D` are the derivatives with respect to `u`, and sweeps do not fail -/
structure Rated (s : St W) (g : Graph ℝ) (val adj : Nat → ℝ) (D ε : Nat → ℝ →L[ℝ] ℝ) (u : Var) : Prop where
  sim : Sim s g val adj D ε
  has : g.Has u
  eps : ∀ nd ∈ g.nodes, ε nd.pos = srcAt (g.pos u) nd.pos
  fits : ∀ nd ∈ g.nodes, nd.Fits val

theorem Rated.of (h : Inv s g val adj) (hcok : ∀ nd ∈ g.nodes, nd.ChainOK ∨ nd.Fits val) {u v : Var}
    (hu : g.Has u) (hv : g.Has v) {a : ℝ} (e : rate s v u = .ok a) : ∃ D ε, Rated s g val adj D ε u := by
  obtain ⟨D, hD⟩ := h.wf.tangent val (srcAt (g.pos u))
  exact ⟨D, _, ⟨h, hD⟩, hu, fun _ _ => rfl, rate_fits h hcok hv e⟩

theorem Rated.rate {D ε : Nat → ℝ →L[ℝ] ℝ} {u v : Var} (h : Rated s g val adj D ε u) (hv : g.Has v) :
    Spec.rate s v u = .ok (D (g.pos v) 1) := rate_ok h.sim h.has h.eps h.fits hv

/-- records whose contributions are known keep the tangents -/
theorem Rated.grown {D ε D' ε' : Nat → ℝ →L[ℝ] ℝ} {u : Var} {n : Nat} (h : Rated s g val adj D ε u)
    (sim : Sim s' g' val' adj' D' ε') (gr : Grows False s g val adj D ε s' g' val' adj' D' ε' n) :
    Rated s' g' val' adj' D' ε' u := by
  have hu := h.has
  have hi := h.sim.inv
  have hsplit : g'.nodes = g.nodes ++ g'.nodes.drop g.nodes.length := by
    obtain ⟨l, hl⟩ := gr.pre.nodes
    rw [← hl, List.drop_left]
  refine ⟨sim, gr.pre.has hu, ?_, ?_⟩
  · intro nd hnd
    rw [gr.pre.pos hu]
    rw [hsplit] at hnd
    rcases List.mem_append.mp hnd with hnd | hnd
    · rw [gr.ee _ (hi.node_lt hnd)]
      exact h.eps nd hnd
    · obtain ⟨h1, h2, h3, -⟩ := gr.news nd hnd
      have h4 := hi.has_lt hu
      rw [h3, srcAt, if_neg (by omega)]
  · intro nd hnd
    rw [hsplit] at hnd
    rcases List.mem_append.mp hnd with hnd | hnd
    · refine Fits.congr (h.fits nd hnd) (gr.val _ (hi.node_lt hnd)) fun q hq => gr.val _ ?_
      have := (hi.wf.args nd hnd q hq).1
      have := hi.node_lt hnd
      omega
    · obtain ⟨-, -, -, h4⟩ := gr.news nd hnd
      exact h4.resolve_right fun h => h.1

theorem along_zero {ys bs : List ℝ} (hl : bs.length = ys.length) : along ys bs 0 = ys := by
  apply List.ext_getElem
  · simp [along, hl]
  · intro i h1 h2
    simp [along]

/-- **chain rule** for one instruction, with all its results -/
theorem Rated.instr {D ε : Nat → ℝ →L[ℝ] ℝ} {u : Var} (h : Rated s g val adj D ε u) {env : List Var} {i : Instr}
    (he : ∀ v ∈ env, g.Has v) (hok : i.Ok (env.map fun v => val (g.pos v))) (hnc : ¬ isConst i)
    (hroom : s.tape.head + i.cost (env.map fun v => val (g.pos v)) ≤ cap) :
    ∃ outs s', (i.run env : M W (List Var)) s = .ok (outs, s') ∧
      ∃ g' val' adj' D' ε', Rated s' g' val' adj' D' ε' u ∧ g.Prefix g' ∧ (∀ q < s.tape.head, D' q = D q) ∧
      (∀ q < s.tape.head, val' q = val q) ∧ (∀ q < s.tape.head, adj' q = adj q) ∧
      s'.tape.head = s.tape.head + i.cost (env.map fun v => val (g.pos v)) ∧
      outs.length = (i.sem (env.map fun v => val (g.pos v))).length ∧
      ∀ k (hk : k < outs.length), g'.Has outs[k] ∧
        val' (g'.pos outs[k]) = (i.sem (env.map fun v => val (g.pos v))).getD k 0 ∧
        HasDerivAt (fun t => (i.sem (along (env.map fun v => val (g.pos v))
          (env.map fun v => D (g.pos v) 1) t)).getD k 0) (D' (g'.pos outs[k]) 1) 0 := by
  have tc := env_affine h.sim he
  have ea0 : along (env.map fun v => val (g.pos v)) (env.map fun v => D (g.pos v) 1) 0 =
      env.map fun v => val (g.pos v) := along_zero (by simp)
  obtain ⟨outs, s', f, g', val', adj', D', ε', sim, gr, te⟩ := instr_step (lf := False) h.sim tc i
    (by rw [ea0]; exact hok) (by rw [ea0]; exact hroom) hnc
  have hlen : ∀ t, (i.sem (along (env.map fun v => val (g.pos v)) (env.map fun v => D (g.pos v) 1) t)).length =
      outs.length := by
    intro t
    have := te.len t
    simp only [List.length_append] at this
    have h2 := tc.len t
    omega
  refine ⟨outs, s', f, g', val', adj', D', ε', h.grown sim gr, gr.pre, gr.dd, gr.val, gr.adj, ?_, ?_, ?_⟩
  · rw [gr.head, ea0]
  · rw [← hlen 0, ea0]
  · intro k hk
    have tr := te.tr (env.length + k) (by simp [hk])
    have e1 : lookV (env ++ outs) (env.length + k) = outs[k] := by
      simp [lookV, List.getD_eq_getElem?_getD, hk]
    have e2 : ∀ t, look (along (env.map fun v => val (g.pos v)) (env.map fun v => D (g.pos v) 1) t ++
        i.sem (along (env.map fun v => val (g.pos v)) (env.map fun v => D (g.pos v) 1) t)) (env.length + k) =
        (i.sem (along (env.map fun v => val (g.pos v)) (env.map fun v => D (g.pos v) 1) t)).getD k 0 := by
      intro t
      have h2 := tc.len t
      unfold look
      rw [List.getD_append_right _ _ _ _ (by omega), h2]
      simp
    rw [e1] at tr
    simp only [e2] at tr
    refine ⟨tr.has, ?_, tr.deriv.hasDerivAt⟩
    rw [← tr.value]
    simp only [ea0]

/-- **chain rule**: a program run on existing variables -/
theorem Rated.prog {D ε : Nat → ℝ →L[ℝ] ℝ} {u : Var} (h : Rated s g val adj D ε u) {env : List Var}
    (he : ∀ v ∈ env, g.Has v) (hok : p.Ok (env.map fun v => val (g.pos v))) (hnc : ¬ p.hasConst)
    (hroom : s.tape.head + p.cost (env.map fun v => val (g.pos v)) ≤ cap) :
    ∃ outs s', (p.run env : M W (List Var)) s = .ok (outs, s') ∧
      ∃ g' val' adj' D' ε', Rated s' g' val' adj' D' ε' u ∧ g.Prefix g' ∧ (∀ q < s.tape.head, D' q = D q) ∧
      (∀ q < s.tape.head, val' q = val q) ∧ (∀ q < s.tape.head, adj' q = adj q) ∧
      outs.length = (p.sem (env.map fun v => val (g.pos v))).length ∧
      ∀ k (hk : k < outs.length), g'.Has outs[k] ∧
        val' (g'.pos outs[k]) = (p.sem (env.map fun v => val (g.pos v))).getD k 0 ∧
        HasDerivAt (fun t => (p.sem (along (env.map fun v => val (g.pos v))
          (env.map fun v => D (g.pos v) 1) t)).getD k 0) (D' (g'.pos outs[k]) 1) 0 := by
  have tc := env_affine h.sim he
  have ea0 : along (env.map fun v => val (g.pos v)) (env.map fun v => D (g.pos v) 1) 0 =
      env.map fun v => val (g.pos v) := along_zero (by simp)
  obtain ⟨outs, s', f, g', val', adj', D', ε', sim, gr, hl, tr⟩ := prog_step (lf := False) p h.sim tc
    (by rw [ea0]; exact hok) (by rw [ea0]; exact hroom) (fun h => (hnc h).elim)
  refine ⟨outs, s', f, g', val', adj', D', ε', h.grown sim gr, gr.pre, gr.dd, gr.val, gr.adj, ?_, ?_⟩
  · simpa only [ea0] using hl
  · intro k hk
    refine ⟨(tr k hk).has, ?_, ?_⟩
    · rw [← (tr k hk).value]
      simp only [ea0]
    · exact (tr k hk).deriv.hasDerivAt

/-- one record whose contributions are known -/
theorem Rated.op {D ε : Nat → ℝ →L[ℝ] ℝ} {u : Var} (h : Rated s g val adj D ε u) {vs : List Var}
    (hv : ∀ v ∈ vs, g.Has v) {ds coefs : List ℝ} {c : Chain} {x : ℝ}
    (gr : Inv.Grown s g val adj ⟨s.tape.head, vs.map g.pos, ds, c, .plain⟩ x s')
    (hl : Local c x (vs.map fun v => val (g.pos v)) ds coefs) :
    ∃ D' ε', Rated s' (g.push ⟨s.tape.head, vs.map g.pos, ds, c, .plain⟩) (upd val s.tape.head x)
        (upd adj s.tape.head 0) D' ε' u ∧ (∀ q < s.tape.head, D' q = D q) ∧
      D' s.tape.head 1 = (List.zipWith (fun k v => k * D (g.pos v) 1) coefs vs).sum := by
  have hi := h.sim.inv
  have hne : ∀ o ∈ vs.map g.pos, o ≠ s.tape.head := by
    intro o ho
    obtain ⟨w, hw, rfl⟩ := List.mem_map.mp ho
    have := hi.has_lt (hv w hw); omega
  have hr := Local.rule (c := c) (v := x) (ds := ds) (coefs := coefs) (val := val)
    (by rw [List.map_map]; exact hl) hne D
  refine ⟨updV D s.tape.head (zsum coefs (vs.map g.pos) D), updV ε s.tape.head 0,
    ⟨h.sim.push gr rfl (zsum coefs (vs.map g.pos) D) 0 ?_, h.has.push _, ?_, ?_⟩, ?_, ?_⟩
  · intro adj' l e
    obtain ⟨l', e', h'⟩ := hr adj'
    have : l = l' := Option.some.inj (e.symm.trans e')
    rw [this]; exact h'
  · intro nd hnd
    rw [Graph.pos_push h.has]
    have := hi.has_lt h.has
    have hnd' : nd ∈ g.nodes ∨ nd = ⟨s.tape.head, vs.map g.pos, ds, c, .plain⟩ := by
      simpa [Graph.push] using hnd
    rcases hnd' with hnd' | rfl
    · have := hi.node_lt hnd'
      rw [updV_ne _ _ (by omega)]
      exact h.eps nd hnd'
    · simp only [updV_self, srcAt]
      rw [if_neg (by omega)]
  · intro nd hnd
    have hnd' : nd ∈ g.nodes ∨ nd = ⟨s.tape.head, vs.map g.pos, ds, c, .plain⟩ := by
      simpa [Graph.push] using hnd
    rcases hnd' with hnd' | rfl
    · have h1 := hi.node_lt hnd'
      refine Fits.congr (h.fits nd hnd') (upd_ne _ _ (by omega)) fun q hq => upd_ne _ _ ?_
      have := (hi.wf.args nd hnd' q hq).1
      omega
    · intro adj'
      obtain ⟨l, e, -⟩ := hr adj'
      exact ⟨l, e⟩
  · intro q hq
    exact updV_ne _ _ (by omega)
  · rw [updV_self]
    clear hr hl gr hne
    induction vs generalizing coefs with
    | nil => simp [zsum_nil']
    | cons v vs ih =>
      cases coefs with
      | nil => simp [zsum_nil]
      | cons k ks =>
        simp only [List.map_cons, List.zipWith_cons_cons, List.sum_cons, zsum]
        rw [← ih (fun w hw => hv w (by simp [hw]))]
        simp

end Fz
