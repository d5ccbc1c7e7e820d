import Verif.Proof.Linear
import Verif.Proof.Total

/-!
# Effect of sweeps on earlier variables; sweeps from arbitrary adjoints
-/

set_option linter.unusedSectionVars false

namespace Fz
open Arith Spec

variable {V : Type} [AddCommGroup V] [Module ℝ V]

/-- any tangents obey the rules for some sources -/
theorem exists_source (val : Nat → ℝ) (D : Nat → V) (l : List (Node ℝ))
    (hs : l.Pairwise fun a b => a.pos < b.pos) : ∃ ε : Nat → V, ∀ nd ∈ l, Rule val D ε nd := by
  induction l using List.reverseRecOn with
  | nil => exact ⟨fun _ => 0, by simp⟩
  | append_singleton l nd ih =>
    have hs' := List.pairwise_append.mp hs
    obtain ⟨ε, hε⟩ := ih hs'.1
    obtain ⟨cs, hcs⟩ := contrib_linear nd val
    refine ⟨fun q => if q = nd.pos then D nd.pos - zsum cs nd.args D else ε q, fun x hx => ?_⟩
    rcases List.mem_append.mp hx with hx | hx
    · have hlt : x.pos < nd.pos := hs'.2.2 x hx nd (by simp)
      exact Rule.congr (hε x hx) rfl rfl (if_neg (by omega)) (fun _ _ => rfl) fun _ _ => rfl
    · simp only [List.mem_singleton] at hx
      subst hx
      intro adj c hc
      rw [hcs adj c hc, zsum_smul]
      simp only [if_true, smul_sub]
      abel

theorem Graph.WF.source {g : Graph ℝ} {hd : Nat} (wf : g.WF hd) (val : Nat → ℝ) (D : Nat → V) :
    ∃ ε : Nat → V, ∀ nd ∈ g.nodes, Rule val D ε nd :=
  exists_source val D g.nodes (wf.sorted.imp fun h => by simp only [Node.len] at h; omega)

theorem addAll_zeros (adj : Nat → ℝ) : ∀ (ps : List Nat) (cs : List ℝ), (∀ c ∈ cs, c = 0) →
    addAll adj ps cs = adj := by
  intro ps
  induction ps generalizing adj with
  | nil => intro cs _; rfl
  | cons p ps ih =>
    intro cs h
    cases cs with
    | nil => rfl
    | cons c cs =>
      unfold addAll
      rw [ih _ cs fun c hc => h c (by simp [hc]), h c (by simp)]
      funext q
      by_cases hq : q = p
      · subst hq; rw [upd_self]; exact add_zero _
      · rw [upd_ne _ _ hq]

/-- zero adjoints stay zero -/
theorem sweep_zero (val : Nat → ℝ) : ∀ (l : List (Node ℝ)) (a : Nat → ℝ), (∀ nd ∈ l, a nd.pos = 0) →
    sweep val l a = a := by
  intro l
  induction l with
  | nil => intros; rfl
  | cons nd l ih =>
    intro a h
    show addAll (sweep val l a) nd.args (nd.cl val (sweep val l a)) = a
    rw [ih a fun x hx => h x (by simp [hx])]
    refine addAll_zeros a _ _ ?_
    obtain ⟨cs, hcs⟩ := contrib_linear nd val
    unfold Node.cl
    cases hc : nd.contrib val a with
    | none => simp
    | some l =>
      rw [hcs a l hc]
      intro c hc
      simp only [Option.getD_some, List.mem_map] at hc
      obtain ⟨k, _, rfl⟩ := hc
      rw [h nd (by simp), zero_mul]

/-- restrict a pairing to the positions that matter -/
theorem pair_sub (P Q : List Nat) (hP : P.Nodup) (hQ : Q.Nodup) (hs : ∀ q ∈ Q, q ∈ P) (a : Nat → ℝ)
    (D : Nat → V) (h : ∀ p ∈ P, p ∉ Q → a p • D p = 0) : pair P a D = pair Q a D := by
  unfold pair
  rw [← List.sum_toFinset _ hP, ← List.sum_toFinset _ hQ]
  symm
  apply Finset.sum_subset
  · intro q hq
    rw [List.mem_toFinset] at *
    exact hs q hq
  · intro q hq hn
    rw [List.mem_toFinset] at *
    exact h q hq hn

variable {W : Type} [Rep W ℝ] [LawfulRep W ℝ] {lf : Prop}
variable {s s' s'' : St W} {g g' g'' : Graph ℝ} {val adj val' adj' val'' adj'' : Nat → ℝ}
variable {E : Type} [NormedAddCommGroup E] [NormedSpace ℝ E]
variable {D ε D' ε' : Nat → E →L[ℝ] ℝ} {x0 : E}
variable {es : List (E →L[ℝ] ℝ)} {words : Nat} {xv outs : List Var} {τ : E → List ℝ}

/-- the tangents of a program's run on constants vanish at its outputs -/
theorem Ran.const (r : Ran x0 s g val adj D ε es words s' g' val' adj' D' ε' xv outs τ lf) {c : List ℝ}
    (hc : ∀ y, τ y = c) {k : Nat} (hk : k < outs.length) : D' (g'.pos outs[k]) = 0 := by
  have h := (r.os k hk).deriv
  have e : (fun y => (τ y).getD k 0) = fun _ => c.getD k 0 := by funext y; rw [hc]
  rw [e] at h
  exact h.unique (hasFDerivAt_const _ _)

theorem comb_zero (a : List ℝ) : ∀ (es : List (E →L[ℝ] ℝ)), (∀ e ∈ es, e = 0) → comb a es = 0 := by
  unfold comb
  intro es h
  apply List.sum_eq_zero
  intro x hx
  obtain ⟨i, hi, rfl⟩ := List.getElem_of_mem hx
  rw [List.getElem_zipWith, h _ (List.getElem_mem _), smul_zero]

/-- one coordinate for every record -/
noncomputable def dual (g : Graph ℝ) : Nat → (Fin g.nodes.length → ℝ) →L[ℝ] ℝ :=
  fun q => ∑ i : Fin g.nodes.length,
    if (g.nodes[i]).pos = q then ContinuousLinearMap.proj (R := ℝ) (φ := fun _ => ℝ) i else 0

theorem dual_single (g : Graph ℝ) (q : Nat) (i : Fin g.nodes.length) :
    dual g q (Pi.single i 1) = if (g.nodes[i]).pos = q then 1 else 0 := by
  unfold dual
  rw [ContinuousLinearMap.sum_apply, Finset.sum_eq_single i]
  · split <;> simp
  · intro j _ hj
    split
    · simp [hj]
    · rfl
  · simp

theorem pair_apply (P : List Nat) (a : Nat → ℝ) (D : Nat → E →L[ℝ] ℝ) (e : E) :
    pair P a D e = (P.map fun q => a q * D q e).sum := by
  induction P with
  | nil => rfl
  | cons p P ih =>
    have e1 : pair (p :: P) a D = a p • D p + pair P a D := by simp [pair]
    rw [e1, ContinuousLinearMap.add_apply, ih]
    simp

/-- the pairing with `dual` determines the adjoints of all records -/
theorem pair_dual {hd : Nat} (wf : g.WF hd) {a b : Nat → ℝ}
    (h : pair (g.nodes.map Node.pos) a (dual g) = pair (g.nodes.map Node.pos) b (dual g)) :
    ∀ nd ∈ g.nodes, a nd.pos = b nd.pos := by
  have key : ∀ (c : Nat → ℝ) (i : Fin g.nodes.length),
      pair (g.nodes.map Node.pos) c (dual g) (Pi.single i 1) = c (g.nodes[i]).pos := by
    intro c i
    rw [pair_apply]
    have : (g.nodes.map Node.pos).map (fun q => c q * dual g q (Pi.single i 1)) =
        (g.nodes.map Node.pos).map (fun q => c q • (if (g.nodes[i]).pos = q then (1 : ℝ) else 0)) := by
      apply List.map_congr_left
      intro q _
      rw [dual_single]; rfl
    rw [this]
    have := pair_single (V := ℝ) (g.nodes.map Node.pos) wf.nodup c
      (fun q => if (g.nodes[i]).pos = q then (1 : ℝ) else 0) (g.nodes[i]).pos
      (List.mem_map_of_mem (List.getElem_mem _)) (fun p _ hp => by rw [if_neg (Ne.symm hp), smul_zero])
    unfold pair at this
    rw [this]
    simp
  intro nd hnd
  obtain ⟨i, hi, rfl⟩ := List.getElem_of_mem hnd
  have h1 := key a ⟨i, hi⟩
  have h2 := key b ⟨i, hi⟩
  rw [h] at h1
  rw [h1] at h2
  exact h2

/-- a run of a program that uses no earlier variable, with sources at all earlier records -/
theorem ran_closed (h : Inv s g val adj) (x : List ℝ) (p : Prog) (hok : p.Ok x)
    (hroom : Room s p x []) :
    ∃ xv outs s1 s', (newVars x : M W (List Var)) s = .ok (xv, s1) ∧
      (p.run (xv ++ []) : M W (List Var)) s1 = .ok (outs, s') ∧
      ∃ D g' val' adj' D' ε', (∀ nd ∈ g.nodes, Rule val D (dual g) nd) ∧
        Ran (E := Fin g.nodes.length → ℝ) 0 s g val adj D (dual g) (x.map fun _ => 0)
        (p.cost x) s' g' val' adj' D' ε' xv outs (fun _ => p.sem x) p.hasConst := by
  obtain ⟨D, hD⟩ := h.wf.tangent val (dual g)
  have hs : Sim s g val adj D (dual g) := ⟨h, hD⟩
  have hl : ∀ a ∈ x.map (fun c => ((fun _ : Fin g.nodes.length → ℝ => c),
      (0 : (Fin g.nodes.length → ℝ) →L[ℝ] ℝ))), HasFDerivAt a.1 a.2 0 := by
    intro a ha
    obtain ⟨c, _, rfl⟩ := List.mem_map.mp ha
    exact hasFDerivAt_const _ _
  have tc : EnvTracks (0 : Fin g.nodes.length → ℝ) g val D [] (fun _ => []) :=
    ⟨fun _ => rfl, fun i hi => by simp at hi⟩
  have e1 : ∀ y : Fin g.nodes.length → ℝ, (x.map (fun c => ((fun _ : Fin g.nodes.length → ℝ => c),
      (0 : (Fin g.nodes.length → ℝ) →L[ℝ] ℝ)))).map (fun a => a.1 y) = x := by
    intro y; simp [Function.comp_def]
  have e2 : (x.map (fun c => ((fun _ : Fin g.nodes.length → ℝ => c),
      (0 : (Fin g.nodes.length → ℝ) →L[ℝ] ℝ)))).map Prod.snd = x.map fun _ => 0 := by
    simp [Function.comp_def]
  have := ran hs _ hl tc p
  simp only [e1, e2, List.append_nil, List.length_map] at this
  unfold Room at hroom
  simp only [List.append_nil] at hroom ⊢
  obtain ⟨xv, outs, s1, s', f1, f2, g', val', adj', D', ε', r⟩ := this hok hroom
  exact ⟨xv, outs, s1, s', f1, f2, D, g', val', adj', D', ε', hD, r⟩

theorem Ran.ok (r : Ran x0 s g val adj D ε es words s' g' val' adj' D' ε' xv outs τ lf)
    (hok : ∀ nd ∈ g.nodes, nd.ChainOK ∨ nd.Fits val) : ∀ nd ∈ g'.nodes, nd.ChainOK ∨ nd.Fits val' := by
  intro nd hnd
  rw [r.split] at hnd
  rcases List.mem_append.mp hnd with hnd | hnd
  · have hlt := r.inv0.node_lt hnd
    refine (hok nd hnd).imp_right fun hf => Fits.congr hf (r.val _ hlt) fun p hp => r.val _ ?_
    have := (r.inv0.wf.args nd hnd p hp).1
    omega
  · rcases r.fits nd hnd with h | ⟨b1, b2, b3, _⟩
    · exact Or.inr h
    · left
      unfold Node.ChainOK
      rw [b3]
      intro _
      exact b1

theorem Ran.oldFits (r : Ran x0 s g val adj D ε es words s' g' val' adj' D' ε' xv outs τ lf)
    (hf : ∀ nd ∈ g'.nodes, nd.Fits val') : ∀ nd ∈ g.nodes, nd.Fits val := by
  intro nd hnd
  have hlt := r.inv0.node_lt hnd
  refine Fits.congr (hf nd (by rw [r.split]; exact List.mem_append_left _ hnd)) (r.val _ hlt).symm
    fun p hp => (r.val _ ?_).symm
  have := (r.inv0.wf.args nd hnd p hp).1
  omega

/-- seeding an output of a program that uses no earlier variable, whatever the adjoints of the earlier
records: the earlier records receive what they would receive without the program -/
theorem Ran.outer {D D' ε' : Nat → (Fin g.nodes.length → ℝ) →L[ℝ] ℝ} {x0 : Fin g.nodes.length → ℝ}
    {es : List ((Fin g.nodes.length → ℝ) →L[ℝ] ℝ)} {τ : (Fin g.nodes.length → ℝ) → List ℝ}
    (r : Ran x0 s g val adj D (dual g) es words s' g' val' adj' D' ε' xv outs τ lf)
    (hD : ∀ nd ∈ g.nodes, Rule val D (dual g) nd) (hes : ∀ e ∈ es, e = 0) {c : List ℝ} (hτ : ∀ y, τ y = c)
    (hf : ∀ nd ∈ g'.nodes, nd.Fits val') (a b : Nat → ℝ)
    (hab : ∀ nd ∈ g.nodes, a nd.pos = b nd.pos) (hz : ∀ nd ∈ g'.nodes.drop g.nodes.length, a nd.pos = 0) {k : Nat} (hk : k < outs.length) :
    ∀ nd ∈ g.nodes, Fz.sweep val' g'.nodes (Fz.upd a (g'.pos outs[k]) one) nd.pos =
      Fz.sweep val g.nodes b nd.pos := by
  have h := r.inv0
  refine pair_dual h.wf ?_
  have key := r.sweep hf (Fz.upd a (g'.pos outs[k]) one)
  rw [comb_zero _ _ hes, add_zero] at key
  rw [← key, ← sweep_all h.wf hD (r.oldFits hf) b]
  have hz' := r.const hτ hk
  rw [r.split, List.map_append, pair_append]
  have z2 : pair ((g'.nodes.drop g.nodes.length).map Node.pos) (Fz.upd a (g'.pos outs[k]) one) D' = 0 := by
    refine pair_zero _ _ _ fun q hq => ?_
    obtain ⟨nd, hnd, rfl⟩ := List.mem_map.mp hq
    by_cases hqe : nd.pos = g'.pos outs[k]
    · rw [hqe, hz', smul_zero]
    · rw [upd_ne _ _ hqe, hz nd hnd, zero_smul]
  rw [z2, add_zero]
  unfold pair
  congr 1
  apply List.map_congr_left
  intro q hq
  obtain ⟨nd, hnd, rfl⟩ := List.mem_map.mp hq
  have hlt := h.node_lt hnd
  rw [r.dd _ hlt]
  by_cases hqe : nd.pos = g'.pos outs[k]
  · have : D nd.pos = 0 := by rw [← r.dd _ hlt, hqe, hz']
    rw [this, smul_zero, smul_zero]
  · rw [upd_ne _ _ hqe, hab nd hnd]

/-- the invariant depends on values and adjoints at records only -/
theorem Inv.congr {W R : Type} [Arith R] [Rep W R] [LawfulRep W R] {s : St W} {g : Graph R}
    {val adj val' adj' : Nat → R} (h : Inv s g val adj)
    (hv : ∀ nd ∈ g.nodes, val' nd.pos = val nd.pos) (ha : ∀ nd ∈ g.nodes, adj' nd.pos = adj nd.pos) :
    Inv s g val' adj' := by
  have := h.withMem (m := s.tape.mem) (val' := val') (adj' := adj') (fun _ _ => rfl)
    (fun nd hn => by rw [hv nd hn, ha nd hn]; exact h.recs nd hn) h.blks
  exact this

/-- a completed `end_nested` of an open region found the tape not exactly full -/
theorem endNested_full {t t' : St W} (hl0 : 0 < t.level) (hl : t.level ≤ maxNestedStack)
    (hh : t.nestTape t.level ≤ t.tape.head) (e : (endNested : M W Unit) t = .ok ((), t')) :
    t.tape.head ≤ t.tape.size := by
  unfold endNested at e
  rw [bind_ok (get_ok _), if_pos hl0] at e
  have q1 : (rdNest t.nestTape t.level : M W Nat) t = .ok (t.nestTape t.level, t) := by
    unfold rdNest; rw [if_pos ⟨hl0, hl⟩]; rfl
  have q2 : (rdNest t.nestVari t.level : M W Nat) t = .ok (t.nestVari t.level, t) := by
    unfold rdNest; rw [if_pos ⟨hl0, hl⟩]; rfl
  rw [bind_ok q1, bind_ok q2] at e
  by_contra hc
  have q3 : (modTape fun u => u.zeroLoop (t.nestTape t.level)
      (u.head + 1 - t.nestTape t.level) : M W Unit) t = .error .oob := by
    have : t.tape.head + 1 - t.nestTape t.level = (t.tape.head - t.nestTape t.level) + 1 := by omega
    simp only [modTape, this]
    unfold Tape.zeroLoop Tape.wr
    rw [if_neg (by omega)]
    rfl
  rw [bind_err q3] at e
  cases e

/-- closing the region of a run -/
theorem Ran.close (r : Ran x0 s.begun g val adj D ε es words s' g' val' adj' D' ε' xv outs τ lf)
    (hl : s.level < maxNestedStack) {a : Nat → ℝ} {m : Nat → W} {t : St W}
    (hi : Inv (s'.withMem m) g' val' a) (e : (endNested : M W Unit) (s'.withMem m) = .ok ((), t)) :
    Inv t g val' a ∧ t.level = s.level ∧ t.tape.head = s.tape.head ∧ t.vhead = s.vhead := by
  have hlev := r.keep.level
  have hnv := r.keep.nestVari
  have hnt := r.keep.nestTape
  have hh := r.head
  have hvh := r.inv0.vhead
  simp only [St.begun] at hlev hnv hnt hh hvh
  have hfull : s'.tape.head ≤ s'.tape.size :=
    endNested_full (t := s'.withMem m) (by simp [St.withMem]; omega)
      (by simp only [St.withMem, maxNestedStack] at *; omega)
      (by simp only [St.withMem]; rw [hnt, hlev]; simp; omega) e
  obtain ⟨t', e', i, a1, a2, a3, a4, a5, a6, a7⟩ := endNested_ok (lo := s.tape.head) hi r.pre r.inv0.wf
    r.inv0.ok.head_pos (by simp [St.withMem]; omega) hfull (by simp [St.withMem]; omega)
    (by simp only [St.withMem, maxNestedStack] at *; omega)
    (by simp only [St.withMem]; rw [hnt, hlev]; simp) (by simp only [St.withMem]; rw [hnv, hlev]; simp [hvh])
  rw [e'] at e
  cases e
  refine ⟨i, ?_, a2, by rw [a4, hvh]⟩
  rw [a1]
  show s'.level - 1 = _
  omega

variable {x ys : List ℝ} {p : Prog}

/-- `gradient` of a program that uses no variable of the caller: the caller's adjoints become what a
reverse sweep without seed makes of them -/
theorem gradient_outer (h : Inv s g val adj) (hcok : ∀ nd ∈ g.nodes, nd.ChainOK ∨ nd.Fits val)
    (hok : p.Ok x) (hroom : Room s p x []) (hk : p.sem x ≠ []) {y : ℝ} {df : List ℝ}
    (hrun : gradient (p.scalarFn []) x s = .ok ((y, df), s')) :
    s'.level = s.level ∧ s'.tape.head = s.tape.head ∧ s'.vhead = s.vhead ∧
      (∀ nd ∈ g.nodes, nd.Fits val) ∧ Inv s' g val (Fz.sweep val g.nodes adj) := by
  unfold gradient at hrun
  cases hb : (beginNested : M W Unit) s with
  | error e => rw [bind_err hb] at hrun; cases hrun
  | ok q =>
    obtain ⟨u, s0⟩ := q
    obtain ⟨hl, rfl⟩ := begin_run hb
    rw [bind_ok hb] at hrun
    obtain ⟨xv, outs, s1, s2, e1, e2, D, g', val', adj', D', ε', hD, r⟩ := ran_closed h.begun x p hok hroom
    have ho : 0 < outs.length := by rw [r.olen]; exact List.length_pos_of_ne_nil hk
    have hl0 : lookV outs 0 = outs[0] := by simp [lookV, List.getD_eq_getElem?_getD, ho]
    have e2' : (p.scalarFn [] xv : M W Var) s1 = .ok (lookV outs 0, s2) := by
      unfold Prog.scalarFn
      rw [bind_ok e2]; rfl
    have hv : ((lookV outs 0).val : M W ℝ) s2 = .ok (val' (g'.pos outs[0]), s2) := by
      rw [hl0]; exact r.sim.inv.varVal (r.os 0 ho).has
    rw [bind_ok e1, bind_ok e2', bind_ok hv] at hrun
    cases hg : ((lookV outs 0).grad : M W Unit) s2 with
    | error e => rw [bind_err hg] at hrun; cases hrun
    | ok q =>
      obtain ⟨u, s3⟩ := q
      have hg' := hg
      rw [hl0] at hg'
      obtain ⟨hf, m, rfl, i⟩ := grad_run r.sim.inv (r.ok hcok) (r.os 0 ho).has hg'
      obtain ⟨df, ea⟩ : ∃ df, (adjs xv : M W (List ℝ)) (s2.withMem m) = .ok (df, s2.withMem m) :=
        ⟨_, i.varAdjs (vs := xv) fun v hv => by
          obtain ⟨k, hk, rfl⟩ := List.getElem_of_mem hv
          exact (r.xs k hk).1⟩
      rw [bind_ok hg, bind_ok ea] at hrun
      cases hen : (endNested : M W Unit) (s2.withMem m) with
      | error e => rw [bind_err hen] at hrun; cases hrun
      | ok q =>
        obtain ⟨u, s4⟩ := q
        rw [bind_ok hen] at hrun
        cases hrun
        obtain ⟨j, a1, a2, a3⟩ := r.close hl i hen
        refine ⟨a1, a2, a3, r.oldFits hf, j.congr ?_ ?_⟩
        · intro nd hn
          exact (r.val _ (h.node_lt hn)).symm
        · intro nd hn
          exact (r.outer hD (by simp) (fun _ => rfl) hf adj' adj (fun nd hn => r.adj _ (h.node_lt hn))
            (fun nd hn => (r.zero nd hn).2) ho nd hn).symm

end Fz
