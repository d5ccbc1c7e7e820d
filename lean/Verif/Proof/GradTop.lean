import Verif.Proof.GradThm
import Verif.Proof.History
import Verif.Spec.Drive

/-!
# Completed sweeps give the gradient
-/

set_option linter.unusedSectionVars false

namespace Fz
open Arith Spec

variable {W : Type} [Rep W ℝ] [LawfulRep W ℝ] {lf : Prop}
variable {s s' s'' : St W} {g g' g'' : Graph ℝ} {val adj val' adj' val'' adj'' : Nat → ℝ}

/-- a run of the program on fresh independent variables -/
abbrev RanC (s : St W) (g : Graph ℝ) (val adj : Nat → ℝ) (x ys : List ℝ) (p : Prog) (s' : St W)
    (g' : Graph ℝ) (val' adj' : Nat → ℝ) (D' ε' : Nat → (Fin x.length → ℝ) →L[ℝ] ℝ)
    (xv outs : List Var) : Prop :=
  Ran (E := Fin x.length → ℝ) (fun i => x[i]) s g val adj (fun _ => 0) (fun _ => 0)
    ((coords x.length).map Prod.snd) (p.cost (x ++ ys)) s' g' val' adj' D' ε' xv outs
    (fun y => p.sem (List.ofFn y ++ ys)) p.hasConst

variable {x ys : List ℝ} {p : Prog} {D' ε' : Nat → (Fin x.length → ℝ) →L[ℝ] ℝ} {xv outs : List Var}

theorem RanC.ok (r : RanC s g val adj x ys p s' g' val' adj' D' ε' xv outs)
    (hok : ∀ nd ∈ g.nodes, nd.ChainOK ∨ nd.Fits val) : ∀ nd ∈ g'.nodes, nd.ChainOK ∨ nd.Fits val' := by
  intro nd hnd
  rw [r.split] at hnd
  rcases List.mem_append.mp hnd with hnd | hnd
  · have hlt := r.inv0.node_lt hnd
    refine (hok nd hnd).imp_right fun hf => Fits.congr hf (r.val _ hlt) fun p hp => r.val _ ?_
    have := (r.inv0.wf.args nd hnd p hp).1
    omega
  · rcases r.fits nd hnd with h | ⟨b1, b2, b3, _⟩
    · exact Or.inr h
    · left
      unfold Node.ChainOK
      rw [b3]
      intro _
      exact b1

theorem RanC.vals (r : RanC s g val adj x ys p s' g' val' adj' D' ε' xv outs) {a : Nat → ℝ}
    (h : Inv s' g' val' a) : (Fz.vals outs : M W (List ℝ)) s' = .ok (p.sem (x ++ ys), s') := by
  rw [h.varVals fun v hv => by
    obtain ⟨k, hk, rfl⟩ := List.getElem_of_mem hv
    exact (r.os k hk).has]
  congr 2
  have hx : List.ofFn (fun i : Fin x.length => x[i]) = x := ofFn_get x
  have hl := r.olen
  simp only [hx] at hl
  apply List.ext_getElem
  · simpa using hl
  · intro n h1 h2
    have hn : n < outs.length := by simpa using h1
    have := (r.os n hn).value
    simp only [hx] at this
    simp only [List.getElem_map]
    rw [← this]
    simp [List.getD_eq_getElem?_getD, h2]

/-- a completed sweep from output `k`, started with cleared adjoints of the new variables -/
theorem RanC.grad (r : RanC s g val adj x ys p s' g' val' adj' D' ε' xv outs) {a : Nat → ℝ} {t t' : St W}
    (h : Inv t g' val' a) (hz : ∀ nd ∈ g'.nodes.drop g.nodes.length, a nd.pos = 0)
    (hok : ∀ nd ∈ g.nodes, nd.ChainOK ∨ nd.Fits val) {k : Nat} (hk : k < outs.length)
    (e : ((lookV outs k).grad : M W Unit) t = .ok ((), t')) :
    ∃ m df, t' = t.withMem m ∧
      Inv t' g' val' (sweep val' g'.nodes (upd a (g'.pos outs[k]) 1)) ∧
      (adjs xv : M W (List ℝ)) t' = .ok (df, t') ∧ IsGradAt (p.out ys k) x df := by
  have hl : lookV outs k = outs[k] := by simp [lookV, List.getD_eq_getElem?_getD, hk]
  rw [hl] at e
  obtain ⟨hf, m, rfl, i⟩ := grad_run h (r.ok hok) (r.os k hk).has e
  refine ⟨m, _, rfl, i, i.varAdjs fun v hv => ?_, ?_⟩
  · obtain ⟨k, hk, rfl⟩ := List.getElem_of_mem hv
    exact (r.xs k hk).1
  · exact Ran.isGrad r hf (fun _ _ => rfl) (fun _ _ => rfl) a hz k hk

theorem RanC.len (r : RanC s g val adj x ys p s' g' val' adj' D' ε' xv outs) :
    outs.length = (p.sem (x ++ ys)).length := by
  have hx : List.ofFn (fun i : Fin x.length => x[i]) = x := ofFn_get x
  have hl := r.olen
  simp only [hx] at hl
  exact hl

/-- the run of a program in a state with the invariant -/
theorem ranC (h : Inv s g val adj) {env : List Var} (he : ∀ v ∈ env, g.Has v)
    (hy : ys = env.map fun v => val (g.pos v)) (hok : p.Ok (x ++ ys)) (hroom : Room s p x ys) :
    ∃ xv outs s1 s', (newVars x : M W (List Var)) s = .ok (xv, s1) ∧
      (p.run (xv ++ env) : M W (List Var)) s1 = .ok (outs, s') ∧
      ∃ g' val' adj' D' ε', RanC s g val adj x ys p s' g' val' adj' D' ε' xv outs := by
  subst hy
  exact ran_coords h x he p hok hroom

theorem Good.okf {c : Client W} (h : Good c g val adj) : ∀ nd ∈ g.nodes, nd.ChainOK ∨ nd.Fits val :=
  fun nd hn => Or.inl (h.cok nd hn)

theorem Good.vals {c : Client W} (h : Good c g val adj) {s'' : St W}
    (hy : (Fz.vals c.env : M W (List ℝ)) c.st = .ok (ys, s'')) :
    ys = c.env.map fun v => val (g.pos v) := by
  have := h.inv.varVals h.has
  rw [this] at hy
  cases hy
  rfl

theorem derive_ok (h : Inv s g val adj) (hcok : ∀ nd ∈ g.nodes, nd.ChainOK ∨ nd.Fits val) {env : List Var}
    (he : ∀ v ∈ env, g.Has v) (hy : ys = env.map fun v => val (g.pos v)) (hok : p.Ok (x ++ ys))
    (hroom : Room s p x ys) {k : Nat} (hk : k < (p.sem (x ++ ys)).length) {o df : List ℝ}
    (hrun : derive p env x k s = .ok ((o, df), s')) :
    o = p.sem (x ++ ys) ∧ IsGradAt (p.out ys k) x df := by
  obtain ⟨xv, outs, s1, s2, e1, e2, g', val', adj', D', ε', r⟩ := ranC h he hy hok hroom
  unfold derive at hrun
  rw [bind_ok e1, bind_ok e2, bind_ok (r.vals r.sim.inv)] at hrun
  cases hg : ((lookV outs k).grad : M W Unit) s2 with
  | error e => rw [bind_err hg] at hrun; cases hrun
  | ok q =>
    obtain ⟨u, s3⟩ := q
    obtain ⟨m, df', rfl, i, ha, hgrad⟩ := r.grad r.sim.inv (fun nd hn => (r.zero nd hn).2) hcok
      (by rw [r.len]; exact hk) hg
    rw [bind_ok hg, bind_ok ha] at hrun
    cases hrun
    exact ⟨rfl, hgrad⟩

/-- a state in which a nested region has been opened -/
def St.begun (s : St W) : St W := ⟨s.vhead, s.nVaris, s.varis, s.tape,
    fun k => if k = s.level + 1 then s.tape.head else s.nestTape k,
    fun k => if k = s.level + 1 then s.vhead else s.nestVari k, s.level + 1⟩

theorem begin_run (e : (beginNested : M W Unit) s = .ok ((), s')) :
    s.level < maxNestedStack ∧ s' = s.begun := by
  by_cases hl : s.level < maxNestedStack
  · rw [beginNested_ok s hl] at e
    cases e
    exact ⟨hl, rfl⟩
  · have : (beginNested : M W Unit) s = .error .oob := by
      unfold beginNested
      simp only
      rw [if_neg (by omega)]
    rw [this] at e; cases e

theorem begin_ok (hl : s.level < maxNestedStack) :
    (beginNested : M W Unit) s = .ok ((), s.begun) := beginNested_ok s hl

theorem Inv.begun (h : Inv s g val adj) : Inv s.begun g val adj := h.nest _ _ _

theorem gradient_ok (h : Inv s g val adj) (hcok : ∀ nd ∈ g.nodes, nd.ChainOK ∨ nd.Fits val) {env : List Var}
    (he : ∀ v ∈ env, g.Has v) (hy : ys = env.map fun v => val (g.pos v)) (hok : p.Ok (x ++ ys))
    (hroom : Room s p x ys) (hk : p.sem (x ++ ys) ≠ []) {y : ℝ} {df : List ℝ}
    (hrun : gradient (p.scalarFn env) x s = .ok ((y, df), s')) :
    y = p.out ys 0 x ∧ IsGradAt (p.out ys 0) x df := by
  have hpos : 0 < (p.sem (x ++ ys)).length := List.length_pos_of_ne_nil hk
  unfold gradient at hrun
  cases hb : (beginNested : M W Unit) s with
  | error e => rw [bind_err hb] at hrun; cases hrun
  | ok q =>
    obtain ⟨u, s0⟩ := q
    obtain ⟨hl, rfl⟩ := begin_run hb
    rw [bind_ok hb] at hrun
    obtain ⟨xv, outs, s1, s2, e1, e2, g', val', adj', D', ε', r⟩ := ranC h.begun he hy hok hroom
    have e2' : (p.scalarFn env xv : M W Var) s1 = .ok (lookV outs 0, s2) := by
      unfold Prog.scalarFn
      rw [bind_ok e2]; rfl
    have ho : 0 < outs.length := by rw [r.len]; exact hpos
    have hl0 : lookV outs 0 = outs[0] := by simp [lookV, List.getD_eq_getElem?_getD, ho]
    have hv : ((lookV outs 0).val : M W ℝ) s2 = .ok (p.out ys 0 x, s2) := by
      rw [hl0, r.sim.inv.varVal (r.os 0 ho).has, ← (r.os 0 ho).value]
      simp only [ofFn_get]
      rfl
    rw [bind_ok e1, bind_ok e2', bind_ok hv] at hrun
    cases hg : ((lookV outs 0).grad : M W Unit) s2 with
    | error e => rw [bind_err hg] at hrun; cases hrun
    | ok q =>
      obtain ⟨u, s3⟩ := q
      obtain ⟨m, df', rfl, i, ha, hgrad⟩ := r.grad r.sim.inv (fun nd hn => (r.zero nd hn).2) hcok ho hg
      rw [bind_ok hg, bind_ok ha] at hrun
      cases hen : (endNested : M W Unit) (s2.withMem m) with
      | error e => rw [bind_err hen] at hrun; cases hrun
      | ok q =>
        obtain ⟨u, s4⟩ := q
        rw [bind_ok hen] at hrun
        cases hrun
        exact ⟨rfl, hgrad⟩

/-- `set_zero_nested_adj` in a region that starts at record `n` -/
theorem zeroNested_ok (h : Inv s g val adj) (hl0 : 0 < s.level) (hl : s.level ≤ maxNestedStack) {n : Nat}
    (hn : s.nestVari s.level = n + 1) (hle : n ≤ g.nodes.length) :
    ∃ m a, (setZeroNestedAdj : M W Unit) s = .ok ((), s.withMem m) ∧ Inv (s.withMem m) g val a ∧
      (∀ nd ∈ g.nodes.drop n, a nd.pos = 0) := by
  have hvh := h.vhead
  unfold setZeroNestedAdj
  rw [bind_ok (get_ok _)]
  have e2 : (rdNest s.nestVari s.level : M W Nat) s = .ok (n + 1, s) := by
    unfold rdNest; rw [if_pos ⟨hl0, hl⟩, hn]; rfl
  have hx : s.vhead - (n + 1) = g.nodes.length - n := by omega
  rw [bind_ok e2, hx]
  obtain ⟨m, a, e3, i, hz, hk⟩ := Inv.zeroAdjLoop_ok n (g.nodes.length - n) h (by omega)
  have ht : (g.nodes.drop n).take (g.nodes.length - n) = g.nodes.drop n :=
    List.take_of_length_le (by simp)
  rw [ht] at hz
  exact ⟨m, a, e3, i, hz⟩

/-- the rows of `jacobian` -/
theorem RanC.jac (r : RanC s g val adj x ys p s' g' val' adj' D' ε' xv outs)
    (hok : ∀ nd ∈ g.nodes, nd.ChainOK ∨ nd.Fits val) : ∀ (l : List Nat) {t t' : St W} {a : Nat → ℝ} {rows : List (List ℝ)},
    Inv t g' val' a → 0 < t.level → t.level ≤ maxNestedStack → t.nestVari t.level = g.nodes.length + 1 →
    (∀ k ∈ l, k < outs.length) →
    (jacLoop xv (l.map (lookV outs)) : M W (List (List ℝ))) t = .ok (rows, t') →
    List.Forall₂ (fun k df => IsGradAt (p.out ys k) x df) l rows ∧
      ∃ m a', t' = t.withMem m ∧ Inv t' g' val' a' := by
  intro l
  induction l with
  | nil =>
    intro t t' a rows h _ _ _ _ e
    cases e
    exact ⟨List.Forall₂.nil, t.tape.mem, a, rfl, h⟩
  | cons k l ih =>
    intro t t' a rows h hl0 hl hn hk e
    obtain ⟨m, a1, e1, i1, hz⟩ := zeroNested_ok h hl0 hl hn r.pre.nodes.length_le
    rw [List.map_cons] at e
    unfold jacLoop at e
    rw [bind_ok e1] at e
    cases hg : ((lookV outs k).grad : M W Unit) (t.withMem m) with
    | error e' => rw [bind_err hg] at e; cases e
    | ok q =>
      obtain ⟨u, s3⟩ := q
      obtain ⟨m', df', rfl, i, ha, hgrad⟩ := r.grad i1 hz hok (hk k (by simp)) hg
      rw [bind_ok hg, bind_ok ha] at e
      cases hj : (jacLoop xv (l.map (lookV outs)) : M W (List (List ℝ))) ((t.withMem m).withMem m') with
      | error e' => rw [bind_err hj] at e; cases e
      | ok q =>
        obtain ⟨rs, s4⟩ := q
        rw [bind_ok hj] at e
        cases e
        obtain ⟨hrows, m'', a'', rfl, i''⟩ := ih i hl0 hl hn (fun j hj => hk j (by simp [hj])) hj
        exact ⟨List.Forall₂.cons hgrad hrows, m'', a'', rfl, i''⟩

theorem jacobian_ok (h : Inv s g val adj) (hcok : ∀ nd ∈ g.nodes, nd.ChainOK ∨ nd.Fits val) {env : List Var}
    (he : ∀ v ∈ env, g.Has v) (hy : ys = env.map fun v => val (g.pos v)) (hok : p.Ok (x ++ ys))
    (hroom : Room s p x ys) {n : Nat} {o : List ℝ} {rows : List (List ℝ)}
    (hrun : jacobian (p.vectorFn env) n x s = .ok ((o, rows), s')) :
    n = (p.sem (x ++ ys)).length ∧ o = p.sem (x ++ ys) ∧
      List.Forall₂ (fun k df => IsGradAt (p.out ys k) x df) (List.range n) rows := by
  unfold jacobian at hrun
  cases hb : (beginNested : M W Unit) s with
  | error e => rw [bind_err hb] at hrun; cases hrun
  | ok q =>
    obtain ⟨u, s0⟩ := q
    obtain ⟨hl, rfl⟩ := begin_run hb
    rw [bind_ok hb] at hrun
    obtain ⟨xv, outs, s1, s2, e1, e2, g', val', adj', D', ε', r⟩ := ranC h.begun he hy hok hroom
    have e2' : (p.vectorFn env xv n : M W (List Var)) s1 = .ok (outs, s2) := e2
    rw [bind_ok e1, bind_ok e2'] at hrun
    by_cases hn : outs.length = n
    · have e3 : (confN n outs : M W (List Var)) s2 = .ok (outs, s2) := by
        unfold confN; rw [if_pos hn]; rfl
      rw [bind_ok e3, bind_ok (r.vals r.sim.inv)] at hrun
      have hlist : outs = (List.range n).map (lookV outs) := by
        apply List.ext_getElem
        · simp [hn]
        · intro i h1 h2
          simp [lookV, List.getD_eq_getElem?_getD, h1]
      cases hj : (jacLoop xv outs : M W (List (List ℝ))) s2 with
      | error e => rw [bind_err hj] at hrun; cases hrun
      | ok q =>
        obtain ⟨rs, s3⟩ := q
        rw [bind_ok hj] at hrun
        cases hen : (endNested : M W Unit) s3 with
        | error e => rw [bind_err hen] at hrun; cases hrun
        | ok q =>
          obtain ⟨u, s4⟩ := q
          rw [bind_ok hen] at hrun
          cases hrun
          have hlev := r.keep.level
          have hnv := r.keep.nestVari
          have hvh := h.vhead
          simp only [St.begun] at hlev hnv
          rw [hlist] at hj
          have := r.jac hcok (List.range n) r.sim.inv (by omega) (by simp only [maxNestedStack] at *; omega)
            (by rw [hnv, hlev]; simp [hvh]) (fun k hk => by rw [hn]; exact List.mem_range.mp hk) hj
          exact ⟨by rw [← r.len]; exact hn.symm, rfl, this.1⟩
    · have e3 : ∃ e, (confN n outs : M W (List Var)) s2 = .error e := by
        unfold confN; rw [if_neg hn]; exact ⟨_, rfl⟩
      obtain ⟨e, e3⟩ := e3
      rw [bind_err e3] at hrun
      cases hrun

end Fz
