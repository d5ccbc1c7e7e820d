import Verif.Proof.OdeStale

/-!
# The sensitivity right-hand side of example/ode/param.F90 at time 1

`p(1) * p(2) * p(3) * t` with `t = 1.0` overwrites the chain procedure of the product; the sweep over the record fails.
-/

set_option linter.unusedSectionVars false

namespace Fz
open Arith Spec

variable {W : Type} [Rep W ℝ] [LawfulRep W ℝ]
variable {s s' : St W} {g g' : Graph ℝ} {val adj val' adj' : Nat → ℝ}

theorem unary_grown (h : Inv s g val adj) {v r : Var} (hv : g.Has v) {f : ℝ → ℝ} {c : Chain}
    (e : (unary f c v : M W Var) s = .ok (r, s')) :
    r = ⟨s.vhead⟩ ∧ Inv.Grown s g val adj ⟨s.tape.head, [g.pos v], [], c, .plain⟩ (f (val (g.pos v))) s' := by
  by_cases hc : s.tape.head + 7 ≤ cap
  · obtain ⟨s1, e1, gr⟩ := h.unary_ok hv f c hc
    rw [e1] at e
    cases e
    exact ⟨rfl, gr⟩
  · exfalso
    unfold unary at e
    rw [bind_ok (h.varVal hv)] at e
    obtain ⟨k, s1, e1, -⟩ := bind_inv e
    unfold newVarOp newVariValOp at e1
    rw [bind_ok (h.varIdxs (vs := [v]) (by simp [hv]))] at e1
    obtain ⟨k, s2, e2, -⟩ := bind_inv e1
    obtain ⟨y, hy⟩ := newVariWith_err (W := W) (s := s)
      (push := fun t => t.pushValOp (f (val (g.pos v))) ([v].map g.pos))
      (Tape.pushValOp_err h.ok _ _ (by simp; omega))
    rw [hy] at e2
    cases e2

theorem push_setChain {nd : Node ℝ} {k : Nat} (hk : k = g.nodes.length) {c : Chain} :
    (g.push nd).setChain k c = g.push { nd with chain := c } := by
  subst hk
  simp [Graph.push, Graph.setChain, List.modify_eq_take_cons_drop]

/-- new variables, whatever procedures they inherit -/
theorem newVars_inv : ∀ (xs : List ℝ) {s s' : St W} {g : Graph ℝ} {val adj : Nat → ℝ} {vs : List Var},
    Inv s g val adj → (∀ nd ∈ g.nodes, nd.ChainOK) → (newVars xs : M W (List Var)) s = .ok (vs, s') →
    ∃ g' val' adj', Inv s' g' val' adj' ∧ (∀ nd ∈ g'.nodes, nd.ChainOK) ∧ (∀ v ∈ vs, g'.Has v) ∧ g.Prefix g' ∧
      Keep s s' ∧ vs.length = xs.length := by
  intro xs
  induction xs with
  | nil =>
    intro s s' g val adj vs h hc e
    cases e
    exact ⟨g, val, adj, h, hc, by simp, .refl _, .refl _, rfl⟩
  | cons x xs ih =>
    intro s s' g val adj vs h hc e
    unfold newVars at e
    rw [List.mapM_cons] at e
    obtain ⟨v, s1, e1, e⟩ := bind_inv e
    obtain ⟨ws, s2, e2, e⟩ := bind_inv e
    cases e
    obtain ⟨rfl, G⟩ := newVar_grown h e1
    obtain ⟨g', val', adj', i, c, hv, p, k, l⟩ := ih G.inv (by
      intro nd hn
      simp only [Graph.push, List.mem_append, List.mem_singleton] at hn
      rcases hn with hn | rfl
      · exact hc nd hn
      · exact fun _ => rfl) e2
    refine ⟨g', val', adj', i, c, ?_, ((Graph.Prefix.refl g).push _).trans p, G.keep.trans k, by simp [l]⟩
    intro w hw
    rcases List.mem_cons.mp hw with rfl | hw
    · have := h.vhead
      exact p.has (by simp [Graph.Has, Graph.push]; omega)
    · exact hv w hw

theorem sens_at_one {fp : ℝ → List Var → List Var → List Var → M W (List Var)} {f : ℝ → List ℝ → List ℝ} {t : ℝ}
    (hfp : ∀ y1 y2 f1 f2 p1 p2 p3, fp t [y1, y2] [f1, f2] [p1, p2, p3] = do
      let a ← mulVV (R := ℝ) p1 p2
      let b ← mulVV (R := ℝ) a p3
      let c ← mulVD b (1 : ℝ)
      let d ← unary (W := W) (R := ℝ) Real.sin .sin c
      pure [y2, d])
    {y q : List ℝ} (hy : y.length = 2) {S : List (List ℝ)} {out : Nat → Nat → ℝ} (h : Inv s g val adj)
    (hc : ∀ nd ∈ g.nodes, nd.ChainOK) :
    ∃ e, setSensRhs (newCvsRhsPvar false 3 q f fp) t y S out s = .error e := by
  cases e : setSensRhs (newCvsRhsPvar false 3 q f fp) t y S out s with
  | error e' => exact ⟨e', rfl⟩
  | ok r =>
  exfalso
  obtain ⟨out', s'⟩ := r
  rw [setSensRhs_p _ _ _ _ _ _ _ _ _ _ rfl (by simp)] at e
  obtain ⟨⟨⟩, s0, e0, k1⟩ := bind_inv e
  obtain ⟨hl, rfl⟩ := begin_run e0
  obtain ⟨yv, s1, e1, k2⟩ := bind_inv k1
  obtain ⟨fv, s2, e2, k3⟩ := bind_inv k2
  obtain ⟨qv, s2', e2', k4⟩ := bind_inv k3
  obtain ⟨qv', s2'', e2'', k5⟩ := bind_inv k4
  obtain ⟨hql, rfl, rfl⟩ := confN_inv e2''
  obtain ⟨o, s3, e3, k6⟩ := bind_inv k5
  obtain ⟨o', s4, e4, k7⟩ := bind_inv k6
  obtain ⟨hlen, rfl, rfl⟩ := confN_inv e4
  obtain ⟨ou, s5, e5, k8⟩ := bind_inv k7
  obtain ⟨g1, v1, a1, i1, c1, h1, q1, kp1, l1⟩ := newVars_inv _ h.begun hc e1
  obtain ⟨g2, v2, a2, i2, c2, h2, q2, kp2, l2⟩ := newVars_inv _ i1 c1 e2
  obtain ⟨g3, v3, a3, i3, c3, h3, q3, kp3, l3⟩ := newVars_inv _ i2 c2 e2'
  have l1' : yv.length = 2 := by omega
  have l2' : fv.length = 2 := by simp at l2; omega
  match yv, l1', fv, l2', qv', hql with
  | [y1, y2], _, [f1, f2], _, [p1, p2, p3], _ =>
  rw [hfp] at e3
  obtain ⟨a, t1, f1', e3⟩ := bind_inv e3
  obtain ⟨b, t2, f2', e3⟩ := bind_inv e3
  obtain ⟨c, t3, f3', e3⟩ := bind_inv e3
  obtain ⟨d, t4, f4', e3⟩ := bind_inv e3
  cases e3
  obtain ⟨rfl, G1⟩ := binary_grown i3 (h3 p1 (by simp)) (h3 p2 (by simp)) f1'
  have hv0 := i3.vhead
  have hv1 := G1.inv.vhead
  obtain ⟨rfl, G2⟩ := binary_grown G1.inv (by simp [Graph.Has, Graph.push]; omega)
    (((Graph.Prefix.refl g3).push _).has (h3 p3 (by simp))) f2'
  have hm : (mulVD (⟨t1.vhead⟩ : Var) (1 : ℝ) : M W Var) = (do Var.setChain ⟨t1.vhead⟩ .mulVD; pure ⟨t1.vhead⟩) := by
    unfold mulVD
    rw [if_neg (by simp [fne, Arith.feq, Arith.one])]
  rw [hm] at f3'
  obtain ⟨⟨⟩, t3', f5, f6⟩ := bind_inv f3'
  cases f6
  have key : ∀ {gA : Graph ℝ} {nB : Node ℝ} {vv aa : Nat → ℝ}, nB.dops = [] → nB.kind = .plain →
      Inv t2 (gA.push nB) vv aa → gA.nodes.length + 1 = t1.vhead → g3.Prefix gA → (∀ nd ∈ gA.nodes, nd.ChainOK) →
      Keep s2'' t2 → False := by
    intro gA nB vv aa hd hk iB hvB pA cA kB
    have hat : (gA.push nB).At ⟨t1.vhead⟩ nB := ⟨by simp; omega, by simp [Graph.push, ← hvB]⟩
    obtain ⟨t5, f7, i5, b1, b2, b3⟩ := iB.setChain_ok (v := ⟨t1.vhead⟩) hat .mulVD
    rw [f7] at f5
    cases f5
    rw [push_setChain (by simp [← hvB])] at i5
    have hhas : (gA.push { nB with chain := .mulVD }).Has ⟨t1.vhead⟩ := by simp [Graph.Has, Graph.push]; omega
    obtain ⟨rfl, G4⟩ := unary_grown i5 hhas f4'
    have hk' := ((((kp1.trans kp2).trans kp3).trans kB).trans b3).trans G4.keep
    have hreg := sens_begun h hl hk'
    have hpre : g.nodes.length ≤ gA.nodes.length := ((q1.trans (q2.trans (q3.trans pA))).nodes).length_le
    unfold sensRows at e5
    obtain ⟨u, t6, f8, e5⟩ := bind_inv e5
    obtain ⟨hf, -⟩ := gradNested_run G4.inv (by
      intro nd hn
      simp only [Graph.push, List.mem_append, List.mem_singleton] at hn
      rcases hn with (hn | rfl) | rfl
      · exact Or.inl (cA nd hn)
      · left
        simp [Node.ChainOK, hk]
      · left
        simp [Node.ChainOK]) (v := y2) (by
      refine ((Graph.Prefix.refl _).push _).has (((Graph.Prefix.refl _).push _).has (pA.has (q3.has (q2.has (h1 y2 (by simp))))))
      ) hreg.pos hreg.le hreg.start (by simp [Graph.push]; omega) f8
    obtain ⟨l, hl⟩ := hf { nB with chain := .mulVD } (by
      simp only [Graph.push]
      rw [List.append_assoc, List.drop_append_of_le_length hpre]
      simp) fun _ => 0
    cases nB with | mk pos ops dops chain kind =>
    cases hd
    cases hk
    simp [Node.contrib, contribPlain, cDat] at hl
  refine key rfl rfl G2.inv ?_ ((Graph.Prefix.refl g3).push _) ?_ (G1.keep.trans G2.keep)
  · omega
  · intro nd hn
    simp only [Graph.push, List.mem_append, List.mem_singleton] at hn
    rcases hn with hn | rfl
    · exact c3 nd hn
    · simp [Node.ChainOK]

end Fz
