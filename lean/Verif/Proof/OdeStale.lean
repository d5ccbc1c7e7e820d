import Verif.Proof.OdeSol
import Verif.Proof.Ground

/-!
# Two calls of the sensitivity right-hand side of `y' = y²` with a variable made in between

The second call finds the chain procedure of the product of the first one in the slot of a new variable.
-/

set_option linter.unusedSectionVars false

namespace Fz
open Arith Spec

variable {W : Type} [Rep W ℝ] [LawfulRep W ℝ] {σ : Type}
variable {s s' : St W} {g g' : Graph ℝ} {val adj val' adj' : Nat → ℝ}

theorem newVar_grown (h : Inv s g val adj) {x : ℝ} {v : Var} (e : (newVar x : M W Var) s = .ok (v, s')) :
    v = ⟨s.vhead⟩ ∧ Inv.Grown s g val adj ⟨s.tape.head, [], [], (s.varis s.vhead).chain, .plain⟩ x s' := by
  by_cases hc : s.tape.head + 6 ≤ cap
  · obtain ⟨s1, e1, gr⟩ := h.newVar_ok x hc
    rw [e1] at e
    cases e
    exact ⟨rfl, gr⟩
  · exfalso
    unfold newVar newVariVal at e
    obtain ⟨k, s1, e1, -⟩ := bind_inv e
    obtain ⟨y, hy⟩ := newVariWith_err (W := W) (s := s) (push := fun t => t.pushVal x)
      (Tape.pushVal_err h.ok x (by omega))
    rw [hy] at e1
    cases e1

theorem binary_grown (h : Inv s g val adj) {v w r : Var} (hv : g.Has v) (hw : g.Has w) {f : ℝ → ℝ → ℝ} {c : Chain}
    (e : (binary f c v w : M W Var) s = .ok (r, s')) :
    r = ⟨s.vhead⟩ ∧ Inv.Grown s g val adj ⟨s.tape.head, [g.pos v, g.pos w], [], c, .plain⟩
      (f (val (g.pos v)) (val (g.pos w))) s' := by
  by_cases hc : s.tape.head + 8 ≤ cap
  · obtain ⟨s1, e1, gr⟩ := h.binary_ok hv hw f c hc
    rw [e1] at e
    cases e
    exact ⟨rfl, gr⟩
  · exfalso
    unfold binary at e
    rw [bind_ok (h.varVal hv), bind_ok (h.varVal hw)] at e
    obtain ⟨k, s1, e1, -⟩ := bind_inv e
    unfold newVarOp newVariValOp at e1
    rw [bind_ok (h.varIdxs (vs := [v, w]) (by simp [hv, hw]))] at e1
    obtain ⟨k, s2, e2, -⟩ := bind_inv e1
    obtain ⟨y, hy⟩ := newVariWith_err (W := W) (s := s)
      (push := fun t => t.pushValOp (f (val (g.pos v)) (val (g.pos w))) ([v, w].map g.pos))
      (Tape.pushValOp_err h.ok _ _ (by simp; omega))
    rw [hy] at e2
    cases e2

theorem partials_grown (h : Inv s g val adj) {vs : List Var} {r : Var} (hv : ∀ v ∈ vs, g.Has v) {x : ℝ} {ds : List ℝ}
    (e : (varWithPartials x vs ds : M W Var) s = .ok (r, s')) : r = ⟨s.vhead⟩ ∧
    Inv.Grown s g val adj ⟨s.tape.head, vs.map g.pos, ds.take vs.length, .eager, .plain⟩ x s' := by
  have hl : vs.length ≤ ds.length := by
    by_contra hl
    unfold varWithPartials at e
    rw [if_pos (by omega)] at e
    cases e
  by_cases hc : s.tape.head + (6 + vs.length + 2 * vs.length) ≤ cap
  · obtain ⟨s1, e1, gr⟩ := h.varWithPartials_ok x hv ds hl hc
    rw [e1] at e
    cases e
    exact ⟨rfl, gr⟩
  · exfalso
    unfold varWithPartials at e
    rw [if_neg (by omega)] at e
    obtain ⟨k, s1, e1, -⟩ := bind_inv e
    unfold newVarOpDop newVariValOpDop at e1
    rw [bind_ok (h.varIdxs hv)] at e1
    obtain ⟨k, s2, e2, -⟩ := bind_inv e1
    obtain ⟨y, hy⟩ := newVariWith_err (W := W) (s := s)
      (push := fun t => t.pushValOpDop x (vs.map g.pos) (ds.take vs.length))
      (Tape.pushValOpDop_err h.ok _ _ _ (by simp; omega))
    rw [hy] at e2
    cases e2

/-- the product of the only component with itself, whatever it is called -/
def IsSquare (fy : ℝ → List Var → List Var → M W (List Var)) : Prop :=
  ∀ t y f, fy t [y] [f] = do
    let r ← mulVV (R := ℝ) y y
    pure [r]

theorem sens_square {fy : ℝ → List Var → List Var → M W (List Var)} (hfy : IsSquare fy) {f : ℝ → List ℝ → List ℝ}
    {t : ℝ} {y : List ℝ} {S : List (List ℝ)} {out out' : Nat → Nat → ℝ} (h : Inv s g val adj)
    (hc : ∀ nd ∈ g.nodes, nd.ChainOK)
    (e : setSensRhs (newCvsRhsYvar true 1 f fy) t y S out s = .ok (out', s')) :
    (s.varis (s.vhead + 1)).chain ≠ .mulVV ∧ (s'.varis (s.vhead + 2)).chain = .mulVV ∧ s'.vhead = s.vhead ∧
      ∃ val' adj', Inv s' g val' adj' := by
  by_cases hy : y.length = 1
  swap
  · exfalso
    unfold setSensRhs at e
    obtain ⟨_, s1, -, k1⟩ := bind_inv e
    obtain ⟨_, s2, -, k2⟩ := bind_inv k1
    obtain ⟨_, s3, -, k3⟩ := bind_inv k2
    obtain ⟨_, s4, k4, -⟩ := bind_inv k3
    have : (!((newCvsRhsYvar true 1 f fy).ys && (newCvsRhsYvar true 1 f fy).ns == y.length)) = true := by
      simp [newCvsRhsYvar, Ne.symm hy]
    rw [this] at k4
    obtain ⟨_, s5, k5, -⟩ := bind_inv k4
    cases k5
  obtain ⟨a, rfl⟩ := List.length_eq_one_iff.mp hy
  rw [setSensRhs_y 1 _ _ _ [a] _ _ rfl] at e
  obtain ⟨⟨⟩, s0, e0, k1⟩ := bind_inv e
  obtain ⟨hl, rfl⟩ := begin_run e0
  obtain ⟨yv, s1, e1, k2⟩ := bind_inv k1
  obtain ⟨fv, s2, e2, k3⟩ := bind_inv k2
  obtain ⟨o, s3, e3, k4⟩ := bind_inv k3
  obtain ⟨o', s4, e4, k5⟩ := bind_inv k4
  obtain ⟨hlen, rfl, rfl⟩ := confN_inv e4
  obtain ⟨ou, s5, e5, k6⟩ := bind_inv k5
  obtain ⟨⟨⟩, s6, e6, k7⟩ := bind_inv k6
  cases k7
  have one : ∀ {x : ℝ} {vs : List Var} {u u' : St W}, (newVars [x] : M W (List Var)) u = .ok (vs, u') →
      ∃ v, vs = [v] ∧ (newVar x : M W Var) u = .ok (v, u') := by
    intro x vs u u' e
    unfold newVars at e
    rw [List.mapM_cons] at e
    obtain ⟨v, u1, q1, e⟩ := bind_inv e
    obtain ⟨w, u2, q2, e⟩ := bind_inv e
    cases q2
    cases e
    exact ⟨v, rfl, q1⟩
  obtain ⟨v1, rfl, e1'⟩ := one e1
  obtain ⟨v2, rfl, e2'⟩ := one e2
  obtain ⟨rfl, G1⟩ := newVar_grown h.begun e1'
  obtain ⟨rfl, G2⟩ := newVar_grown G1.inv e2'
  rw [hfy] at e3
  obtain ⟨r, s3', e3', k⟩ := bind_inv e3
  cases k
  have hv1 := h.begun.vhead
  have hv2 := G1.vhead
  have hv3 := G2.vhead
  obtain ⟨rfl, G3⟩ := binary_grown G2.inv (by
    simp [Graph.Has, Graph.push]; omega) (by simp [Graph.Has, Graph.push]; omega) e3'
  have hch : (s1.varis s1.vhead).chain = (s.varis (s.vhead + 1)).chain := by
    rw [G1.keep.slots _ (Nat.le_refl _), hv2]
    rfl
  have ho : ∀ (ops : List Nat), ∀ nd ∈ (((g.push ⟨s.begun.tape.head, [], [], (s.begun.varis s.begun.vhead).chain, .plain⟩).push
      ⟨s1.tape.head, [], [], (s1.varis s1.vhead).chain, .plain⟩).push ⟨s2.tape.head,
        ops, [], .mulVV, .plain⟩).nodes, nd.ChainOK := by
    intro ops nd hn
    simp only [Graph.push, List.mem_append, List.mem_singleton] at hn
    rcases hn with ((hn | rfl) | rfl) | rfl
    · exact hc nd hn
    · exact fun _ => rfl
    · exact fun _ => rfl
    · exact (show Chain.notMM .mulVV by decide).ok _ _ _
  have hk := (G1.keep.trans G2.keep).trans G3.keep
  have hreg := sens_begun h hl hk
  unfold sensRows at e5
  obtain ⟨u, t1, f1, e5⟩ := bind_inv e5
  obtain ⟨hf, m1, rfl, i1⟩ := gradNested_run G3.inv (fun nd hn => Or.inl (ho _ nd hn)) (v := ⟨s2.vhead⟩) (by
    have := G2.inv.vhead
    simp [Graph.Has, Graph.push] at this ⊢
    omega) hreg.pos hreg.le hreg.start (by simp [Graph.push]) f1
  obtain ⟨o1, t2, f2, e5⟩ := bind_inv e5
  obtain ⟨rfl, -, -⟩ := sensDots_ok i1 (by simp [Graph.Has, Graph.push]; omega) 0 _ _ _ f2
  obtain ⟨o2, t3, f3, e5⟩ := bind_inv e5
  cases f3
  obtain ⟨m2, a2, f4, i2, -, -⟩ := zeroRegion_ok (g := g) i1 hreg.withMem (by simp [Graph.push]) (by
    intro nd hn nd' hn'
    have h0 := h.node_lt hn
    have h1 := G1.keep.head
    have h2 := G2.keep.head
    simp [Graph.push] at hn'
    simp only [St.begun] at h1
    rcases hn' with rfl | rfl | rfl <;> simp [St.begun] <;> omega)
  rw [bind_ok f4] at e5
  cases e5
  have hlev := hk.level
  have hnv := hk.nestVari
  have hnt := hk.nestTape
  have hh := hk.head
  have hvh := h.vhead
  simp only [St.begun] at hlev hnv hnt hh
  have hi := i2
  have hfull : s4.tape.head ≤ s4.tape.size :=
    endNested_full (t := (s4.withMem m1).withMem m2) (by simp [St.withMem]; omega)
      (by simp only [St.withMem, maxNestedStack] at *; omega)
      (by simp only [St.withMem]; rw [hnt, hlev]; simp; omega) e6
  obtain ⟨t', e', i, a1, a2, a3, a4, a5, a6, a7⟩ := endNested_ok (lo := s.tape.head) hi
    ((((Graph.Prefix.refl g).push _).push _).push _) h.wf
    h.ok.head_pos (by simp [St.withMem]; omega) hfull (by simp [St.withMem]; omega)
    (by simp only [St.withMem, maxNestedStack] at *; omega)
    (by simp only [St.withMem]; rw [hnt, hlev]; simp) (by simp only [St.withMem]; rw [hnv, hlev]; simp [hvh])
  rw [e'] at e6
  cases e6
  refine ⟨fun hm => ?_, ?_, by rw [a4, hvh], _, _, i⟩
  · rw [← hch] at hm
    obtain ⟨l, hl⟩ := hf ⟨s1.tape.head, [], [], (s1.varis s1.vhead).chain, .plain⟩ (by simp [Graph.push]) fun _ => 0
    rw [hm] at hl
    cases hl
  · rw [a6]
    have := G3.inv.tab (g.nodes.length + 2) _ (by
      simp only [Graph.push]
      rw [List.getElem?_append_right (by simp)]
      simp
      rfl)
    simp only [St.begun] at hv1
    rw [show s.vhead + 2 = g.nodes.length + 2 + 1 by omega]
    show (s4.varis (g.nodes.length + 2 + 1)).chain = _
    rw [this]

end Fz
