import Verif.Proof.MirrorOde
import Verif.Proof.Rules
import Verif.Props.LenientOde
import Verif.Spec.LenientRules

/-!
# The chain rule without checks of array shapes: the run and its twin
-/

set_option linter.unusedSectionVars false

namespace Fz
open Arith Spec

section generic
variable {W R : Type} [Arith R] [Rep W R] {T : Nat → Prop}

theorem blind_user_all (hT : ∀ k, ¬ T k) (x : R) (r : URule) (vs : List Var) (ds : List R) :
    Blind T (userOp x r vs ds : M W Var) := by
  unfold userOp
  cases ds with
  | nil => exact .bind (blind_newVarOp _ _) fun _ => .bind (blind_setIndexedChain _ fun h => (hT _ h).elim) fun _ => .pure _
  | cons d ds =>
    exact .bind (blind_newVarOpDop _ _ _) fun _ => .bind (blind_setIndexedChain _ fun h => (hT _ h).elim) fun _ => .pure _

end generic

variable {W : Type} [Rep W ℝ] [LawfulRep W ℝ] {T : Nat → Prop}
variable {s t s' t' : St W} {g g' : Graph ℝ} {val adj val' adj' : Nat → ℝ} {u : Var}

theorem blind_instr_all (hT : ∀ k, ¬ T k) (i : Instr) (env : List Var) : Blind T (i.run env : M W (List Var)) := by
  by_cases h : i.Mild
  · exact blind_instr h env
  · cases i with
    | matmulVV a b =>
      exact .bind (blind_pushVarMat _) fun _ => .bind (blind_pushVarMat _) fun _ => .bind (blind_matVals _) fun _ =>
        .bind (blind_matVals _) fun _ => .ite (blind_matmulLoop hT _ _ _ _ _) (blind_fail _)
    | matmulVD a b =>
      exact .bind (blind_pushVarMat _) fun _ => .bind (blind_pushDataMat _) fun _ => .bind (blind_matVals _) fun _ =>
        .ite (blind_matmulLoop hT _ _ _ _ _) (blind_fail _)
    | matmulDV a b =>
      exact .bind (blind_pushDataMat _) fun _ => .bind (blind_pushVarMat _) fun _ => .bind (blind_matVals _) fun _ =>
        .ite (blind_matmulLoop hT _ _ _ _ _) (blind_fail _)
    | user φ r is ds => exact blind_one (.bind (blind_vals _) fun _ => blind_user_all hT _ _ _ _)
    | _ => exact (h trivial).elim

theorem blind_prog_all (hT : ∀ k, ¬ T k) : ∀ (p : Prog) (env : List Var), Blind T (p.run env : M W (List Var))
  | .ret _, _ => .pure _
  | .op _ k, _ => .bind (blind_instr_all hT _ _) fun _ => blind_prog_all hT k _
  | .ifVV _ _ _ p q, _ => .bind (blind_relVV _ _ _) fun _ => .ite (blind_prog_all hT p _) (blind_prog_all hT q _)
  | .ifVD _ _ _ p q, _ => .bind (blind_relVD _ _ _) fun _ => .ite (blind_prog_all hT p _) (blind_prog_all hT q _)

/-- as `Rated.grown`, with new constants, when the free entries of the table are harmless -/
theorem Rated.grownAll {D ε D' ε' : Nat → ℝ →L[ℝ] ℝ} {n : Nat} (h : Rated t g val adj D ε u)
    (hl : ∀ k, t.vhead ≤ k → LeafSafe (t.varis k).chain) (sim : Sim t' g' val' adj' D' ε')
    (gr : Grows True t g val adj D ε t' g' val' adj' D' ε' n) : Rated t' g' val' adj' D' ε' u := by
  refine h.grown sim ⟨gr.pre, gr.val, gr.adj, gr.dd, gr.ee, fun nd hnd => ?_, gr.keep, gr.head⟩
  obtain ⟨h1, h2, h3, h4⟩ := gr.news nd hnd
  refine ⟨h1, h2, h3, Or.inl ?_⟩
  rcases h4 with h4 | ⟨-, o1, o2, o3, k, hk, hc⟩
  · exact h4
  · intro ad
    obtain ⟨l, hl⟩ := hl k hk (val' nd.pos) (ad nd.pos)
    refine ⟨l, ?_⟩
    unfold Node.contrib
    rw [o3, o1, o2, hc]
    exact hl

/-- **chain rule**, with new constants -/
theorem Rated.progAll {D ε : Nat → ℝ →L[ℝ] ℝ} (h : Rated t g val adj D ε u)
    (hl : ∀ k, t.vhead ≤ k → LeafSafe (t.varis k).chain) {env : List Var} {p : Prog}
    (he : ∀ v ∈ env, g.Has v) (hok : p.Ok (env.map fun v => val (g.pos v)))
    (hroom : t.tape.head + p.cost (env.map fun v => val (g.pos v)) ≤ cap) :
    ∃ outs t', (p.run env : M W (List Var)) t = .ok (outs, t') ∧
      ∃ g' val' adj' D' ε', Rated t' g' val' adj' D' ε' u ∧ Later t g val adj D t' g' val' adj' D' ∧
      outs.length = (p.sem (env.map fun v => val (g.pos v))).length ∧
      ∀ k (hk : k < outs.length), Shows g' val' D' outs[k] ((p.sem (env.map fun v => val (g.pos v))).getD k 0)
          (D' (g'.pos outs[k]) 1) ∧
        HasDerivAt (fun r => (p.sem (along (env.map fun v => val (g.pos v))
          (env.map fun v => D (g.pos v) 1) r)).getD k 0) (D' (g'.pos outs[k]) 1) 0 := by
  have tc := env_affine h.sim he
  have ea0 : along (env.map fun v => val (g.pos v)) (env.map fun v => D (g.pos v) 1) 0 =
      env.map fun v => val (g.pos v) := along_zero (by simp)
  obtain ⟨outs, t', f, g', val', adj', D', ε', sim, gr, hln, tr⟩ := prog_step (lf := True) p h.sim tc
    (by rw [ea0]; exact hok) (by rw [ea0]; exact hroom) (fun _ => trivial)
  refine ⟨outs, t', f, g', val', adj', D', ε', h.grownAll hl sim gr, ⟨gr.pre, gr.dd, gr.val, gr.adj, by rw [gr.head]; omega⟩, ?_, ?_⟩
  · simpa only [ea0] using hln
  · intro k hk
    refine ⟨⟨(tr k hk).has, ?_, rfl⟩, (tr k hk).deriv.hasDerivAt⟩
    rw [← (tr k hk).value]
    simp only [ea0]

end Fz
