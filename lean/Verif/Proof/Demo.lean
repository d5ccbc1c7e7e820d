import Verif.Proof.Total
import Verif.Spec.Reps

/-!
# A concrete history

Used beside the theorems, to show that their assumptions are met: two variables, their product, and a
sweep from it.
-/

set_option linter.unusedSectionVars false

namespace Fz
open Arith Spec

/-- `x = var(2); y = var(3); z = x*y; call z%grad()` -/
noncomputable def demo : List (Call ℝ) :=
  [.make (.newVals [2, 3]), .make (.bin .mul 0 1), .grad 2]

theorem run_one {W R : Type} [Arith R] [Rep W R] {k : Call R} {ks : List (Call R)} {c c' : Client W}
    (h : k.exec c = .ok c') : Spec.run (k :: ks) c = Spec.run ks c' := by
  show (k.exec c >>= fun c => Spec.run ks c) = _
  rw [h]
  rfl

variable {W : Type} [Rep W ℝ] [LawfulRep W ℝ]

theorem exec_make {m : Make ℝ} {c : Client W} {vs : List Var} {s : St W}
    (ha : ∀ i ∈ m.args, i < c.env.length) (h : m.call c.env c.st = .ok (vs, s)) :
    (Call.make m).exec c = .ok ⟨s, c.env ++ vs, c.marks⟩ := by
  unfold Call.exec
  rw [if_pos (show ∀ i ∈ (Call.make m).args, i < c.env.length from ha)]
  show (match m.call c.env c.st with | .ok (vs, s) => _ | .error e => _) = _
  rw [h]

theorem exec_keep {k : Call ℝ} {c : Client W} {m : M W Unit} {s : St W}
    (ha : ∀ i ∈ k.args, i < c.env.length) (hk : k.step c = c.keep m) (h : m c.st = .ok ((), s)) :
    k.exec c = .ok ⟨s, c.env, c.marks⟩ := by
  unfold Call.exec
  rw [if_pos ha, hk]
  unfold Client.keep
  rw [h]

/-- the product of the two inputs, with the inputs -/
noncomputable def demoProg : Prog := .op (.bin .mul 0 1) (.ret [0, 1, 2])

theorem demoProg_sem (a b : ℝ) (l : List ℝ) : demoProg.sem (a :: b :: l) =
    [a, b, look (a :: b :: (l ++ [a * b])) 2] := by
  simp [demoProg, Prog.sem, Instr.sem, look, Bin.fn]

theorem demo_grad {df : List ℝ} (h : IsGradAt (demoProg.out [] 2) [2, 3] df) : df = [3, 2] := by
  have hl := h.1
  obtain ⟨a, b, rfl⟩ : ∃ a b, df = [a, b] := List.length_eq_two.mp (by simpa using hl)
  have h0 := h.partial ⟨0, by simp⟩
  have h1 := h.partial ⟨1, by simp⟩
  have e0 : (fun t : ℝ => demoProg.out [] 2 (List.ofFn (Function.update
      (fun j : Fin ([2, 3] : List ℝ).length => ([2, 3] : List ℝ)[j]) ⟨0, by simp⟩ t))) = fun t => t * 3 := by
    funext t
    simp [Prog.out, List.ofFn_succ, Function.update, demoProg_sem, look]
  have e1 : (fun t : ℝ => demoProg.out [] 2 (List.ofFn (Function.update
      (fun j : Fin ([2, 3] : List ℝ).length => ([2, 3] : List ℝ)[j]) ⟨1, by simp⟩ t))) = fun t => 2 * t := by
    funext t
    simp [Prog.out, List.ofFn_succ, Function.update, demoProg_sem, look]
  rw [e0] at h0
  rw [e1] at h1
  have d0 : HasDerivAt (fun t : ℝ => t * 3) 3 2 := by simpa using (hasDerivAt_id (2:ℝ)).mul_const 3
  have d1 : HasDerivAt (fun t : ℝ => 2 * t) 2 3 := by simpa using (hasDerivAt_id (3:ℝ)).const_mul 2
  have u0 := h0.unique d0
  have u1 := h1.unique d1
  simp at u0 u1
  rw [u0, u1]

theorem demo_reach : ∃ c : Client W, Reach demo c ∧
    (vals c.env : M W (List ℝ)) c.st = .ok ([2, 3, 6], c.st) ∧
    (adjs (c.env.take 2) : M W (List ℝ)) c.st = .ok ([3, 2], c.st) ∧
    c.st.tape.head = 21 ∧ c.st.level = 0 ∧ (∃ v, c.env = [⟨1⟩, ⟨2⟩, v]) ∧
    ∃ g val adj, Fine c.st g val adj 0 True ∧ ∀ v ∈ c.env, g.Has v := by
  obtain ⟨xv, outs, s1, s2, e1, e2, g', val', adj', D', ε', r⟩ := ranC (W := W) (x := [2, 3]) (ys := [])
    (p := demoProg) (inv_init (fun _ => 0) (fun _ => 0)) (env := []) (by simp) rfl
    (by simp [demoProg, Prog.Ok, Instr.Ok, Instr.sem, Bin.domVV]) (by
      simp [demoProg, Room, Prog.cost, Instr.cost, St.init, Tape.init, tapeLimit])
  have hf := r.fine (fine_init _ _ _ _)
  have hleaf := r.leafs (n := 0) (fine_init _ _ _ _)
  have hsem : demoProg.sem ([2, 3] ++ []) = [2, 3, 6] := by
    simp [demoProg, Prog.sem, Instr.sem, look, Bin.fn]; norm_num
  have hv := r.vals r.sim.inv
  rw [hsem] at hv
  have hol : outs.length = 3 := by rw [r.len, hsem]; rfl
  have hxl : xv.length = 2 := by rw [r.xlen]; simp
  have hxv : xv = [⟨1⟩, ⟨2⟩] := by
    apply List.ext_getElem (by simp [hxl])
    intro n h1 h2
    rw [(r.xs n h1).2.2.1]
    simp only [List.length_cons, List.length_nil, Nat.zero_add, Nat.reduceAdd] at h2
    interval_cases n <;> rfl
  subst hxv
  have hh := r.head
  have hlev := r.keep.level
  simp [demoProg, Prog.cost, Instr.cost, St.init, Tape.init] at hh hlev
  -- the product
  cases e3 : (mulVV (R := ℝ) ⟨1⟩ ⟨2⟩ : M W Var) s1 with
  | error e =>
    exfalso
    have e3' : (Instr.run (.bin .mul 0 1) [⟨1⟩, ⟨2⟩] : M W (List Var)) s1 = .error e :=
      bind_err (f := fun v => pure [v]) e3
    have : (demoProg.run ([⟨1⟩, ⟨2⟩] ++ []) : M W (List Var)) s1 = .error e :=
      bind_err (f := fun vs => Prog.run (.ret [0, 1, 2]) (([⟨1⟩, ⟨2⟩] : List Var) ++ vs)) e3'
    rw [this] at e2
    cases e2
  | ok q =>
    obtain ⟨v, s3⟩ := q
    have e3' : (Instr.run (.bin .mul 0 1) [⟨1⟩, ⟨2⟩] : M W (List Var)) s1 = .ok ([v], s3) :=
      bind_ok (f := fun v => pure [v]) e3
    have : (demoProg.run ([⟨1⟩, ⟨2⟩] ++ []) : M W (List Var)) s1 = .ok ([⟨1⟩, ⟨2⟩, v], s3) :=
      bind_ok (f := fun vs => Prog.run (.ret [0, 1, 2]) (([⟨1⟩, ⟨2⟩] : List Var) ++ vs)) e3'
    rw [this] at e2
    obtain ⟨rfl, rfl⟩ : outs = [⟨1⟩, ⟨2⟩, v] ∧ s2 = s3 := by cases e2; exact ⟨rfl, rfl⟩
    obtain ⟨m, e4⟩ := r.gradTotal hf r.sim.inv (k := 2) (by simp)
    obtain ⟨m', df, e5, i, ha, hg⟩ := r.grad r.sim.inv (fun nd hn => (r.zero nd hn).2) (by simp [Graph.empty])
      (k := 2) (by simp) e4
    rw [demo_grad hg] at ha
    refine ⟨⟨s2.withMem m, [⟨1⟩, ⟨2⟩, v], []⟩, ⟨by simp [demo, Call.Sane, Make.Sane], ?_⟩, ?_, ha, hh, hlev, ⟨v, rfl⟩,
      g', val', _, ⟨i, hf, fun k hk _ => hleaf k hk⟩, ?_⟩
    · have k1 : (Call.make (R := ℝ) (.newVals [2, 3])).exec (Client.init : Client W) =
          .ok ⟨s1, [⟨1⟩, ⟨2⟩], []⟩ := exec_make (c := Client.init) (by simp [Make.args]) e1
      have k2 : (Call.make (R := ℝ) (.bin .mul 0 1)).exec (⟨s1, [⟨1⟩, ⟨2⟩], []⟩ : Client W) =
          .ok ⟨s2, [⟨1⟩, ⟨2⟩, v], []⟩ :=
        exec_make (c := ⟨s1, [⟨1⟩, ⟨2⟩], []⟩) (vs := [v]) (by simp [Make.args])
          (bind_ok (f := fun v => pure [v]) e3)
      have k3 : (Call.grad (R := ℝ) 2).exec (⟨s2, [⟨1⟩, ⟨2⟩, v], []⟩ : Client W) =
          .ok ⟨s2.withMem m, [⟨1⟩, ⟨2⟩, v], []⟩ :=
        exec_keep (c := ⟨s2, [⟨1⟩, ⟨2⟩, v], []⟩) (by simp [Call.args]) rfl e4
      unfold demo
      rw [run_one k1, run_one k2, run_one k3]
      rfl
    · have hv2 := i.varVals (vs := [⟨1⟩, ⟨2⟩, v]) fun w hw => by
        obtain ⟨k, hk, rfl⟩ := List.getElem_of_mem hw
        exact (r.os k hk).has
      have hv1 := r.sim.inv.varVals (vs := [⟨1⟩, ⟨2⟩, v]) fun w hw => by
        obtain ⟨k, hk, rfl⟩ := List.getElem_of_mem hw
        exact (r.os k hk).has
      rw [hv1] at hv
      have : (List.map (fun w => val' (g'.pos w)) [⟨1⟩, ⟨2⟩, v] : List ℝ) = [2, 3, 6] := by
        injection hv with hv
        injection hv
      rw [this] at hv2
      exact hv2
    · intro w hw
      obtain ⟨k, hk, rfl⟩ := List.getElem_of_mem hw
      exact (r.os k hk).has

end Fz
