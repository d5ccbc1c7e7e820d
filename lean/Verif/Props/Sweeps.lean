import Verif.Proof.Ground
import Verif.Proof.RegionGrad
import Verif.Proof.Seeds
import Verif.Props.Gradient

/-!
# C05, C09, C19, C20, C21: sweeps, resets and what they do to other variables

`existing s` are all variables of the state `s`.
-/

set_option linter.unusedSectionVars false

namespace Props
open Fz Spec

section generic
variable {W R : Type} [Arith R] [Rep W R] [LawfulRep W R]

theorem existing_has' {s : St W} {g : Graph R} {val adj : Nat → R} (h : Inv s g val adj) {v : Var} :
    v ∈ existing s ↔ g.Has v := by
  have := h.vhead
  unfold existing Graph.Has
  simp only [List.mem_map, List.mem_range]
  constructor
  · rintro ⟨k, hk, rfl⟩
    exact ⟨by simp, by simp; omega⟩
  · rintro ⟨h1, h2⟩
    exact ⟨v.vi - 1, by omega, by cases v; simp at h1 ⊢; omega⟩

/-- **C05**: `set_zero_all_adj()` always completes, sets the adjoint of every existing variable to zero
and changes nothing else: values, variable table, nesting data and all other words of the tape (in
particular the operand records) stay as they are.  For every interpretation of `real64`. -/
theorem C05_clears {h : List (Call R)} {c : Client W} (hr : Reach h c) :
    ∃ m : Nat → W, (setZeroAllAdj : M W Unit) c.st =
        .ok ((), { c.st with tape := { c.st.tape with mem := m } }) ∧
      (∀ v ∈ existing c.st,
        (v.adj : M W R) (c.st.withMem m) = .ok (Arith.zero, c.st.withMem m) ∧
        ∃ d : R, v.val c.st = .ok (d, c.st) ∧ v.val (c.st.withMem m) = .ok (d, c.st.withMem m)) ∧
      ∀ q, (∀ v ∈ existing c.st, q ≠ (c.st.varis v.vi).i + 2 ∧ q ≠ (c.st.varis v.vi).i + 3) →
        m q = c.st.tape.mem q := by
  obtain ⟨g, val, adj, G⟩ := hr.good
  obtain ⟨m, adj', e, i, hz⟩ := G.inv.setZeroAllAdj_ok
  have hv1 : 1 ≤ c.st.vhead := by have := G.inv.vhead; omega
  obtain ⟨m', e', hfr⟩ := setZeroAllAdj_frame hv1 e
  have : m' = m := by
    have := congrArg (fun s => s.tape.mem) e'
    exact this.symm
  subst this
  refine ⟨m', e, fun v hv => ?_, fun q hq => hfr q ?_⟩
  · have hh := (existing_has' G.inv).mp hv
    refine ⟨?_, _, G.inv.varVal hh, i.varVal hh⟩
    rw [i.varAdj hh]
    obtain ⟨nd, h1, h2⟩ := hh.mem_pos
    rw [← h2, hz nd h1]
  · rintro ⟨k, h1, h2, h3⟩
    have := hq ⟨k⟩ (by
      unfold existing
      simp only [List.mem_map, List.mem_range]
      exact ⟨k - 1, by omega, by simp; omega⟩)
    rcases h3 with h3 | h3
    · exact this.1 h3
    · exact this.2 h3

/-- **C21**: inside a nested region `f%grad_nested()` gives the variables of the region the adjoints a
full sweep would give them, and no value is changed.  `n` is the first variable of the region. -/
theorem C21_same_adjoints {h : List (Call R)} {c : Client W} (hr : Reach h c) {f : Var} (hf : f ∈ c.env)
    {n : Nat} (hn : (currNestedVariHead : M W Nat) c.st = .ok (n, c.st)) {s' s'' : St W}
    (h1 : (f.gradNested : M W Unit) c.st = .ok ((), s'))
    (h2 : (f.grad : M W Unit) c.st = .ok ((), s'')) :
    (∀ v : Var, n ≤ v.vi → v.vi < c.st.vhead →
      ∃ a : R, v.adj s' = .ok (a, s') ∧ v.adj s'' = .ok (a, s'')) ∧
    ∀ v ∈ existing c.st, ∃ d : R, v.val c.st = .ok (d, c.st) ∧ v.val s' = .ok (d, s') := by
  obtain ⟨g, val, adj, G⟩ := hr.good
  have hk1 : c.keep f.gradNested = .ok ⟨s', c.env, c.marks⟩ := by unfold Client.keep; rw [h1]
  have hk2 : c.keep f.grad = .ok ⟨s'', c.env, c.marks⟩ := by unfold Client.keep; rw [h2]
  obtain ⟨b, l0, hb, hle, -, G1, -⟩ := G.gradNested hf hk1
  obtain ⟨-, G2, -⟩ := G.grad hf hk2
  have hbn : n = b + 1 := by
    unfold currNestedVariHead at hn
    rw [bind_ok (get_ok _), if_pos l0] at hn
    unfold rdNest at hn
    rw [if_pos ⟨l0, G.max⟩, hb] at hn
    cases hn
    rfl
  have hvh := G.inv.vhead
  refine ⟨fun v hv1 hv2 => ?_, fun v hv => ?_⟩
  · have hh : g.Has v := ⟨by omega, by omega⟩
    obtain ⟨nd, a1, a2⟩ := hh.at
    have hm : nd ∈ g.nodes.drop b := by
      apply List.mem_of_getElem? (i := v.vi - 1 - b)
      rw [List.getElem?_drop, ← a1.2]
      congr 1
      omega
    refine ⟨_, G1.inv.varAdj hh, ?_⟩
    rw [G2.inv.varAdj hh, ← a2, sweep_drop G.inv.wf b _ hm]
  · have hh := (existing_has' G.inv).mp hv
    exact ⟨_, G.inv.varVal hh, G1.inv.varVal hh⟩

end generic

variable {W : Type} [Rep W ℝ] [LawfulRep W ℝ]

theorem bind_inv {α β : Type} {m : M W α} {f : α → M W β} {s s' : St W} {b : β}
    (h : (m >>= f) s = .ok (b, s')) : ∃ a t, m s = .ok (a, t) ∧ f a t = .ok (b, s') := by
  cases e : m s with
  | error x => rw [bind_err e] at h; cases h
  | ok q => exact ⟨q.1, q.2, rfl, by rw [bind_ok (a := q.1) (s' := q.2) e] at h; exact h⟩

/-- **C05**: whatever was done with the adjoints before, after `set_zero_all_adj()` a sweep gives the
derivatives of its output. -/
theorem C05_then_gradient {h : List (Call ℝ)} {c : Client W} (hr : Reach h c) {ys : List ℝ}
    (hys : vals c.env c.st = .ok (ys, c.st)) (p : Prog) (x : List ℝ) (l : List Seed) (k : Nat)
    (hok : p.Ok (x ++ ys)) (hk : k < (p.sem (x ++ ys)).length) (hroom : Room c.st p x ys)
    {df : List ℝ} {s' : St W}
    (hrun : (do let xv ← newVars x
                let outs ← p.run (xv ++ c.env)
                Seed.acts (xv ++ c.env ++ outs) l
                setZeroAllAdj
                (lookV outs k).grad
                adjs xv : M W (List ℝ)) c.st = .ok (df, s')) :
    IsGradAt (fun z => (p.sem (z ++ ys)).getD k 0) x df := by
  obtain ⟨g, val, adj, G⟩ := hr.good
  obtain ⟨xv, outs, s1, s2, e1, e2, g', val', adj', D', ε', r⟩ := ranC G.inv G.has (G.vals hys) hok hroom
  rw [bind_ok e1, bind_ok e2] at hrun
  have hx : ∀ v ∈ xv, g'.Has v := fun v hv => by
    obtain ⟨k, hk, rfl⟩ := List.getElem_of_mem hv
    exact (r.xs k hk).1
  have ho : ∀ v ∈ outs, g'.Has v := fun v hv => by
    obtain ⟨k, hk, rfl⟩ := List.getElem_of_mem hv
    exact (r.os k hk).has
  obtain ⟨u, s3, e3, hrun⟩ := bind_inv hrun
  obtain ⟨m3, a3, rfl, i3⟩ := acts_ok (vs := xv ++ c.env ++ outs) (fun v hv => by
    simp only [List.mem_append] at hv
    rcases hv with (hv | hv) | hv
    · exact hx v hv
    · exact r.pre.has (G.has v hv)
    · exact ho v hv) (RanC.ok r G.okf) l r.sim.inv e3
  obtain ⟨m4, a4, e4, i4, hz⟩ := i3.setZeroAllAdj_ok
  rw [bind_ok e4] at hrun
  obtain ⟨u, s5, e5, hrun⟩ := bind_inv hrun
  obtain ⟨m6, df', rfl, i6, e6, hg⟩ := RanC.grad r i4 (fun nd hn => hz nd (List.mem_of_mem_drop hn)) G.okf
    (by rw [RanC.len r]; exact hk) e5
  rw [e6] at hrun
  cases hrun
  exact hg

/-- a run of the program followed by two sweeps and an assignment to an adjoint: the assumptions of
`C05_then_gradient` can be met -/
example : ∃ (df : List ℝ) (s' : St ℝ),
    (do let xv ← newVars [2, 3]
        let outs ← demoProg.run (xv ++ (Client.init : Client ℝ).env)
        Seed.acts (xv ++ (Client.init : Client ℝ).env ++ outs) [.sweep 4, .set 0 5, .sweep 4]
        setZeroAllAdj
        (lookV outs 2).grad
        adjs xv : M ℝ (List ℝ)) St.init = .ok (df, s') := by
  obtain ⟨s1, s2, s3, e1, e2, e3, h2, h3⟩ := demo_steps (W := ℝ)
  have e2' : (demoProg.run ([⟨1⟩, ⟨2⟩] ++ []) : M ℝ (List Var)) s1 = .ok ([⟨1⟩, ⟨2⟩, ⟨3⟩], s2) := by
    have : (Instr.run (.bin .mul 0 1) [⟨1⟩, ⟨2⟩] : M ℝ (List Var)) s1 = .ok ([⟨3⟩], s2) :=
      bind_ok (f := fun v => pure [v]) e2
    exact bind_ok (f := fun vs => Prog.run (.ret [0, 1, 2]) (([⟨1⟩, ⟨2⟩] : List Var) ++ vs)) this
  have hh : ∀ v : Var, v ∈ ([⟨1⟩, ⟨2⟩] : List Var) ++ [] ++ [⟨1⟩, ⟨2⟩, ⟨3⟩] → demoG.Has v := by
    intro v hv
    simp at hv
    rcases hv with rfl | rfl | rfl | rfl | rfl <;> simp [Graph.Has, demoG]
  obtain ⟨m4, a4, e4, i4⟩ := acts_total (vs := ([⟨1⟩, ⟨2⟩] : List Var) ++ [] ++ [⟨1⟩, ⟨2⟩, ⟨3⟩]) hh demoFits
    [.sweep 4, .set 0 5, .sweep 4] h2.inv
  obtain ⟨m5, a5, e5, i5, -⟩ := i4.setZeroAllAdj_ok
  obtain ⟨m6, e6, i6⟩ := i5.grad_ok (v := ⟨3⟩) (by simp [Graph.Has, demoG]) demoFits
  have e7 := i6.varAdjs (vs := [⟨1⟩, ⟨2⟩]) fun v hv => hh v (by simp at hv; rcases hv with rfl | rfl <;> simp)
  refine ⟨_, _, Eq.trans ?_ e7⟩
  have hl : lookV [⟨1⟩, ⟨2⟩, ⟨3⟩] 2 = ⟨3⟩ := rfl
  have he : (Client.init : Client ℝ).env = [] := rfl
  simp only [he]
  rw [bind_ok e1, bind_ok e2', bind_ok e4, bind_ok e5, hl, bind_ok e6]

/-! ## C09 -/

/-- **C09** (values): after `gradient` the variables that existed before exist still, with their values.
Missing from the property: the adjoints, which do change, see `C09_refuted`. -/
theorem C09_values_partial {h : List (Call ℝ)} {c : Client W} (hr : Reach h c) {ys : List ℝ}
    (hys : vals c.env c.st = .ok (ys, c.st)) (p : Prog) (x : List ℝ)
    (hok : p.Ok (x ++ ys)) (hk : p.sem (x ++ ys) ≠ []) (hroom : Room c.st p x ys)
    {y : ℝ} {df : List ℝ} {s' : St W} (hrun : gradient (p.scalarFn c.env) x c.st = .ok ((y, df), s')) :
    existing s' = existing c.st ∧ s'.tape.head = c.st.tape.head ∧ s'.level = c.st.level ∧
    ∀ v ∈ existing c.st, ∃ d : ℝ, v.val c.st = .ok (d, c.st) ∧ v.val s' = .ok (d, s') := by
  obtain ⟨g, val, adj, G⟩ := hr.good
  obtain ⟨h1, h2, h3, a, i⟩ := gradient_keeps G.inv G.okf G.has (G.vals hys) hok hroom hk hrun
  refine ⟨by unfold existing; rw [h3], h2, h1, fun v hv => ?_⟩
  have hh := (existing_has' G.inv).mp hv
  exact ⟨_, G.inv.varVal hh, i.varVal hh⟩

/-- **C09** (values) for `jacobian`. -/
theorem C09_jacobian_values_partial {h : List (Call ℝ)} {c : Client W} (hr : Reach h c) {ys : List ℝ}
    (hys : vals c.env c.st = .ok (ys, c.st)) (p : Prog) (x : List ℝ) (n : Nat)
    (hok : p.Ok (x ++ ys)) (hroom : Room c.st p x ys)
    {o : List ℝ} {rows : List (List ℝ)} {s' : St W}
    (hrun : jacobian (p.vectorFn c.env) n x c.st = .ok ((o, rows), s')) :
    existing s' = existing c.st ∧ s'.tape.head = c.st.tape.head ∧ s'.level = c.st.level ∧
    ∀ v ∈ existing c.st, ∃ d : ℝ, v.val c.st = .ok (d, c.st) ∧ v.val s' = .ok (d, s') := by
  obtain ⟨g, val, adj, G⟩ := hr.good
  obtain ⟨h1, h2, h3, a, i⟩ := jacobian_keeps G.inv G.okf G.has (G.vals hys) hok hroom hrun
  refine ⟨by unfold existing; rw [h3], h2, h1, fun v hv => ?_⟩
  have hh := (existing_has' G.inv).mp hv
  exact ⟨_, G.inv.varVal hh, i.varVal hh⟩

/-- all existing variables have adjoint zero -/
def Cleared (s : St W) : Prop := ∀ v ∈ existing s, (v.adj : M W ℝ) s = .ok (0, s)

theorem cleared_iff {s : St W} {g : Graph ℝ} {val adj : Nat → ℝ} (h : Inv s g val adj) :
    Cleared s ↔ ∀ nd ∈ g.nodes, adj nd.pos = 0 := by
  constructor
  · intro hc nd hn
    obtain ⟨k, hk, rfl⟩ := List.getElem_of_mem hn
    have hh : g.Has ⟨k + 1⟩ := ⟨by simp, by simp; omega⟩
    have := hc _ ((existing_has' h).mpr hh)
    rw [h.varAdj hh] at this
    injection this with this
    injection this with this
    have hp : g.pos ⟨k + 1⟩ = g.nodes[k].pos :=
      Graph.At.pos_eq ⟨by simp, by simpa using List.getElem?_eq_getElem hk⟩
    rw [← hp]; exact this
  · intro hc v hv
    have hh := (existing_has' h).mp hv
    rw [h.varAdj hh]
    obtain ⟨nd, h1, h2⟩ := hh.mem_pos
    rw [← h2, hc nd h1]

/-- **C09** (adjoints, when they are all zero): if all existing adjoints are zero and the function uses
no variable of the caller, `gradient` leaves all adjoints zero. -/
theorem C09_zero_adjoints_partial {h : List (Call ℝ)} {c : Client W} (hr : Reach h c) (hz : Cleared c.st)
    (p : Prog) (x : List ℝ) (hok : p.Ok x) (hk : p.sem x ≠ []) (hroom : Room c.st p x [])
    {y : ℝ} {df : List ℝ} {s' : St W} (hrun : gradient (p.scalarFn []) x c.st = .ok ((y, df), s')) :
    Cleared s' := by
  obtain ⟨g, val, adj, G⟩ := hr.good
  obtain ⟨h1, h2, h3, h4, i⟩ := gradient_outer G.inv G.okf hok hroom hk hrun
  rw [cleared_iff i]
  rw [cleared_iff G.inv] at hz
  rwa [sweep_zero _ _ _ hz]

/-- **C09** (adjoints, when they are all zero) for `jacobian`. -/
theorem C09_jacobian_zero_adjoints_partial {h : List (Call ℝ)} {c : Client W} (hr : Reach h c)
    (hz : Cleared c.st) (p : Prog) (x : List ℝ) (n : Nat) (hok : p.Ok x) (hroom : Room c.st p x [])
    {o : List ℝ} {rows : List (List ℝ)} {s' : St W}
    (hrun : jacobian (p.vectorFn []) n x c.st = .ok ((o, rows), s')) : Cleared s' := by
  obtain ⟨g, val, adj, G⟩ := hr.good
  obtain ⟨h1, h2, h3, i⟩ := jacobian_outer G.inv G.okf hok hroom hrun
  rw [cleared_iff i]
  rw [cleared_iff G.inv] at hz
  have : (sweep val g.nodes)^[n] adj = adj := by
    clear i hrun
    induction n with
    | zero => rfl
    | succ n ih => rw [Function.iterate_succ_apply, sweep_zero _ _ _ hz]; exact ih
  rwa [this]

/-- **C09** (what happens in general): for a function that uses no variable of the caller, `gradient`
does to the caller's adjoints what a sweep does that starts from the adjoints as they are: if some
existing variable has adjoint 1, the same as sweeping from it. -/
theorem C09_effect_partial {h : List (Call ℝ)} {c : Client W} (hr : Reach h c)
    (p : Prog) (x : List ℝ) (hok : p.Ok x) (hk : p.sem x ≠ []) (hroom : Room c.st p x [])
    {y : ℝ} {df : List ℝ} {s' : St W} (hrun : gradient (p.scalarFn []) x c.st = .ok ((y, df), s'))
    {u : Var} (hu : u ∈ existing c.st) (hu1 : (u.adj : M W ℝ) c.st = .ok (1, c.st)) :
    ∃ t, (u.grad : M W Unit) c.st = .ok ((), t) ∧
      ∀ v ∈ existing c.st, ∃ a : ℝ, v.adj s' = .ok (a, s') ∧ v.adj t = .ok (a, t) := by
  obtain ⟨g, val, adj, G⟩ := hr.good
  obtain ⟨h1, h2, h3, h4, i⟩ := gradient_outer G.inv G.okf hok hroom hk hrun
  have hh := (existing_has' G.inv).mp hu
  obtain ⟨m, e, j⟩ := G.inv.grad_ok hh h4
  have ha : upd adj (g.pos u) Arith.one = adj := by
    have := G.inv.varAdj hh
    rw [hu1] at this
    injection this with this
    injection this with this
    funext q
    unfold upd
    split
    · next hq => rw [hq, ← this]; rfl
    · rfl
  refine ⟨_, e, fun v hv => ?_⟩
  have hv' := (existing_has' G.inv).mp hv
  refine ⟨_, i.varAdj hv', ?_⟩
  rw [j.varAdj hv', ha]

/-- **C09 fails**: after `x = 2, y = 3, z = x*y, call z%grad()` the adjoint of `x` is 3; the gradient of
the identity at 5, a function that uses none of these variables, turns it into 6. -/
theorem C09_refuted : ∃ (c : Client W) (y : ℝ) (df : List ℝ) (s' : St W), Reach demo c ∧
    gradient ((Prog.ret [0]).scalarFn []) [5] c.st = .ok ((y, df), s') ∧
    (Var.adj ⟨1⟩ : M W ℝ) c.st = .ok (3, c.st) ∧ (Var.adj ⟨1⟩ : M W ℝ) s' = .ok (6, s') := by
  obtain ⟨c, hr, he, hm, H⟩ := demo_here (W := W)
  have hroom : Room c.st (Prog.ret [0]) [5] [] := by
    simp [Room, H.head, Prog.cost, tapeLimit]
  have hx : demoG.Has ⟨1⟩ := by simp [Graph.Has, demoG]
  obtain ⟨y, df, s', e, -⟩ := gradient_total (p := .ret [0]) (x := [5]) (ys := []) (env := [])
    ⟨H.inv, demoFits, fun k hk _ => by rw [H.free k hk]; exact leafSafe_dummy⟩
    (by rw [H.level]; simp [maxNestedStack]) (by simp) rfl (by simp [Prog.Ok]) hroom (by simp [Prog.sem])
    (by
      unfold NotFull
      rw [H.head]
      refine ⟨by omega, fun k => ?_⟩
      simp [Prog.cost]
      have : 1 ≤ 2 ^ k := Nat.one_le_two_pow
      omega)
  obtain ⟨h1, h2, h3, h4, i⟩ := gradient_outer H.inv (fun nd hn => Or.inr (demoFits nd hn)) (by simp [Prog.Ok]) hroom
    (by simp [Prog.sem]) e
  refine ⟨c, y, df, s', hr, e, ?_, ?_⟩
  · rw [H.inv.varAdj hx]; simp [demoG, Graph.pos, demoA]
  · rw [i.varAdj hx, demoSweep]
    simp [demoG, Graph.pos, demoA, upd]
    norm_num

/-- `demo` with all adjoints reset -/
noncomputable def demo0 : List (Call ℝ) := demo ++ [.zeroAll]

theorem demo0_here : ∃ c : Client W, Reach demo0 c ∧ c.env = [⟨1⟩, ⟨2⟩, ⟨3⟩] ∧ c.marks = [] ∧
    Here c.st demoG demoV (fun _ => 0) 21 [] unused := by
  obtain ⟨c, hr, he, hm, H⟩ := demo_here (W := W)
  obtain ⟨s', e, H'⟩ := H.zeroAll
  exact ⟨⟨s', c.env, c.marks⟩, Reach.snoc hr trivial (exec_keep (by simp [Call.args]) rfl e), he, hm, H'⟩

theorem ret_gradient {c : Client W} {a : Nat → ℝ} (H : Here c.st demoG demoV a 21 [] unused) (x : ℝ) :
    Room c.st (Prog.ret [0]) [x] [] ∧ ∃ (y : ℝ) (df : List ℝ) (s' : St W),
      gradient ((Prog.ret [0]).scalarFn []) [x] c.st = .ok ((y, df), s') := by
  have hroom : Room c.st (Prog.ret [0]) [x] [] := by
    simp [Room, H.head, Prog.cost, tapeLimit]
  obtain ⟨y, df, s', e, -⟩ := gradient_total (p := .ret [0]) (x := [x]) (ys := []) (env := [])
    ⟨H.inv, demoFits, fun k hk _ => by rw [H.free k hk]; exact leafSafe_dummy⟩
    (by rw [H.level]; simp [maxNestedStack]) (by simp) rfl (by simp [Prog.Ok]) hroom (by simp [Prog.sem])
    (by
      unfold NotFull
      rw [H.head]
      refine ⟨by omega, fun k => ?_⟩
      simp [Prog.cost]
      have : 1 ≤ 2 ^ k := Nat.one_le_two_pow
      omega)
  exact ⟨hroom, y, df, s', e⟩

/-- after `demo0` the hypotheses of `C09_zero_adjoints_partial` are met -/
example : ∃ (c : Client ℝ) (y : ℝ) (df : List ℝ) (s' : St ℝ), Reach demo0 c ∧ Cleared c.st ∧
    Room c.st (Prog.ret [0]) [5] [] ∧ gradient ((Prog.ret [0]).scalarFn []) [5] c.st = .ok ((y, df), s') := by
  obtain ⟨c, hr, he, hm, H⟩ := demo0_here (W := ℝ)
  obtain ⟨h1, y, df, s', h2⟩ := ret_gradient H 5
  exact ⟨c, y, df, s', hr, (cleared_iff H.inv).mpr fun _ _ => rfl, h1, h2⟩

/-- after `demo` the hypotheses of `C09_effect_partial` are met, with `u = z` -/
example : ∃ (c : Client ℝ) (y : ℝ) (df : List ℝ) (s' : St ℝ), Reach demo c ∧
    Room c.st (Prog.ret [0]) [5] [] ∧ gradient ((Prog.ret [0]).scalarFn []) [5] c.st = .ok ((y, df), s') ∧
    ⟨3⟩ ∈ existing c.st ∧ (Var.adj ⟨3⟩ : M ℝ ℝ) c.st = .ok (1, c.st) := by
  obtain ⟨c, hr, he, hm, H⟩ := demo_here (W := ℝ)
  obtain ⟨h1, y, df, s', h2⟩ := ret_gradient H 5
  have hh : demoG.Has ⟨3⟩ := by simp [Graph.Has, demoG]
  refine ⟨c, y, df, s', hr, h1, h2, (existing_has' H.inv).mpr hh, ?_⟩
  rw [H.inv.varAdj hh]
  simp [demoG, Graph.pos, demoA]

/-! ## C19 -/

/-- **C19**: an input the output does not depend on gets adjoint zero. -/
theorem C19_independent_input {h : List (Call ℝ)} {c : Client W} (hr : Reach h c) {ys : List ℝ}
    (hys : vals c.env c.st = .ok (ys, c.st)) (p : Prog) (x : List ℝ) (k : Nat)
    (hok : p.Ok (x ++ ys)) (hk : k < (p.sem (x ++ ys)).length) (hroom : Room c.st p x ys)
    {o df : List ℝ} {s' : St W} (hrun : derive p c.env x k c.st = .ok ((o, df), s'))
    (i : Fin x.length) (hi : ∀ t : ℝ, (p.sem (x.set i t ++ ys)).getD k 0 = (p.sem (x ++ ys)).getD k 0) :
    df.getD i 0 = 0 := by
  have hg := (C01_exact_partials hr hys p x k hok hk hroom hrun).2
  have hd := hg.partial i
  have : (fun t => (p.sem (List.ofFn (Function.update (fun j : Fin x.length => x[j]) i t) ++ ys)).getD k 0) =
      fun _ => (p.sem (x ++ ys)).getD k 0 := by
    funext t
    rw [← hi t]
    have : List.ofFn (Function.update (fun j : Fin x.length => x[j]) i t) = x.set i t := by
      apply List.ext_getElem
      · simp
      · intro n h1 h2
        simp only [List.length_ofFn] at h1
        simp only [List.getElem_ofFn, List.getElem_set]
        by_cases hn : (i : Nat) = n
        · subst hn; simp
        · rw [if_neg hn, Function.update_of_ne]
          · rfl
          · intro hc; exact hn (by rw [← hc])
    rw [this]
  rw [this] at hd
  exact hd.unique (hasDerivAt_const _ _)

/-- the hypotheses of `C19_independent_input` are met: `x` as an output of `x`, `y`, `x*y` does not depend
on `y` -/
example : ∃ (o df : List ℝ) (s' : St ℝ), derive demoProg (Client.init : Client ℝ).env [2, 3] 0 St.init = .ok ((o, df), s') ∧
    ∀ t : ℝ, (demoProg.sem (([2, 3] : List ℝ).set 1 t ++ [])).getD 0 0 = (demoProg.sem ([2, 3] ++ [])).getD 0 0 := by
  obtain ⟨df, s', e, -⟩ := C01_completes (W := ℝ) demoProg [2, 3] 0
    (by simp [demoProg, Prog.Ok, Instr.Ok, Instr.sem, Bin.domVV]) (by simp [demoProg, Prog.sem, Instr.sem])
    (by simp [demoProg, Prog.cost, Instr.cost, tapeLimit])
  exact ⟨_, df, s', e, fun t => by simp [demoProg_sem]⟩

/-- **C19**: variables that exist before a computation which does not use them have adjoint zero after
the sweep, if adjoints were reset before it. -/
theorem C19_unrelated {h : List (Call ℝ)} {c : Client W} (hr : Reach h c) (p : Prog) (x : List ℝ) (k : Nat)
    (hok : p.Ok x) (hk : k < (p.sem x).length) (hroom : Room c.st p x [])
    {xv outs : List Var} {s1 s2 s3 s' : St W}
    (e1 : (newVars x : M W (List Var)) c.st = .ok (xv, s1)) (e2 : (p.run xv : M W (List Var)) s1 = .ok (outs, s2))
    (e3 : (setZeroAllAdj : M W Unit) s2 = .ok ((), s3))
    (e4 : ((lookV outs k).grad : M W Unit) s3 = .ok ((), s')) :
    ∀ v ∈ existing c.st, (v.adj : M W ℝ) s' = .ok (0, s') := by
  obtain ⟨g, val, adj, G⟩ := hr.good
  obtain ⟨xv', outs', s1', s2', f1, f2, D, g', val', adj', D', ε', hD, r⟩ := ran_closed G.inv x p hok hroom
  rw [f1] at e1; cases e1
  rw [List.append_nil] at f2
  rw [f2] at e2; cases e2
  obtain ⟨m, a, e, i, hz⟩ := r.sim.inv.setZeroAllAdj_ok
  rw [e] at e3; cases e3
  have ho : k < outs.length := by rw [r.olen]; exact hk
  have hlk : lookV outs k = outs[k] := by simp [lookV, List.getD_eq_getElem?_getD, ho]
  rw [hlk] at e4
  obtain ⟨hf, m', rfl, j⟩ := grad_run i (Ran.ok r G.okf) (r.os k ho).has e4
  intro v hv
  have hh := (existing_has' G.inv).mp hv
  rw [j.varAdj (r.pre.has hh), r.pre.pos hh]
  obtain ⟨nd, h1, h2⟩ := hh.mem_pos
  rw [← h2, Ran.outer r hD (by simp) (fun _ => rfl) hf a a (fun _ _ => rfl)
    (fun nd hn => hz nd (List.mem_of_mem_drop hn)) ho nd h1]
  rw [sweep_zero _ _ _ fun nd hn => hz nd (r.pre.nodes.subset hn)]
  exact congrArg (fun z => Except.ok (z, _)) (hz nd (r.pre.nodes.subset h1))

/-- the hypotheses of `C19_unrelated` are met: another variable, and a sweep from it -/
example : ∃ (c : Client ℝ) (s1 s3 s' : St ℝ), Reach demo c ∧ Room c.st (.ret [0]) [5] [] ∧
    (newVars [5] : M ℝ (List Var)) c.st = .ok ([⟨4⟩], s1) ∧
    ((Prog.ret [0]).run [⟨4⟩] : M ℝ (List Var)) s1 = .ok ([⟨4⟩], s1) ∧
    (setZeroAllAdj : M ℝ Unit) s1 = .ok ((), s3) ∧ ((lookV [⟨4⟩] 0).grad : M ℝ Unit) s3 = .ok ((), s') := by
  obtain ⟨c, hr, he, hm, H⟩ := demo_here (W := ℝ)
  obtain ⟨s1, e1, H1⟩ := H.newVar 5 (by simp [cap])
  obtain ⟨s3, e3, H3⟩ := H1.zeroAll
  obtain ⟨s', e4, -⟩ := H3.grad (v := ⟨4⟩) (by simp [Graph.Has, demoG, Graph.push]) (by
    intro nd hn
    simp only [demoG, Graph.push, List.mem_append, List.mem_cons, List.not_mem_nil, or_false] at hn
    rcases hn with (rfl | rfl | rfl) | rfl <;> intro a
    · exact ⟨[], rfl⟩
    · exact ⟨[], rfl⟩
    · exact ⟨_, rfl⟩
    · exact ⟨[], rfl⟩)
  refine ⟨c, s1, s3, s', hr, by simp [Room, H.head, Prog.cost, tapeLimit], ?_, rfl, e3, e4⟩
  unfold newVars
  rw [List.mapM_cons, bind_ok e1]
  rfl

/-- **C19**: whatever else exists or is computed, the same function gives the same derivatives: two
completed runs, in any two reachable states, with programs whose outputs are the same function of the
inputs, return the same adjoints of the inputs. -/
theorem C19_same_derivatives {h₁ h₂ : List (Call ℝ)} {c₁ c₂ : Client W} (hr₁ : Reach h₁ c₁) (hr₂ : Reach h₂ c₂)
    {ys₁ ys₂ : List ℝ} (hys₁ : vals c₁.env c₁.st = .ok (ys₁, c₁.st))
    (hys₂ : vals c₂.env c₂.st = .ok (ys₂, c₂.st)) (p₁ p₂ : Prog) (x : List ℝ) (k₁ k₂ : Nat)
    (hok₁ : p₁.Ok (x ++ ys₁)) (hok₂ : p₂.Ok (x ++ ys₂))
    (hk₁ : k₁ < (p₁.sem (x ++ ys₁)).length) (hk₂ : k₂ < (p₂.sem (x ++ ys₂)).length)
    (hroom₁ : Room c₁.st p₁ x ys₁) (hroom₂ : Room c₂.st p₂ x ys₂)
    (hsame : ∀ z : List ℝ, z.length = x.length →
      (p₁.sem (z ++ ys₁)).getD k₁ 0 = (p₂.sem (z ++ ys₂)).getD k₂ 0)
    {o₁ o₂ df₁ df₂ : List ℝ} {s₁ s₂ : St W}
    (hrun₁ : derive p₁ c₁.env x k₁ c₁.st = .ok ((o₁, df₁), s₁))
    (hrun₂ : derive p₂ c₂.env x k₂ c₂.st = .ok ((o₂, df₂), s₂)) : df₁ = df₂ := by
  have g₁ := (C01_exact_partials hr₁ hys₁ p₁ x k₁ hok₁ hk₁ hroom₁ hrun₁).2
  have g₂ := (C01_exact_partials hr₂ hys₂ p₂ x k₂ hok₂ hk₂ hroom₂ hrun₂).2
  refine g₁.unique ⟨g₂.1, ?_⟩
  have : (fun y : Fin x.length → ℝ => (p₁.sem (List.ofFn y ++ ys₁)).getD k₁ 0) =
      fun y => (p₂.sem (List.ofFn y ++ ys₂)).getD k₂ 0 := by
    funext y; exact hsame _ (by simp)
  show HasFDerivAt (fun y : Fin x.length → ℝ => (p₁.sem (List.ofFn y ++ ys₁)).getD k₁ 0) _ _
  rw [this]
  exact g₂.2

/-- the hypotheses of `C19_same_derivatives` are met: the same program at the start and after `demo` -/
example : ∃ (c : Client ℝ) (ys o₁ o₂ df₁ df₂ : List ℝ) (s₁ s₂ : St ℝ), Reach demo c ∧
    vals c.env c.st = .ok (ys, c.st) ∧ demoProg.Ok ([5, 7] ++ ys) ∧ Room c.st demoProg [5, 7] ys ∧
    (∀ z : List ℝ, z.length = 2 → (demoProg.sem (z ++ ys)).getD 0 0 = (demoProg.sem (z ++ [])).getD 0 0) ∧
    derive demoProg c.env [5, 7] 0 c.st = .ok ((o₁, df₁), s₁) ∧
    derive demoProg [] [5, 7] 0 St.init = .ok ((o₂, df₂), s₂) := by
  obtain ⟨c, hr, he, hm, H⟩ := demo_here (W := ℝ)
  obtain ⟨df₂, s₂, e₂, -⟩ := C01_completes (W := ℝ) demoProg [5, 7] 0
    (by simp [demoProg, Prog.Ok, Instr.Ok, Instr.sem, Bin.domVV]) (by simp [demoProg, Prog.sem, Instr.sem])
    (by simp [demoProg, Prog.cost, Instr.cost, tapeLimit])
  have hhas : ∀ v ∈ c.env, demoG.Has v := by
    rw [he]
    intro v hv
    simp only [List.mem_cons, List.not_mem_nil, or_false] at hv
    rcases hv with rfl | rfl | rfl <;> simp [Graph.Has, demoG]
  have hok : ∀ ys, demoProg.Ok ([5, 7] ++ ys) := fun ys => by
    simp [demoProg, Prog.Ok, Instr.Ok, Instr.sem, Bin.domVV]
  have hroom : ∀ ys, Room c.st demoProg [5, 7] ys := fun ys => by
    simp [Room, H.head, demoProg, Prog.cost, Instr.cost, tapeLimit]
  obtain ⟨o₁, df₁, s₁, e₁, -⟩ := derive_total (n := 0) ⟨H.inv, demoFits,
    fun k hk _ => by rw [H.free k hk]; exact leafSafe_dummy⟩ hhas rfl (hok _) (hroom _) (k := 0)
    (by simp [demoProg, Prog.sem, Instr.sem])
  refine ⟨c, _, o₁, _, df₁, df₂, s₁, s₂, hr, H.inv.varVals hhas, hok _, hroom _, ?_, e₁, e₂⟩
  intro z hz
  obtain ⟨a, b, rfl⟩ := List.length_eq_two.mp hz
  simp [demoProg_sem]

/-! ## C20 -/

/-- **C20**: adjoints are linear in the seeds.  Run a program, then do anything with the adjoints (set
them, sweep, reset, any number of times).  If at that point the adjoints of the variables created are
zero except for the outputs, and the outputs `outs` have adjoints `ws`, a sweep from output `k` gives
the inputs the derivatives of the weighted sum of the outputs: output `k` with weight one, the others
with the weights `ws`.  (All created variables may be declared outputs.) -/
theorem C20_linear {h : List (Call ℝ)} {c : Client W} (hr : Reach h c) {ys : List ℝ}
    (hys : vals c.env c.st = .ok (ys, c.st)) (p : Prog) (x : List ℝ) (l : List Seed) (k : Nat)
    (hok : p.Ok (x ++ ys)) (hk : k < (p.sem (x ++ ys)).length) (hroom : Room c.st p x ys)
    {xv outs : List Var} {ws : List ℝ} {s1 s2 t t' : St W}
    (e1 : (newVars x : M W (List Var)) c.st = .ok (xv, s1))
    (e2 : (p.run (xv ++ c.env) : M W (List Var)) s1 = .ok (outs, s2))
    (e3 : (Seed.acts (xv ++ c.env ++ outs) l : M W Unit) s2 = .ok ((), t)) (hnd : outs.Nodup)
    (hws : (adjs outs : M W (List ℝ)) t = .ok (ws, t))
    (hz : ∀ v ∈ existing t, v ∉ existing c.st → v ∉ outs → (v.adj : M W ℝ) t = .ok (0, t))
    (e4 : ((lookV outs k).grad : M W Unit) t = .ok ((), t')) :
    ∃ df, (adjs xv : M W (List ℝ)) t' = .ok (df, t') ∧
      IsGradAt (fun z => ((List.range ws.length).map fun j =>
        (if j = k then 1 else ws.getD j 0) * (p.sem (z ++ ys)).getD j 0).sum) x df := by
  obtain ⟨g, val, adj, G⟩ := hr.good
  obtain ⟨xv', outs', s1', s2', f1, f2, g', val', adj', D', ε', r⟩ := ranC G.inv G.has (G.vals hys) hok hroom
  rw [f1] at e1; cases e1
  rw [f2] at e2; cases e2
  have hx : ∀ v ∈ xv, g'.Has v := fun v hv => by
    obtain ⟨k, hk, rfl⟩ := List.getElem_of_mem hv
    exact (r.xs k hk).1
  have ho : ∀ v ∈ outs, g'.Has v := fun v hv => by
    obtain ⟨k, hk, rfl⟩ := List.getElem_of_mem hv
    exact (r.os k hk).has
  obtain ⟨m3, a, rfl, i⟩ := acts_ok (vs := xv ++ c.env ++ outs) (fun v hv => by
    simp only [List.mem_append] at hv
    rcases hv with (hv | hv) | hv
    · exact hx v hv
    · exact r.pre.has (G.has v hv)
    · exact ho v hv) (RanC.ok r G.okf) l r.sim.inv e3
  obtain ⟨m, df, rfl, -, e5, hg⟩ := RanC.weighted r i G.okf hnd (fun v hv hnew hno => by
    have := hz v ((existing_has' i).mpr hv) (fun hc => by
      have h1 := ((existing_has' G.inv).mp hc).2
      have h2 := G.inv.vhead
      omega) hno
    rw [i.varAdj hv] at this
    injection this with this
    injection this) (by rw [RanC.len r]; exact hk) e4
  have hws' := i.varAdjs ho
  rw [hws] at hws'
  injection hws' with hws'
  injection hws' with hws'
  rw [← hws'] at hg
  exact ⟨df, e5, hg⟩

/-- the hypotheses of `C20_linear` are met: a second sweep from `x*y` without a reset, all variables being
declared outputs; the adjoints are then those of `3*x + 2*y + x*y` at `(2, 3)` -/
example : ∃ (s1 s2 t t' : St ℝ),
    (newVars [2, 3] : M ℝ (List Var)) St.init = .ok ([⟨1⟩, ⟨2⟩], s1) ∧
    (demoProg.run ([⟨1⟩, ⟨2⟩] ++ []) : M ℝ (List Var)) s1 = .ok ([⟨1⟩, ⟨2⟩, ⟨3⟩], s2) ∧
    (Seed.acts ([⟨1⟩, ⟨2⟩] ++ [] ++ [⟨1⟩, ⟨2⟩, ⟨3⟩]) [.sweep 4] : M ℝ Unit) s2 = .ok ((), t) ∧
    ([⟨1⟩, ⟨2⟩, ⟨3⟩] : List Var).Nodup ∧ (adjs [⟨1⟩, ⟨2⟩, ⟨3⟩] : M ℝ (List ℝ)) t = .ok ([3, 2, 1], t) ∧
    (∀ v ∈ existing t, v ∈ ([⟨1⟩, ⟨2⟩, ⟨3⟩] : List Var)) ∧
    ((lookV [⟨1⟩, ⟨2⟩, ⟨3⟩] 2).grad : M ℝ Unit) t = .ok ((), t') ∧
    (adjs [⟨1⟩, ⟨2⟩] : M ℝ (List ℝ)) t' = .ok ([6, 4], t') := by
  obtain ⟨s1, s2, s3, e1, e2, e3, h2, h3⟩ := demo_steps (W := ℝ)
  have e2' : (demoProg.run ([⟨1⟩, ⟨2⟩] ++ []) : M ℝ (List Var)) s1 = .ok ([⟨1⟩, ⟨2⟩, ⟨3⟩], s2) := by
    have : (Instr.run (.bin .mul 0 1) [⟨1⟩, ⟨2⟩] : M ℝ (List Var)) s1 = .ok ([⟨3⟩], s2) :=
      bind_ok (f := fun v => pure [v]) e2
    exact bind_ok (f := fun vs => Prog.run (.ret [0, 1, 2]) (([⟨1⟩, ⟨2⟩] : List Var) ++ vs)) this
  obtain ⟨t', e4, h4⟩ := h3.grad (v := ⟨3⟩) (by simp [Graph.Has, demoG]) demoFits
  have hh : ∀ v ∈ ([⟨1⟩, ⟨2⟩, ⟨3⟩] : List Var), demoG.Has v := by
    intro v hv
    simp only [List.mem_cons, List.not_mem_nil, or_false] at hv
    rcases hv with rfl | rfl | rfl <;> simp [Graph.Has, demoG]
  refine ⟨s1, s2, s3, t', e1, e2', ?_, by simp, ?_, ?_, e4, ?_⟩
  · exact bind_ok (f := fun _ => Seed.acts _ []) e3
  · rw [h3.inv.varAdjs hh]
    simp [demoG, Graph.pos, demoA]
  · intro v hv
    obtain ⟨h1, h2⟩ := (existing_has' h3.inv).mp hv
    cases v
    simp [demoG] at h1 h2 ⊢
    omega
  · rw [h4.inv.varAdjs fun v hv => hh v (by simp at hv ⊢; rcases hv with rfl | rfl <;> simp), demoSweep]
    simp [demoG, Graph.pos, demoA, upd, Arith.one]
    norm_num

/-! ## C21 -/

/-- **C21**: what `grad_nested` computes.  In any reachable state begin a nested region, create
independent variables `x` and run a program on them and on the client's variables; then
`f%grad_nested()`, for an output `f` created in the region, gives the variables `x` the partial
derivatives of `f`, and **adds** to the adjoint of every variable that existed before the region
(`existing c.st`, values `us`) the partial derivative of `f` with respect to that variable, all existing
variables taken as independent: nothing is propagated among the outer variables.  Values stay. -/
theorem C21_region {h : List (Call ℝ)} {c : Client W} (hr : Reach h c) {ys us as : List ℝ}
    (hys : vals c.env c.st = .ok (ys, c.st)) (hus : vals (existing c.st) c.st = .ok (us, c.st))
    (has : adjs (existing c.st) c.st = .ok (as, c.st)) (p : Prog) (x : List ℝ)
    (hok : p.Ok (x ++ ys)) (hroom : Room c.st p x ys) {xv outs : List Var} {s0 s1 s2 s3 : St W} {k : Nat}
    (e0 : (beginNested : M W Unit) c.st = .ok ((), s0))
    (e1 : (newVars x : M W (List Var)) s0 = .ok (xv, s1))
    (e2 : (p.run (xv ++ c.env) : M W (List Var)) s1 = .ok (outs, s2)) (hk : k < outs.length)
    (hnew : lookV outs k ∉ existing c.st)
    (e3 : ((lookV outs k).gradNested : M W Unit) s2 = .ok ((), s3)) :
    ∃ df as', (adjs xv : M W (List ℝ)) s3 = .ok (df, s3) ∧
      (adjs (existing c.st) : M W (List ℝ)) s3 = .ok (as', s3) ∧
      (vals (existing c.st) : M W (List ℝ)) s3 = .ok (us, s3) ∧
      IsGradAt (p.outAll x.length c.env k) (x ++ us) (df ++ List.zipWith (· - ·) as' as) := by
  obtain ⟨g, val, adj, G⟩ := hr.good
  obtain ⟨hl, rfl⟩ := begin_run e0
  have hlk : lookV outs k = outs[k] := by simp [lookV, List.getD_eq_getElem?_getD, hk]
  have hyv := G.vals hys
  rw [hyv] at hok hroom
  have h1 := G.inv.varVals (vs := existing c.st) fun v hv => (existing_has' G.inv).mp hv
  rw [hus, existing_pos G.inv val] at h1
  injection h1 with h1
  injection h1 with h1
  have h2 := G.inv.varAdjs (vs := existing c.st) fun v hv => (existing_has' G.inv).mp hv
  rw [has, existing_pos G.inv adj] at h2
  injection h2 with h2
  injection h2 with h2
  have hnew' : c.st.begun.vhead ≤ outs[k].vi := by
    obtain ⟨xv', outs', s1', s2', f1, f2, g', val', adj', D', ε', r⟩ := ranC G.inv.begun G.has rfl hok hroom
    rw [f1] at e1; cases e1
    rw [f2] at e2; cases e2
    have hh := (r.os k hk).has
    by_contra hc
    rw [hlk] at hnew
    refine hnew ((existing_has' G.inv).mpr ⟨hh.1, ?_⟩)
    have := G.inv.vhead
    have : c.st.begun.vhead = c.st.vhead := rfl
    omega
  have := region_grad G.inv.begun G.has G.okf (by simp [St.begun]) (by simpa [St.begun] using hl)
    (by simp [St.begun]) hok hroom e1 e2 hk hnew' e3
  rw [h1, h2]
  exact this

/-- the hypotheses of `C21_region` and `C21_same_adjoints` are met: after `demo`, a region with `u = 5`
and `u*x`.  `x` had adjoint 3, `grad_nested` makes it 8. -/
example : ∃ (c : Client ℝ) (s1 s2 s3 s4 : St ℝ), Reach demo c ∧
    (beginNested : M ℝ Unit) c.st = .ok ((), c.st.begun) ∧
    (newVars [5] : M ℝ (List Var)) c.st.begun = .ok ([⟨4⟩], s1) ∧
    (Prog.run (.op (.bin .mul 0 1) (.ret [4])) ([⟨4⟩] ++ c.env) : M ℝ (List Var)) s1 = .ok ([⟨5⟩], s2) ∧
    lookV [⟨5⟩] 0 ∉ existing c.st ∧ (Var.gradNested ⟨5⟩ : M ℝ Unit) s2 = .ok ((), s3) ∧
    (Var.grad ⟨5⟩ : M ℝ Unit) s2 = .ok ((), s4) ∧
    Reach (demo ++ [.begin] ++ [.make (.newVals [5])] ++ [.make (.bin .mul 3 0)]) ⟨s2, c.env ++ [⟨4⟩] ++ [⟨5⟩], [3]⟩ ∧
    (currNestedVariHead : M ℝ Nat) s2 = .ok (4, s2) ∧ (Var.adj ⟨1⟩ : M ℝ ℝ) s3 = .ok (8, s3) := by
  obtain ⟨c, hr, he, hm, H⟩ := demo_here (W := ℝ)
  obtain ⟨e0, H0⟩ := H.begin (by simp [maxNestedStack])
  obtain ⟨s1, e1, H1⟩ := H0.newVar 5 (by simp [cap])
  obtain ⟨s2, e2, H2⟩ := H1.binary (v := ⟨4⟩) (w := ⟨1⟩) (by simp [Graph.Has, demoG, Graph.push])
    (by simp [Graph.Has, demoG, Graph.push]) (Arith.mul (R := ℝ)) .mulVV (by simp [cap])
  have e1' : (newVars [5] : M ℝ (List Var)) c.st.begun = .ok ([⟨4⟩], s1) := by
    unfold newVars
    rw [List.mapM_cons, bind_ok e1]
    rfl
  have H3 : Here s2 ⟨demoG.nodes ++ [⟨21, [], [], .dummy, .plain⟩, ⟨27, [21, 1], [], .mulVV, .plain⟩], []⟩
      (fun p => if p = 1 then 2 else if p = 7 then 3 else if p = 13 then 6 else if p = 21 then 5 else 10)
      (fun p => if p = 1 then 3 else if p = 7 then 2 else if p = 13 then 1 else 0) 35 [(21, 4)] unused := by
    refine H2.congr ?_ ?_
    · simp [Graph.push, Graph.pos, demoG, demoV, upd, Arith.mul]
      norm_num
    · simp [Graph.push, Graph.pos, demoG, demoA, upd, Arith.zero]
  obtain ⟨hl, ht, hv⟩ := H3.inner (l := [])
  have hfit : ∀ nd ∈ demoG.nodes ++ [⟨21, [], [], .dummy, .plain⟩, ⟨27, [21, 1], [], .mulVV, .plain⟩], nd.Fits
      (fun p => if p = 1 then (2 : ℝ) else if p = 7 then 3 else if p = 13 then 6 else if p = 21 then 5 else 10) := by
    intro nd hn
    simp only [demoG, List.cons_append, List.nil_append, List.mem_cons, List.not_mem_nil, or_false] at hn
    rcases hn with rfl | rfl | rfl | rfl | rfl <;> intro a
    · exact ⟨[], rfl⟩
    · exact ⟨[], rfl⟩
    · exact ⟨_, rfl⟩
    · exact ⟨[], rfl⟩
    · exact ⟨_, rfl⟩
  have hh : ∀ k, 1 ≤ k → k ≤ 5 → Graph.Has ⟨demoG.nodes ++ [⟨21, [], [], .dummy, .plain⟩, ⟨27, [21, 1], [], .mulVV, .plain⟩], []⟩ ⟨k⟩ := by
    intro k h1 h2
    exact ⟨h1, by simp [demoG]; omega⟩
  obtain ⟨m, e3⟩ := gradNested_total H3.inv (hh 5 (by omega) (by omega)) (by simp at hl; omega)
    (by simp [maxNestedStack] at hl ⊢; omega) (n := 3) hv (by simp [demoG]) fun nd hn => hfit nd (List.mem_of_mem_drop hn)
  obtain ⟨-, m', em, i⟩ := gradNested_run H3.inv (fun nd hn => Or.inr (hfit nd hn)) (hh 5 (by omega) (by omega))
    (by simp at hl; omega) (by simp [maxNestedStack] at hl ⊢; omega) (n := 3) hv (by simp [demoG]) e3
  obtain ⟨m4, e4, -⟩ := H3.inv.grad_ok (hh 5 (by omega) (by omega)) hfit
  have e0' : (Call.begin (R := ℝ)).exec c = .ok ⟨c.st.begun, c.env, [3]⟩ := by
    unfold Call.exec
    rw [if_pos (by simp [Call.args])]
    unfold Call.step
    simp only [e0, hm, he]
    rfl
  have r1 := Reach.snoc hr (k := .begin) trivial e0'
  have r2 := Reach.snoc r1 (k := .make (.newVals [5])) trivial (exec_make (by simp [Make.args]) e1')
  have r3 := Reach.snoc r2 (k := .make (.bin .mul 3 0)) trivial
    (exec_make (vs := [⟨5⟩]) (by simp [Make.args, he]) (by
      rw [he]
      exact bind_ok (f := fun v => pure [v]) e2))
  have e2' : (Prog.run (.op (.bin .mul 0 1) (.ret [4])) ([⟨4⟩] ++ c.env) : M ℝ (List Var)) s1 = .ok ([⟨5⟩], s2) := by
    rw [he]
    have : (Instr.run (.bin .mul 0 1) [⟨4⟩, ⟨1⟩, ⟨2⟩, ⟨3⟩] : M ℝ (List Var)) s1 = .ok ([⟨5⟩], s2) :=
      bind_ok (f := fun v => pure [v]) e2
    exact bind_ok (f := fun vs => Prog.run (.ret [4]) (([⟨4⟩, ⟨1⟩, ⟨2⟩, ⟨3⟩] : List Var) ++ vs)) this
  refine ⟨c, s1, s2, _, _, hr, e0, e1', e2', ?_, e3, e4, r3, ?_, ?_⟩
  · intro hc
    have := ((existing_has' H.inv).mp hc).2
    simp [demoG, lookV] at this
  · unfold currNestedVariHead
    rw [bind_ok (get_ok _), if_pos (by simp at hl; omega)]
    unfold rdNest
    rw [if_pos (by simp [maxNestedStack] at hl ⊢; omega), hv]
    rfl
  · rw [i.varAdj (hh 1 (by omega) (by omega))]
    simp [demoG, Graph.pos, sweep, Node.args, Node.cl, Node.contrib, contribPlain, cBin, addAll, Arith.add, Arith.mul,
      upd, Arith.one]
    norm_num

end Props
