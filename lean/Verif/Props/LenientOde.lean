import Verif.Proof.FlowRun
import Verif.Props.Lenient
import Verif.Props.OdeSol

/-!
# C60: solutions of differential equations, without checks of array shapes

C27 holds of calls that complete, and C27_completes covers only one output time and right-hand sides without constants:
the variables created after the first sensitivity right-hand side take the place of those of its closed region (C33).
Without checks of array shapes these restrictions fall: see C59.
-/

set_option linter.unusedSectionVars false

namespace Fz
open Arith Spec

section
variable {W R : Type} [Arith R] [Rep W R] {σ : Type}

theorem refines_sensRows (J : Junk W R) (yvar pvar : List Var) (yS : List (List R)) (ns m : Nat) (par : Bool) :
    ∀ (l : List Var) (i : Nat) (out : Nat → Nat → R),
    Refines (sensRowsL J yvar pvar yS ns m par i l out) (sensRows yvar pvar yS ns m par i l out)
  | [], _, _ => .rfl
  | v :: l, i, _ => .bind (refines_gradNested J v) fun _ => .bind .rfl fun _ => .bind .rfl fun _ => .bind .rfl fun _ =>
      refines_sensRows J yvar pvar yS ns m par l (i + 1) _

theorem refines_setSensRhs (J : Junk W R) (ode : CvsRhs W R) (t : R) (y : List R) (yS : List (List R))
    (out : Nat → Nat → R) : Refines (setSensRhsL J ode t y yS out) (setSensRhs ode t y yS out) :=
  .bind .rfl fun _ => .bind .rfl fun _ => .bind .rfl fun _ => .bind .rfl fun _ => .bind .rfl fun _ =>
    .bind (refines_sensRows J _ _ _ _ _ _ _ _ _) fun _ => .rfl

theorem refines_answer (J : Junk W R) (ode : CvsRhs W R) : ∀ call : Solving R σ,
    Refines (answerL J ode call) (answer ode call)
  | .done _ _ _ _ => .rfl
  | .rhs _ _ k => refines_answer J ode (k _)
  | .sens _ _ _ k => .bind (refines_setSensRhs J ode _ _ _ _) fun _ => refines_answer J ode (k _)

theorem refines_solLoop (J : Junk W R) (sv : Solver R σ) (ode : CvsRhs W R) (ops : List Var) (n : Nat) :
    ∀ (ts : List R) (mem : σ) (y : List R), Refines (solLoopL J sv ode ops n ts mem y) (solLoop sv ode ops n ts mem y)
  | [], _, _ => .rfl
  | t :: ts, mem, y => by
    unfold solLoopL solLoop
    refine .bind (refines_answer J ode _) fun r => ?_
    simp only
    split
    · exact .rfl
    · exact .bind .rfl fun _ => .bind (refines_solLoop J sv ode ops n ts _ _) fun _ => .rfl

end

variable {W : Type} [Rep W ℝ] [LawfulRep W ℝ]
variable {T : Nat → Prop} {s t s' t' : St W} {g g' : Graph ℝ} {val adj val' adj' : Nat → ℝ} {u v : Var}

/-- the sweep without checks gives the derivative of the ghost -/
theorem Rated.rateL {D ε : Nat → ℝ →L[ℝ] ℝ} (H : Rated t g val adj D ε u) (hA : Akin T s t) (hv : g.Has v)
    (J : Junk W ℝ) : Spec.rateL J s v u = .ok (D (g.pos v) 1) := by
  have h := H.rate hv
  unfold Spec.rate at h
  split at h
  · rename_i a t3 e
    cases h
    unfold partialOf at e
    obtain ⟨m, ad, e1, i1, -⟩ := H.sim.inv.setZeroAllAdj_ok
    rw [bind_ok e1] at e
    obtain ⟨_, t2, e2, e3⟩ := bind_inv e
    obtain ⟨s1, f1, A1⟩ := blind_zeroAll (R := ℝ) _ _ _ _ hA e1
    obtain ⟨s2, f2, A2⟩ := gradL_mirror A1 i1 H.fits hv e2
    obtain ⟨s3, f3, A3⟩ := blind_adj _ _ _ _ _ A2 e3
    unfold Spec.rateL partialOfL
    rw [bind_ok f1, bind_ok (f2 J), f3]
  · cases h

theorem Akin.seen (hA : Akin T s t) (hi : Inv t g val adj) (hv : g.Has v) : Spec.seen (R := ℝ) s v = Spec.seen t v := by
  obtain ⟨nd, h1, -⟩ := hv.at
  have h := hi.seen h1
  rw [h]
  unfold Spec.seen at h ⊢
  split at h
  · rename_i w t1 e
    cases h
    obtain ⟨s1, f1, -⟩ := blind_query _ _ _ _ _ hA e
    rw [f1]
  · cases h

theorem Akin.existing (hA : Akin T s t) : Spec.existing s = Spec.existing t := by
  unfold Spec.existing
  rw [hA.vhead]

/-- from ghost data to observations (compare `Rated.gives`) -/
theorem Rated.givesL {D ε D' ε' : Nat → ℝ →L[ℝ] ℝ} {T' : Nat → Prop} (H : Rated t g val adj D ε u)
    (H' : Rated t' g' val' adj' D' ε' u) (hA : Akin T s t) (hA' : Akin T' s' t') (L : Later t g val adj D t' g' val' adj' D')
    {r : Var} {x a : ℝ} (hs : Shows g' val' D' r x a) : GivesL s s' r x u a := by
  have hi := H.sim.inv
  have hi' := H'.sim.inv
  obtain ⟨hr, hx, hd⟩ := hs
  obtain ⟨b1, b2, b3, b4⟩ := H.gives H' L.pre L.dd L.vv L.aa hr hx hd
  refine ⟨by rw [hA'.existing]; exact b1, ?_, fun J => ?_, fun v hv => ?_⟩
  · obtain ⟨s1, f1, -⟩ := blind_val _ _ _ _ _ hA' b2
    have := Var.val_st f1
    subst this
    exact f1
  · rw [H'.rateL hA' hr, hd]
  · rw [hA.existing] at hv
    have hh := (mem_existing hi).mp hv
    obtain ⟨c1, c2, c3⟩ := b4 v hv
    refine ⟨by rw [hA'.existing]; exact c1, ?_, fun J J' => ?_⟩
    · rw [hA'.seen hi' (L.pre.has hh), hA.seen hi hh, c2]
    · rw [H.rate hh, H'.rate (L.pre.has hh)] at c3
      rw [H.rateL hA hh, H'.rateL hA' (L.pre.has hh), c3]

end Fz

namespace Props
open Fz Spec

section
variable {W R : Type} [Arith R] [Rep W R] {σ : Type}

/-- **C60**: where the call with checks does not fail, the call without does the same, whatever is in memory. -/
theorem C60_agree (J : Junk W R) (sv : Solver R σ) (t0 : R) (ts : List R) (f : R → List R → List R) {s s' : St W} :
    (∀ (y0 : List Var) (fy : R → List Var → List Var → M W (List Var)) (r : List (List Var)),
      cvodesSolY0 sv t0 y0 ts f fy s = .ok (r, s') → cvodesSolY0L J sv t0 y0 ts f fy s = .ok (r, s')) ∧
    ∀ (y : List R) (q : List Var) (fp : R → List Var → List Var → List Var → M W (List Var)) (r : List (List Var) × List R),
      cvodesSolPar sv t0 y ts q f fp s = .ok (r, s') → cvodesSolParL J sv t0 y ts q f fp s = .ok (r, s') := by
  refine ⟨fun y0 fy r e => ?_, fun y q fp r e => ?_⟩
  · exact (Refines.bind .rfl fun _ => .bind (refines_solLoop J _ _ _ _ _ _ _) fun _ => .rfl :
      Refines (cvodesSolY0L J sv t0 y0 ts f fy) (cvodesSolY0 sv t0 y0 ts f fy)) _ _ _ e
  · exact (Refines.bind .rfl fun _ => refines_solLoop J _ _ _ _ _ _ _ :
      Refines (cvodesSolParL J sv t0 y ts q f fp) (cvodesSolPar sv t0 y ts q f fp)) _ _ _ e

end

variable {W : Type} [Rep W ℝ] [LawfulRep W ℝ] {σ : Type} {c : Client W} {u : Var} {b : Var → ℝ}

theorem shade_rated {d : Client W} {g : Graph ℝ} {val adj : Nat → ℝ} (S : Shadow c d g val adj) (hu : u ∈ existing c.st) :
    ∃ D ε, Rated d.st g val adj D ε u := by
  obtain ⟨D, hD⟩ := S.sound.good.inv.wf.tangent val (srcAt (g.pos u))
  rw [S.alike.existing] at hu
  exact ⟨D, _, ⟨S.sound.good.inv, hD⟩, (mem_existing S.sound.good.inv).mp hu, fun _ _ => rfl, (shade_of S).fine.fits⟩

/-- **C60**: after every history of correct calls (compare C59), a sweep over all variables gives derivatives with
respect to any variable that do not depend on what is in memory. -/
theorem C60_rates (h : OrderlyS c) (hu : u ∈ existing c.st) : ∃ b, RatesL c.st u b := by
  obtain ⟨d, g, val, adj, S⟩ := orderlyS_shadow commutes_real h
  obtain ⟨D, ε, H⟩ := shade_rated S hu
  refine ⟨fun v => D (g.pos v) 1, fun J v hv => ?_⟩
  rw [S.alike.existing] at hv
  exact H.rateL S.alike ((mem_existing S.sound.good.inv).mp hv) J

theorem solL_gives {pr : Problem} {ok : ℝ → List ℝ → List (List ℝ) → Prop} {ode : CvsRhs W ℝ} {n : Nat}
    (h : OrderlyS c) {ops : List Var} (hops : ∀ v ∈ ops, v ∈ existing c.st) (hu : u ∈ existing c.st)
    (hb : RatesL c.st u b) (hf : pr.f = ode.f) {sv : Solver ℝ σ} (hns : ode.ns = ops.length) {ts : List ℝ} {mem : σ}
    (room : c.st.tape.head + ts.length * (n * (6 + 3 * ops.length)) ≤ tapeLimit)
    (hs : ∀ k0, ∀ k < ts.length, SensL W pr ok ode k0 (c.st.tape.head + k * (n * (6 + 3 * ops.length))) c.marks.length)
    (ha : AsksAll pr sv ok ts mem) (hg : Succeeds pr sv n ops.length ts mem) {y0 : List ℝ} :
    ∃ yt y1 s', (∀ J : Junk W ℝ, solLoopL J sv ode ops n ts mem y0 c.st = .ok ((yt, y1), s')) ∧
      ∃ sol, SolvesAll pr sv ts mem sol ∧ y1 = (sol.map Prod.fst).getLastD y0 ∧ yt.length = ts.length ∧ sol.length = ts.length ∧
        ∀ k (h1 : k < yt.length) (h2 : k < sol.length), yt[k].length = n ∧ sol[k].1.length = n ∧
          ∀ i (hi : i < yt[k].length), GivesL c.st s' yt[k][i] (sol[k].1.getD i 0) u (sensSum sol[k].2 ops b i) := by
  obtain ⟨d, g, val, adj, S⟩ := orderlyS_shadow commutes_real h
  obtain ⟨D, ε, H⟩ := shade_rated S hu
  have hi := S.sound.good.inv
  have hex := S.alike.existing
  have hhd : c.st.tape.head = d.st.tape.head := by rw [S.alike.tape]
  rw [hhd] at room hs
  have hh : ∀ v ∈ ops, g.Has v := fun v hv => (mem_existing hi).mp (by rw [← hex]; exact hops v hv)
  obtain ⟨yt, y1, s', t', sol, g', val', adj', D', ε', e, hsol, hy, S', H', L, h1, h2, h3⟩ :=
    solLoopL_total hf sv n hns ts mem (y0 := y0) (shade_of S) H
      (by rw [S.sound.good.lvl, S.marks]) hh room (hs _) ha hg
  refine ⟨yt, y1, s', e, sol, hsol, hy, h1, h2, fun k k1 k2 => ?_⟩
  obtain ⟨a1, a2, a3⟩ := h3 k k1 k2
  refine ⟨a1, a2, fun i hi' => ?_⟩
  have hD : sensSum sol[k].2 ops (fun v => D (g.pos v) 1) i = sensSum sol[k].2 ops b i := by
    unfold sensSum
    congr 1
    have : ∀ (l : List Var) (ks : List ℝ), (∀ v ∈ l, v ∈ existing c.st) →
        List.zipWith (fun k v => k * D (g.pos v) 1) ks l = List.zipWith (fun k v => k * b v) ks l := by
      intro l
      induction l with
      | nil => intro ks _; simp
      | cons v l ih =>
        intro ks hl
        cases ks with
        | nil => rfl
        | cons k ks =>
          have hv := hl v (by simp)
          have h4 := hb (fun _ _ _ _ => 0) v hv
          rw [hex] at hv
          rw [H.rateL S.alike ((mem_existing hi).mp hv)] at h4
          simp only [List.zipWith_cons_cons]
          rw [ih ks fun w hw => hl w (by simp [hw]), Except.ok.inj h4]
    exact this ops _ hops
  rw [← hD]
  exact H.givesL H' S.alike S'.akin L (a3 i hi')

/-- **C60**, initial values: after every history of correct calls, `cvodes_sol(t0, y0, ts, f, fy)` completes for any
number of output times if the solver succeeds, and then is as in C27, whatever is in memory.  The right-hand side may
make constants, but no matrix products. -/
theorem C60_initial (h : OrderlyS c) {y0 : List Var} (hy : ∀ v ∈ y0, v ∈ existing c.st) {z : List ℝ}
    (hz : vals y0 c.st = .ok (z, c.st)) (hn : 0 < y0.length) (sv : Solver ℝ σ) (t0 : ℝ) (ts : List ℝ)
    (f : ℝ → List ℝ → List ℝ) (p : ℝ → Prog) (hp : ∀ t, (p t).Mild) (K : Nat) (hl : c.marks.length < 10)
    (ha : AsksAll (initProblem f p) sv (CallableL p [] y0.length y0.length K c.st.tape.head ts.length) ts
      (sv.init t0 z (unitVectors y0.length)))
    (hg : Succeeds (initProblem f p) sv y0.length y0.length ts (sv.init t0 z (unitVectors y0.length)))
    (room : c.st.tape.head + ts.length * (y0.length * (6 + 3 * y0.length)) + K ≤ tapeLimit)
    (hu : u ∈ existing c.st) (hb : RatesL c.st u b) :
    ∃ yt s', (∀ J : Junk W ℝ, cvodesSolY0L J sv t0 y0 ts f (odeY p []) c.st = .ok (yt, s')) ∧
      ∃ sol, SolvesAll (initProblem f p) sv ts (sv.init t0 z (unitVectors y0.length)) sol ∧
        yt.length = ts.length ∧ sol.length = ts.length ∧
        ∀ k (h1 : k < yt.length) (h2 : k < sol.length), yt[k].length = y0.length ∧ sol[k].1.length = y0.length ∧
          ∀ i (hi : i < yt[k].length), GivesL c.st s' yt[k][i] (sol[k].1.getD i 0) u (sensSum sol[k].2 y0 b i) := by
  obtain ⟨yt, y1, s', e, sol, h1, -, h2⟩ := solL_gives (ode := newCvsRhsYvar true y0.length f (odeY p [])) (y0 := z)
    h hy hu hb rfl rfl (by omega) (fun k0 k hk => by
      have hm : k * (y0.length * (6 + 3 * y0.length)) ≤ ts.length * (y0.length * (6 + 3 * y0.length)) :=
        Nat.mul_le_mul_right _ (by omega)
      have hcap : cap = tapeLimit := rfl
      exact sensL_y (K := K) hl hk rfl hn (by omega) hp) ha hg
  refine ⟨yt, s', fun J => ?_, sol, h1, h2⟩
  unfold cvodesSolY0L
  rw [bind_ok hz, sensInit_y, bind_ok (e J)]
  rfl

/-- **C60**, three parameters (for another number see `C27_parameters_refuted`). -/
theorem C60_parameters (h : OrderlyS c) {q : List Var} (hq : ∀ v ∈ q, v ∈ existing c.st) {z : List ℝ}
    (hz : vals q c.st = .ok (z, c.st)) (h3 : q.length = 3) (sv : Solver ℝ σ) (t0 : ℝ) (y ts : List ℝ)
    (f : ℝ → List ℝ → List ℝ) (p : ℝ → Prog) (hp : ∀ t, (p t).Mild) (K : Nat) (hl : c.marks.length < 10)
    (ha : AsksAll (paramProblem f p z) sv (CallableL p z y.length q.length K c.st.tape.head ts.length) ts
      (sv.init t0 y (List.replicate q.length (List.replicate y.length 0))))
    (hg : Succeeds (paramProblem f p z) sv y.length q.length ts
      (sv.init t0 y (List.replicate q.length (List.replicate y.length 0))))
    (room : c.st.tape.head + ts.length * (y.length * (6 + 3 * q.length)) + K ≤ tapeLimit)
    (hu : u ∈ existing c.st) (hb : RatesL c.st u b) :
    ∃ yt y1 s', (∀ J : Junk W ℝ, cvodesSolParL J sv t0 y ts q f (odeP p []) c.st = .ok ((yt, y1), s')) ∧
      ∃ sol, SolvesAll (paramProblem f p z) sv ts (sv.init t0 y (List.replicate q.length (List.replicate y.length 0))) sol ∧
        y1 = (sol.map Prod.fst).getLastD y ∧ yt.length = ts.length ∧ sol.length = ts.length ∧
        ∀ k (h1 : k < yt.length) (h2 : k < sol.length), yt[k].length = y.length ∧ sol[k].1.length = y.length ∧
          ∀ i (hi : i < yt[k].length), GivesL c.st s' yt[k][i] (sol[k].1.getD i 0) u (sensSum sol[k].2 q b i) := by
  have hlz : q.length = z.length := by
    obtain ⟨d, g, val, adj, S⟩ := orderlyS_shadow commutes_real h
    have hh : ∀ v ∈ q, g.Has v := fun v hv => (mem_existing S.sound.good.inv).mp (by rw [← S.alike.existing]; exact hq v hv)
    obtain ⟨s2, e2, -⟩ := blind_vals _ _ _ _ _ S.alike (S.sound.good.inv.varVals hh)
    rw [hz] at e2
    cases e2
    simp
  obtain ⟨yt, y1, s', e, sol, h1⟩ := solL_gives (ode := newCvsRhsPvar false q.length z f (odeP p [])) (y0 := y)
    (pr := paramProblem f p z) h hq hu hb rfl rfl (n := y.length) (ts := ts) (by omega) (fun k0 k hk => by
      have hm : k * (y.length * (6 + 3 * q.length)) ≤ ts.length * (y.length * (6 + 3 * q.length)) :=
        Nat.mul_le_mul_right _ (by omega)
      have hcap : cap = tapeLimit := rfl
      rw [hlz] at h3 hm room ⊢
      exact sensL_p (K := K) h3 hl hk rfl (by omega) hp) ha hg
  refine ⟨yt, y1, s', fun J => ?_, sol, h1⟩
  unfold cvodesSolParL
  rw [bind_ok hz, sensInit_p]
  exact e J

theorem sens_unique {pr : Problem} {f : ℝ → List ℝ → List ℝ} {p : ℝ → Prog}
    (hp : pr = initProblem f p ∨ ∃ q, pr = paramProblem f p q) :
    ∀ t y S o o', pr.sens t y S o → pr.sens t y S o' → o = o' := by
  rcases hp with rfl | ⟨q, rfl⟩
  · simp only [initProblem]
    exact fun _ _ _ _ _ => isSens_unique
  · simp only [paramProblem]
    exact fun _ _ _ _ _ => isSens_unique

theorem solLoopL_stops {k0 : Nat} {pr : Problem} {ok : ℝ → List ℝ → List (List ℝ) → Prop} {ode : CvsRhs W ℝ}
    {lv : Nat} (hpr : ∀ t y S o o', pr.sens t y S o → pr.sens t y S o' → o = o') (hf : pr.f = ode.f) (sv : Solver ℝ σ)
    (n : Nat) {ops : List Var} (hns : ode.ns = ops.length) :
    ∀ (ts : List ℝ) (mem : σ) {s t : St W} {g : Graph ℝ} {val adj : Nat → ℝ} {D ε : Nat → ℝ →L[ℝ] ℝ} {y0 : List ℝ},
    Shade k0 s t g val adj → Rated t g val adj D ε u → t.level = lv →
    (∀ v ∈ ops, g.Has v) → t.tape.head + ts.length * (n * (6 + 3 * ops.length)) ≤ cap →
    (∀ k < ts.length, SensL W pr ok ode k0 (t.tape.head + k * (n * (6 + 3 * ops.length))) lv) →
    AsksAll pr sv ok ts mem → GivesUp pr sv n ops.length ts mem →
    ∀ J : Junk W ℝ, solLoopL J sv ode ops n ts mem y0 s = .error .stop := by
  intro ts
  induction ts with
  | nil =>
    intro mem s t g val adj D ε y0 _ _ _ _ _ _ _ hg
    exact hg.elim
  | cons t0 ts ih =>
    intro mem s t g val adj D ε y0 h H hlv hops room hs ha hg J
    have hlen : (t0 :: ts).length * (n * (6 + 3 * ops.length)) =
        n * (6 + 3 * ops.length) + ts.length * (n * (6 + 3 * ops.length)) := by
      simp [Nat.succ_mul, Nat.add_comm]
    rw [hlen] at room
    have hs0 := hs 0 (by simp)
    rw [Nat.zero_mul, Nat.add_zero] at hs0
    obtain ⟨⟨ierr, y, yS, mem'⟩, s1, t1, e1, hsol, h1, hh1, hl1, -⟩ := answerL_total hf
      hs0 (sv.step mem t0) h rfl hlv ha.1
    unfold solLoopL
    rw [bind_ok (e1 J)]
    rcases hg with ⟨r, hr, hne⟩ | ⟨y', yS', m', hr, hyn, hS, hS', hg⟩
    · cases solves_unique hpr _ hsol hr
      simp only at hne
      simp only [if_pos hne]
      rfl
    · cases solves_unique hpr _ hsol hr
      have H1 := H.move h1.fine.inv
      obtain ⟨vs, t2, e2, hlt⟩ := solVars_total hS (fun v hv => (hS' v hv).trans hyn.symm) (List.range n) h1.fine.inv hops
        (fun i hi => by rw [hyn]; exact List.mem_range.mp hi) (by rw [hh1, List.length_range]; omega)
      obtain ⟨g2, val2, adj2, D2, ε2, H2, L2, hh2, hl2, sh2⟩ := solVars_later y yS (List.range n) H1 hops
        (by rw [hh1, List.length_range]; omega) e2
      obtain ⟨s2, f2, A2⟩ := blind_solVars _ _ _ _ _ _ _ _ _ h1.akin e2
      rw [List.length_range] at hh2 hl2
      have hv2 : k0 ≤ t2.vhead := by
        have a1 := h1.le
        have a2 := h1.fine.inv.vhead
        have a3 := H2.sim.inv.vhead
        have := L2.pre.nodes.length_le
        omega
      have h3 := Shade.of A2 H2.sim.inv H2.fits hv2
      have hlv2 : (scrub t2).level = lv := by
        show t2.level = lv
        omega
      have hb : (scrub t2).tape.head = t.tape.head + n * (6 + 3 * ops.length) := by
        show t2.tape.head = _
        omega
      have e3 := ih mem' (y0 := y) h3
        (H2.move h3.fine.inv) hlv2 (fun v hv => L2.pre.has (hops v hv)) (by omega)
        (fun k hk => by
          have := hs (k + 1) (by simpa using hk)
          rw [hb]
          rw [Nat.succ_mul, Nat.add_comm (k * _), ← Nat.add_assoc] at this
          exact this) (ha.2 y yS mem' hsol) hg J
      simp only [ne_eq, not_true_eq_false, if_false]
      have f2' : solVars ops ode.ns y yS (List.range n) s1 = .ok (vs, s2) := by rw [hns]; exact f2
      rw [bind_ok f2', bind_err e3]

/-- **C60**, initial values: if the solver reports an error at one of the output times, the program stops. -/
theorem C60_stops_initial (h : OrderlyS c) {y0 : List Var} (hy : ∀ v ∈ y0, v ∈ existing c.st) {z : List ℝ}
    (hz : vals y0 c.st = .ok (z, c.st)) (hn : 0 < y0.length) (sv : Solver ℝ σ) (t0 : ℝ) (ts : List ℝ)
    (f : ℝ → List ℝ → List ℝ) (p : ℝ → Prog) (hp : ∀ t, (p t).Mild) (K : Nat) (hl : c.marks.length < 10)
    (ha : AsksAll (initProblem f p) sv (CallableL p [] y0.length y0.length K c.st.tape.head ts.length) ts
      (sv.init t0 z (unitVectors y0.length)))
    (hg : GivesUp (initProblem f p) sv y0.length y0.length ts (sv.init t0 z (unitVectors y0.length)))
    (room : c.st.tape.head + ts.length * (y0.length * (6 + 3 * y0.length)) + K ≤ tapeLimit) (J : Junk W ℝ) :
    cvodesSolY0L J sv t0 y0 ts f (odeY p []) c.st = .error .stop := by
  obtain ⟨d, g, val, adj, S⟩ := orderlyS_shadow commutes_real h
  obtain ⟨D, ε, H⟩ := shade_rated S (hy _ (List.getElem_mem hn))
  have hi := S.sound.good.inv
  have hhd : c.st.tape.head = d.st.tape.head := by rw [S.alike.tape]
  have hcap : cap = tapeLimit := rfl
  have e := solLoopL_stops (ode := newCvsRhsYvar true y0.length f (odeY p [])) (y0 := z) (sens_unique (.inl rfl)) rfl sv
    y0.length (ops := y0) rfl ts _ (shade_of S) H (by rw [S.sound.good.lvl, S.marks])
    (fun v hv => (mem_existing hi).mp (by rw [← S.alike.existing]; exact hy v hv)) (by omega)
    (fun k hk => by
      have hm : k * (y0.length * (6 + 3 * y0.length)) ≤ ts.length * (y0.length * (6 + 3 * y0.length)) :=
        Nat.mul_le_mul_right _ (by omega)
      exact sensL_y (K := K) hl hk (by rw [hhd]) hn (by omega) hp) ha hg J
  unfold cvodesSolY0L
  rw [bind_ok hz, sensInit_y, bind_err e]

/-- **C60**, three parameters: if the solver reports an error at one of the output times, the program stops. -/
theorem C60_stops_parameters (h : OrderlyS c) {q : List Var} (hq : ∀ v ∈ q, v ∈ existing c.st) {z : List ℝ}
    (hz : vals q c.st = .ok (z, c.st)) (h3 : q.length = 3) (sv : Solver ℝ σ) (t0 : ℝ) (y ts : List ℝ)
    (f : ℝ → List ℝ → List ℝ) (p : ℝ → Prog) (hp : ∀ t, (p t).Mild) (K : Nat) (hl : c.marks.length < 10)
    (ha : AsksAll (paramProblem f p z) sv (CallableL p z y.length q.length K c.st.tape.head ts.length) ts
      (sv.init t0 y (List.replicate q.length (List.replicate y.length 0))))
    (hg : GivesUp (paramProblem f p z) sv y.length q.length ts
      (sv.init t0 y (List.replicate q.length (List.replicate y.length 0))))
    (room : c.st.tape.head + ts.length * (y.length * (6 + 3 * q.length)) + K ≤ tapeLimit) (J : Junk W ℝ) :
    cvodesSolParL J sv t0 y ts q f (odeP p []) c.st = .error .stop := by
  obtain ⟨d, g, val, adj, S⟩ := orderlyS_shadow commutes_real h
  obtain ⟨D, ε, H⟩ := shade_rated S (hq _ (List.getElem_mem (by omega : 0 < q.length)))
  have hi := S.sound.good.inv
  have hhd : c.st.tape.head = d.st.tape.head := by rw [S.alike.tape]
  have hcap : cap = tapeLimit := rfl
  have hh : ∀ v ∈ q, g.Has v := fun v hv => (mem_existing hi).mp (by rw [← S.alike.existing]; exact hq v hv)
  have hlz : q.length = z.length := by
    obtain ⟨s2, e2, -⟩ := blind_vals _ _ _ _ _ S.alike (S.sound.good.inv.varVals hh)
    rw [hz] at e2
    cases e2
    simp
  have e := solLoopL_stops (ode := newCvsRhsPvar false q.length z f (odeP p [])) (y0 := y) (sens_unique (.inr ⟨z, rfl⟩)) rfl sv
    y.length (ops := q) rfl ts _ (shade_of S) H (by rw [S.sound.good.lvl, S.marks]) hh (by omega)
    (fun k hk => by
      have hm : k * (y.length * (6 + 3 * q.length)) ≤ ts.length * (y.length * (6 + 3 * q.length)) :=
        Nat.mul_le_mul_right _ (by omega)
      have h3' := h3
      rw [hhd] at room
      rw [hlz] at h3' hm room ⊢
      exact sensL_p (K := K) h3' hl hk (by rw [hhd]) (by omega) hp) ha hg J
  unfold cvodesSolParL
  rw [bind_ok hz, sensInit_p, e]

/-! The hypotheses are met: two output times and a right-hand side that makes a constant. -/

/-- `y' = 2 y` -/
noncomputable def doubling (_ : ℝ) : Prog := .op (.const 2) <| .op (.bin .mul 0 2) <| .ret [3]

theorem single_answer {F : Nat → List ℝ → ℝ} {y q : List ℝ} {src : Nat → Option Nat} {S o : List (List ℝ)}
    (hy : y.length = 1) (hS : S.length = 1) (h : IsSensRhs F y q src S o) : ∃ a, o = [[a]] := by
  obtain ⟨a1, a2⟩ := h
  obtain ⟨x, rfl⟩ := List.length_eq_one_iff.mp (a1.trans hS)
  have := (a2 0 (by omega)).1
  simp only [List.getD_cons_zero] at this
  obtain ⟨a, rfl⟩ := List.length_eq_one_iff.mp (this.trans hy)
  exact ⟨a, rfl⟩

/-- `f` of the equation `y' = 2 y` -/
noncomputable def doublingF (_ : ℝ) (y : List ℝ) : List ℝ := y.map fun a => 2 * a

theorem doubling_step {r a x t : ℝ} {z} (h : Solves (initProblem doublingF doubling) (euler.step (r, [a], [[x]]) t) z) :
    ∃ a' x', z = (0, [a'], [[x']], t, [a'], [[x']]) := by
  cases h with | rhs h =>
  cases h with | sens h1 h2 =>
  cases h2
  simp only [initProblem] at h1
  obtain ⟨o, rfl⟩ := single_answer (y := [a]) (S := [[x]]) rfl rfl h1
  exact ⟨_, _, rfl⟩

theorem doubling_asks {hd m : Nat} (hm : hd + 9 * m ≤ 12000) : ∀ (ts : List ℝ) (r a x : ℝ),
    AsksAll (initProblem doublingF doubling) euler (CallableL doubling [] 1 1 30 hd m) ts (r, [a], [[x]]) ∧
      Succeeds (initProblem doublingF doubling) euler 1 1 ts (r, [a], [[x]]) := by
  intro ts
  induction ts with
  | nil => intro r a x; exact ⟨trivial, trivial⟩
  | cons t ts ih =>
    intro r a x
    refine ⟨⟨⟨⟨⟨rfl, rfl, ?_, ?_⟩, by simp, ?_, fun k hk j => ?_⟩, fun _ _ => trivial⟩, fun y yS m' h => ?_⟩,
      fun z h => ?_, fun y yS m' h => ?_⟩
    · simp [doubling, Prog.Ok, Instr.Ok, Instr.sem, Bin.domVV]
    · simp [doubling, Prog.cost, Instr.cost]
    · simp [doubling, Prog.sem, Instr.sem]
    · have := Nat.one_le_two_pow (n := j)
      simp [doubling, Prog.cost, Instr.cost]
      omega
    · obtain ⟨a', x', e⟩ := doubling_step h
      cases e
      exact (ih _ _ _).1
    · obtain ⟨a', x', rfl⟩ := doubling_step h
      exact ⟨rfl, rfl, rfl, by simp⟩
    · obtain ⟨a', x', e⟩ := doubling_step h
      cases e
      exact (ih _ _ _).2

example : ∃ (c : Client W) (y0 u : Var) (b : Var → ℝ) (yt : List (List Var)) (s' : St W), OrderlyL ℝ c ∧ RatesL c.st u b ∧
    (∀ J : Junk W ℝ, cvodesSolY0L J euler 0 [y0] [1, 2] doublingF (odeY doubling []) c.st = .ok (yt, s')) ∧ yt.length = 2 := by
  obtain ⟨c, o, v, hh, hm, hn⟩ := orderlyL_three (W := W)
  obtain ⟨d, g, val, adj, S⟩ := orderlyL_shadow commutes_real o
  have hex : ∀ k < 3, nth c.env k ∈ existing c.st := fun k hk => by
    rw [S.alike.existing]
    exact (mem_existing S.sound.good.inv).mpr (S.sound.good.has _ (by rw [S.env]; exact nth_mem (by omega)))
  have v1 : (vals [nth c.env 1] : M W (List ℝ)) c.st = .ok ([3], c.st) := by
    have hv := ValL.ofRead S.sound.good.inv (by rw [← S.env]; exact S.sound.good.has) (S.vals (fun _ h => h) v)
    have h1 := (hv.nths (is := [1]) (by simp [hn])).read S.sound.good.inv
    obtain ⟨s2, e2, -⟩ := blind_vals _ _ _ _ _ S.alike h1
    have := vals_st e2
    subst this
    rw [← List.map_singleton (f := nth c.env), e2]
    simp [num]
  obtain ⟨b, hb⟩ := C60_rates o.solves (hex 0 (by omega))
  obtain ⟨yt, s', e, sol, -, h1, -⟩ := C60_initial o.solves (y0 := [nth c.env 1]) (by simpa using hex 1 (by omega)) v1 (by simp) euler 0 [1, 2]
    doublingF doubling (by simp [doubling, Prog.Mild, Instr.Mild]) 30 (by simp [hm])
    (doubling_asks (by rw [hh]; simp) _ _ _ _).1 (doubling_asks (hd := 0) (m := 0) (by simp) _ _ _ _).2
    (by rw [hh]; simp [tapeLimit]) (hex 0 (by omega)) hb
  exact ⟨c, _, _, b, yt, s', o, hb, e, h1⟩

theorem isGradAt_one {F : List ℝ → ℝ} {x d : ℝ} (h : HasDerivAt (fun t => F [t]) d x) : IsGradAt F [x] [d] := by
  refine ⟨rfl, ?_⟩
  have h1 : HasFDerivAt (fun y : Fin 1 → ℝ => y 0) (ContinuousLinearMap.proj (R := ℝ) (φ := fun _ => ℝ) 0)
    (fun i : Fin 1 => [x][i]) := hasFDerivAt_apply 0 _
  have h2 : HasDerivAt (fun t => F [t]) d ((fun i : Fin 1 => [x][i]) 0) := h
  have := h2.comp_hasFDerivAt _ h1
  simpa [Function.comp_def] using this

/-- a solver that asks once, succeeds, and fails from the second output time on -/
noncomputable def tiring : Solver ℝ Nat where
  init _ _ _ := 0
  step m t := match m with
    | 0 => .sens t [3] [[1]] fun S => .done 0 [5] S 1
    | _ => .done (-4) [5] [[1]] 1

example : ∃ (c : Client W) (y0 : Var), OrderlyL ℝ c ∧ y0 ∈ existing c.st ∧
    ∀ J : Junk W ℝ, cvodesSolY0L J tiring 0 [y0] [1, 2, 3] doublingF (odeY doubling []) c.st = .error .stop := by
  obtain ⟨c, o, v, hh, hm, hn⟩ := orderlyL_three (W := W)
  obtain ⟨d, g, val, adj, S⟩ := orderlyL_shadow commutes_real o
  have hex : ∀ k < 3, nth c.env k ∈ existing c.st := fun k hk => by
    rw [S.alike.existing]
    exact (mem_existing S.sound.good.inv).mpr (S.sound.good.has _ (by rw [S.env]; exact nth_mem (by omega)))
  have v1 : (vals [nth c.env 1] : M W (List ℝ)) c.st = .ok ([3], c.st) := by
    have hv := ValL.ofRead S.sound.good.inv (by rw [← S.env]; exact S.sound.good.has) (S.vals (fun _ h => h) v)
    have h1 := (hv.nths (is := [1]) (by simp [hn])).read S.sound.good.inv
    obtain ⟨s2, e2, -⟩ := blind_vals _ _ _ _ _ S.alike h1
    have := vals_st e2
    subst this
    rw [← List.map_singleton (f := nth c.env), e2]
    simp [num]
  -- the one question is answered as for Euler's method
  have hq := (doubling_asks (hd := c.st.tape.head) (m := 3) (by rw [hh]; simp) [1] 0 3 1).1.1.1
  obtain ⟨w, hw⟩ : ∃ o, (initProblem doublingF doubling).sens 1 [3] [[1]] o := by
    simp only [initProblem]
    refine ⟨[[2]], rfl, fun j hj => ?_⟩
    obtain rfl : j = 0 := by simpa using hj
    refine ⟨rfl, fun i hi => ?_⟩
    obtain rfl : i = 0 := by simpa using hi
    refine ⟨[2], [], rfl, isGradAt_one ?_, by simp⟩
    have : (fun t => odeFn (doubling 1) 1 [] 0 [t]) = fun t => t * 2 := by
      funext t
      simp [odeFn, doubling, Prog.sem, Instr.sem, look, Bin.fn]
    simp only [List.length_singleton]
    rw [this]
    simpa using (hasDerivAt_id (3 : ℝ)).mul_const 2
  refine ⟨c, _, o, hex 1 (by omega), fun J => C60_stops_initial o.solves (y0 := [nth c.env 1])
    (by simpa using hex 1 (by omega)) v1 (by simp) tiring 0 [1, 2, 3] doublingF doubling
    (by simp [doubling, Prog.Mild, Instr.Mild]) 30 (by simp [hm]) ?_ ?_ (by rw [hh]; simp [tapeLimit]) J⟩
  · refine ⟨⟨hq, fun _ _ => trivial⟩, fun y yS m' h => ?_⟩
    cases h with | sens h1 h2 =>
    cases h2
    exact ⟨trivial, fun y yS m' h => by cases h⟩
  · obtain ⟨a, rfl⟩ : ∃ a, w = [[a]] := by
      simp only [initProblem] at hw
      exact single_answer (y := [3]) (S := [[1]]) rfl rfl hw
    exact .inr ⟨[5], [[a]], 1, .sens hw .done, rfl, rfl, by simp, .inl ⟨_, .done, by simp⟩⟩

/-- `f` of the equation `y' = q₁ q₂ y + q₃`, `linear` of `Props/Ode.lean`, where `q = (2, 3, 6)` -/
noncomputable def linearF (_ : ℝ) (y : List ℝ) : List ℝ := y.map fun a => 6 * a + 6

theorem linear_step {r a x x' x'' t : ℝ} {z}
    (h : Solves (paramProblem linearF linear [2, 3, 6]) (euler.step (r, [a], [[x], [x'], [x'']]) t) z) :
    ∃ a' w w' w'', z = (0, [a'], [[w], [w'], [w'']], t, [a'], [[w], [w'], [w'']]) := by
  cases h with | rhs h =>
  cases h with | sens h1 h2 =>
  cases h2
  rename_i o
  simp only [paramProblem] at h1
  obtain ⟨a1, a2⟩ := h1
  obtain ⟨l, l', l'', rfl⟩ : ∃ l l' l'', o = [l, l', l''] := List.length_eq_three.mp a1
  have b0 := (a2 0 (by simp)).1
  have b1 := (a2 1 (by simp)).1
  have b2 := (a2 2 (by simp)).1
  simp at b0 b1 b2
  obtain ⟨w, rfl⟩ := List.length_eq_one_iff.mp b0
  obtain ⟨w', rfl⟩ := List.length_eq_one_iff.mp b1
  obtain ⟨w'', rfl⟩ := List.length_eq_one_iff.mp b2
  exact ⟨_, _, _, _, rfl⟩

theorem linear_asks {hd m : Nat} (hm : hd + 15 * m ≤ 12000) : ∀ (ts : List ℝ) (r a x x' x'' : ℝ),
    AsksAll (paramProblem linearF linear [2, 3, 6]) euler (CallableL linear [2, 3, 6] 1 3 60 hd m) ts
      (r, [a], [[x], [x'], [x'']]) ∧
      Succeeds (paramProblem linearF linear [2, 3, 6]) euler 1 3 ts (r, [a], [[x], [x'], [x'']]) := by
  intro ts
  induction ts with
  | nil => intro r a x x' x''; exact ⟨trivial, trivial⟩
  | cons t ts ih =>
    intro r a x x' x''
    refine ⟨⟨⟨⟨⟨rfl, rfl, ?_, ?_⟩, by simp, ?_, fun k hk j => ?_⟩, fun _ _ => trivial⟩, fun y yS m' h => ?_⟩,
      fun z h => ?_, fun y yS m' h => ?_⟩
    · simp [linear, Prog.Ok, Instr.Ok, Instr.sem, Bin.domVV]
    · simp [linear, Prog.cost, Instr.cost]
    · simp [linear, Prog.sem, Instr.sem]
    · have := Nat.one_le_two_pow (n := j)
      simp [linear, Prog.cost, Instr.cost]
      omega
    · obtain ⟨a', w, w', w'', e⟩ := linear_step h
      cases e
      exact (ih _ _ _ _ _).1
    · obtain ⟨a', w, w', w'', rfl⟩ := linear_step h
      exact ⟨rfl, rfl, rfl, by simp⟩
    · obtain ⟨a', w, w', w'', e⟩ := linear_step h
      cases e
      exact (ih _ _ _ _ _).2

example : ∃ (c : Client W) (u : Var) (b : Var → ℝ) (yt : List (List Var)) (y1 : List ℝ) (s' : St W), OrderlyL ℝ c ∧
    RatesL c.st u b ∧
    (∀ J : Junk W ℝ, cvodesSolParL J euler 0 [7] [1, 2, 5] c.env linearF (odeP linear []) c.st = .ok ((yt, y1), s')) ∧
    yt.length = 3 := by
  obtain ⟨c, o, v, hh, hm, hn⟩ := orderlyL_three (W := W)
  obtain ⟨d, g, val, adj, S⟩ := orderlyL_shadow commutes_real o
  have hex : ∀ v ∈ c.env, v ∈ existing c.st := fun v hv => by
    rw [S.alike.existing]
    exact (mem_existing S.sound.good.inv).mpr (S.sound.good.has _ (by rw [S.env]; exact hv))
  have h0 : nth c.env 0 ∈ existing c.st := hex _ (nth_mem (by omega))
  obtain ⟨b, hb⟩ := C60_rates o.solves h0
  obtain ⟨yt, y1, s', e, sol, -, -, h1, -⟩ := C60_parameters o.solves (q := c.env) hex v hn euler 0 [7] [1, 2, 5]
    linearF linear (by simp [linear, Prog.Mild, Instr.Mild]) 60 (by simp [hm])
    (by rw [hn]; exact (linear_asks (by rw [hh]; simp) _ _ _ _ _ _).1)
    (by rw [hn]; exact (linear_asks (hd := 0) (m := 0) (by simp) _ _ _ _ _ _).2)
    (by rw [hh, hn]; simp [tapeLimit]) h0 hb
  exact ⟨c, _, b, yt, y1, s', o, hb, e, h1⟩

end Props
