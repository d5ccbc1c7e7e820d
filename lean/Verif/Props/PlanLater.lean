import Verif.Props.OdeBookLater
import Verif.Props.Plan
import Verif.Spec.PlanOnce

/-!
# C70 with checks of array shapes: functions that solve one differential equation or make one inner call

`C70_checked_gradient_partial` and `C70_checked_jacobian` suppose that the call completes.  Here that is proved for
functions that solve one equation, for one output time, or make one inner call (`Plan.Once`), after every history of
correct calls that has closed no nested region, where no plain variables are made afterwards.
-/

set_option linter.unusedSectionVars false

namespace Props
open Fz Spec
variable {W R : Type} [Arith R] [Rep W R] [LawfulRep W R] {c : Client W}

/-- the function does not fail a check where it runs without checks -/
def RunsOnce (J : Junk W R) (f : Plan R) : Prop :=
  ∀ {closed : Bool} {c : Client W} {g : Graph R} {val adj : Nat → R} {env outs : List Var} {ys : List R} {s' : St W},
    Sound closed c g val adj → (closed = false → ∃ d, Shadowed R c d) → (∀ v ∈ env, v ∈ c.env) →
    ValL ys env g val → f.Suits c.marks.length c.st.tape.head ys → f.Once closed ys →
    f.runL J env c.st = .ok (outs, s') → f.run env c.st = .ok (outs, s') ∧
    ∃ (ext : List Var) (g' : Graph R) (val' adj' : Nat → R), Sound true ⟨s', c.env ++ ext, c.marks⟩ g' val' adj' ∧
      ∀ v ∈ outs, v ∈ c.env ++ ext

/-- the beginning of `gradient` and `jacobian`: the region, the arguments, the function -/
theorem once_begun {J : Junk W R} {f : Plan R} (hR : RunsOnce J f) {g : Graph R} {val adj : Nat → R} (S : Sound false c g val adj)
    {d : Client W} (D : Shadowed R c d)
    {is : List Nat} {ys x : List R} (hf : f.ProperL c is ys x) (ho : f.Once false (x ++ ys)) {s0 s1 s2 : St W}
    {xv outs : List Var} (e0 : (beginNested : M W Unit) c.st = .ok ((), s0)) (e1 : (newVars x : M W (List Var)) s0 = .ok (xv, s1))
    (e2 : f.runL J (xv ++ is.map (nth c.env)) s1 = .ok (outs, s2)) :
    f.run (xv ++ is.map (nth c.env)) s1 = .ok (outs, s2) ∧
    ∃ (ext : List Var) (g' : Graph R) (val' adj' : Nat → R),
      Sound true ⟨s2, c.env ++ ext, c.env.length :: c.marks⟩ g' val' adj' ∧ (∀ v ∈ outs, v ∈ c.env ++ ext) ∧
      ∀ v ∈ xv, v ∈ c.env ++ ext := by
  obtain ⟨hi, hr, ht, hl, hroom, hs, -⟩ := hf
  have G := S.good
  have hy := ValL.ofRead G.inv (fun v hv => G.has v (mem_named hi v hv)) hr
  obtain ⟨G0, -, -, -, hst⟩ := G.begin (c' := ⟨s0, c.env, c.env.length :: c.marks⟩) (by unfold Call.step; simp only [e0])
  simp only at hst
  have cl0 : Clean R s0 := by
    have := S.clean rfl
    unfold Clean at this ⊢
    rw [hst]
    exact this
  have hh0 : s0.tape.head = c.st.tape.head := by rw [hst]
  have hy0 : ValL ys (is.map (nth c.env)) g val := hy
  obtain ⟨r, s1', g1, val1, adj1, e1', ev, ⟨l, hl1, hf1⟩, hh, hq⟩ := make_live G0.inv (closed := false) (fun _ => cl0) hy0
    (.newVals x) (by simp [Make.args]) trivial trivial rfl (by
      show s0.tape.head + 6 * x.length ≤ tapeLimit
      rw [hh0]; exact hroom)
  have e1'' : (newVars x : M W (List Var)) s0 = .ok (r, s1') := e1'
  rw [e1] at e1''
  cases e1''
  obtain ⟨g3, val3, adj3, ev3, hv3⟩ := gives_newVars G0.inv x xv s1 e1
  have hvx := ValL.ofRead ev.inv hq (hv3.read ev3.inv)
  have hh1 : s1.tape.head = c.st.tape.head + 6 * x.length := by
    have : s1.tape.head = s0.tape.head + 6 * x.length := hh
    rw [this, hh0]
  have S1 : Sound false ⟨s1, c.env ++ xv, c.env.length :: c.marks⟩ g1 val1 adj1 := ⟨G0.ofEvo ev hq, fun nd hn => by
    rw [hl1] at hn
    rcases List.mem_append.mp hn with hn | hn
    · exact S.fits nd hn
    · exact hf1 nd hn, fun _ => ev.keep.clean cl0⟩
  obtain ⟨gs, vls, ajs, D⟩ := D
  obtain ⟨d0, t0, f0, -, D0⟩ := D.open (by rw [D.marks]; exact hl)
  rw [e0] at f0
  cases f0
  obtain ⟨xv', d1, t1, gs1, vls1, ajs1, f1, -, -, D1⟩ := D0.create (env := []) (ys := []) (m := .newVals x) .nil
    (by simp [Make.args]) trivial trivial rfl rfl (by
      show t0.tape.head + 6 * x.length ≤ cap
      have := D0.alike.tape
      simp only at this
      rw [← this, hh0]
      exact hroom)
  have f1' : (newVars x : M W (List Var)) s0 = .ok (xv', d1) := f1
  rw [e1] at f1'
  cases f1'
  obtain ⟨q1, ext, g2, val2, adj2, S2, q2⟩ := hR S1 (fun _ => ⟨_, _, _, _, D1⟩) (env := xv ++ is.map (nth c.env)) (fun v hv => by
    rcases List.mem_append.mp hv with hv | hv
    · exact List.mem_append_right _ hv
    · exact List.mem_append_left _ (mem_named hi v hv)) (List.rel_append hvx (ev.valL G0.inv hy0))
    (by show f.Suits (c.marks.length + 1) s1.tape.head _; rw [hh1]; exact hs) ho e2
  simp only [List.append_assoc] at S2 q2
  exact ⟨q1, xv ++ ext, g2, val2, adj2, S2, q2, fun v hv => by simp [hv]⟩

/-- the end of the region -/
theorem once_ended {ext : List Var} {s2 s' : St W} {g : Graph R} {val adj : Nat → R}
    (S : Sound true ⟨s2, c.env ++ ext, c.env.length :: c.marks⟩ g val adj) (e : (endNested : M W Unit) s2 = .ok ((), s')) :
    ∃ (g' : Graph R) (val' adj' : Nat → R), Sound true ⟨s', c.env, c.marks⟩ g' val' adj' := by
  have G := S.good
  have e' : (Call.done : Call R).step ⟨s2, c.env ++ ext, c.env.length :: c.marks⟩ = .ok ⟨s', c.env, c.marks⟩ := by
    unfold Call.step
    simp [e]
  rcases G.done e' with ⟨h0, -⟩ | ⟨m, ms, n, b, -, -, -, -, -, -, G', -⟩
  · have h1 := G.lvl
    simp only [List.length_cons] at h1
    simp only at h0
    omega
  · exact ⟨_, _, _, G', fun nd hn => S.fits nd (List.mem_of_mem_take hn), by simp⟩

/-- `gradient` does not fail a check -/
theorem once_gradient {J : Junk W R} {f : Plan R} (hR : RunsOnce J f) {g : Graph R} {val adj : Nat → R}
    (S : Sound false c g val adj) {d : Client W} (D : Shadowed R c d) {is : List Nat} {ys x : List R}
    (hf : f.ProperL c is ys x) (ho : f.Once false (x ++ ys)) {r : R × List R} {s' : St W}
    (e : gradientL J (f.scalarL J (is.map (nth c.env))) x c.st = .ok (r, s')) :
    gradient (f.scalar (is.map (nth c.env))) x c.st = .ok (r, s') ∧
    ∃ (g' : Graph R) (val' adj' : Nat → R), Sound true ⟨s', c.env, c.marks⟩ g' val' adj' := by
  unfold gradientL at e
  obtain ⟨⟨⟩, s0, e0, e⟩ := Fz.bind_inv e
  obtain ⟨xv, s1, e1, e⟩ := Fz.bind_inv e
  obtain ⟨v, s2, e2, e⟩ := Fz.bind_inv e
  obtain ⟨y, s3, e3, e⟩ := Fz.bind_inv e
  obtain ⟨⟨⟩, s4, e4, e⟩ := Fz.bind_inv e
  obtain ⟨df, s5, e5, e⟩ := Fz.bind_inv e
  obtain ⟨⟨⟩, s6, e6, e⟩ := Fz.bind_inv e
  cases e
  unfold Plan.scalarL at e2
  obtain ⟨outs, s2', e2, e2'⟩ := Fz.bind_inv e2
  have hs2 : s2 = s2' ∧ v ∈ outs := by
    cases outs with
    | nil => cases e2'
    | cons w ws => cases e2'; exact ⟨rfl, by simp⟩
  obtain ⟨rfl, hv⟩ := hs2
  obtain ⟨q2, ext, g', val', adj', S2, hout, hxv⟩ := once_begun hR S D hf ho e0 e1 e2
  have G := S2.good
  have hg := G.has v (hout v hv)
  have hs3 : s3 = s2 := by
    have := G.inv.varVal hg
    rw [this] at e3
    cases e3
    rfl
  subst hs3
  obtain ⟨m, eg, i⟩ := G.inv.grad_ok hg fun nd hn => S2.fits nd hn _
  have := refines_grad J v _ _ _ eg
  rw [e4] at this
  cases this
  have S4 := S2.upd i
  have hs5 : s5 = s3.withMem m := by
    have := i.varAdjs (vs := xv) fun w hw => G.has w (hxv w hw)
    rw [e5] at this
    cases this
    rfl
  subst hs5
  refine ⟨?_, once_ended S4 e6⟩
  have es : (f.scalar (is.map (nth c.env)) xv : M W Var) s1 = .ok (v, s3) := by
    unfold Plan.scalar
    rw [bind_ok q2]
    exact e2'
  unfold gradient
  rw [bind_ok e0, bind_ok e1, bind_ok es, bind_ok e3, bind_ok eg, bind_ok e5, bind_ok e6]
  rfl

/-- `jacobian` does not fail a check -/
theorem once_jacobian {J : Junk W R} {f : Plan R} (hR : RunsOnce J f) {g : Graph R} {val adj : Nat → R}
    (S : Sound false c g val adj) {d : Client W} (D : Shadowed R c d) {is : List Nat} {ys x : List R}
    (hf : f.ProperL c is ys x) (ho : f.Once false (x ++ ys)) {n : Nat} {res : List R × List (List R)} {s' : St W}
    (e : jacobianL J (f.vectorL J (is.map (nth c.env))) n x c.st = .ok (res, s')) :
    jacobian (f.vector (is.map (nth c.env))) n x c.st = .ok (res, s') ∧
    ∃ (g' : Graph R) (val' adj' : Nat → R), Sound true ⟨s', c.env, c.marks⟩ g' val' adj' := by
  unfold jacobianL at e
  obtain ⟨⟨⟩, s0, e0, e⟩ := Fz.bind_inv e
  obtain ⟨xv, s1, e1, e⟩ := Fz.bind_inv e
  obtain ⟨outs, s2, e2, e⟩ := Fz.bind_inv e
  obtain ⟨outs', s3, e3, e⟩ := Fz.bind_inv e
  obtain ⟨fx, s4, e4, e⟩ := Fz.bind_inv e
  obtain ⟨rows, s5, e5, e⟩ := Fz.bind_inv e
  obtain ⟨⟨⟩, s6, e6, e⟩ := Fz.bind_inv e
  cases e
  have hs3 : outs' = outs ∧ s3 = s2 := by
    unfold confN at e3
    split at e3
    · cases e3; exact ⟨rfl, rfl⟩
    · cases e3
  obtain ⟨rfl, rfl⟩ := hs3
  obtain ⟨q2, ext, g', val', adj', S2, hout, hxv⟩ := once_begun hR S D hf ho e0 e1 e2
  have G := S2.good
  have hs4 : s4 = s3 := by
    have := G.inv.varVals (vs := outs') fun w hw => G.has w (hout w hw)
    rw [e4] at this
    cases this
    rfl
  subst hs4
  have hl : 0 < s4.level := by have := G.lvl; simp only [List.length_cons] at this; omega
  obtain ⟨mk, ms, k, b, hm, hlv, r1, r2, -⟩ := G.region hl
  obtain ⟨rows', m, a, ej, i⟩ := jacLoop_live S2.fits (xv := xv) (fun v hv => G.has v (hxv v hv)) r2 outs' G.inv hl G.max r1
    (fun v hv => G.has v (hout v hv))
  have := refines_jacLoop J xv outs' _ _ _ ej
  rw [e5] at this
  cases this
  refine ⟨?_, once_ended (S2.upd i) e6⟩
  unfold jacobian
  have ef : (f.vector (is.map (nth c.env)) xv n : M W (List Var)) s1 = .ok (outs', s4) := q2
  rw [bind_ok e0, bind_ok e1, bind_ok ef, bind_ok e3, bind_ok e4, bind_ok ej, bind_ok e6]
  rfl

/-- values survive an inner call -/
theorem once_values {s' : St W} {g g' : Graph R} {val adj val' adj' : Nat → R} {closed : Bool} (S : Sound closed c g val adj)
    (S' : Sound true ⟨s', c.env, c.marks⟩ g' val' adj')
    (h : (vals c.env : M W (List R)) s' = (vals c.env c.st).map (fun r => (r.1, s'))) {env : List Var}
    (he : ∀ v ∈ env, v ∈ c.env) {ys : List R} (hy : ValL ys env g val) : ValL ys env g' val' := by
  obtain ⟨js, hj, rfl⟩ := names_of he
  have h0 := S.good.inv.varVals (vs := c.env) S.good.has
  rw [h0] at h
  have v0 := ValL.ofRead S.good.inv S.good.has h0
  have v1 := ValL.ofRead S'.good.inv S'.good.has h
  rw [← hy.eq, (v0.nths hj).eq]
  exact v1.nths hj

/-- the run of such a function does not fail a check -/
theorem once_run (hc : Commutes R) {J : Junk W R} (f : Plan R) : f.Tidy → f.Careful → RunsOnce J f := by
  induction f with
  | ret is =>
    intro _ _ closed c g val adj env outs ys s' S D he hy _ _ e
    unfold Plan.runL at e
    unfold Plan.run
    refine ⟨e, ?_⟩
    by_cases hi : ∀ i ∈ is, i < env.length
    · rw [if_pos hi] at e
      cases e
      exact ⟨[], g, val, adj, by rw [List.append_nil]; exact ⟨S.good, S.fits, by simp⟩,
        fun v hv => List.mem_append_left _ (he v (mem_named hi v hv))⟩
    · rw [if_neg hi] at e
      cases e
  | make m k ih =>
    intro ht hCare closed c g val adj env outs ys s' S D he hy hs ho e
    obtain ⟨ha, hmf, hpr, hroom, hk⟩ := hs
    obtain ⟨⟨t1, t2, t3⟩, ht⟩ := ht
    obtain ⟨hm, ho⟩ := ho
    rw [hy.length_eq] at ha
    have G := S.good
    obtain ⟨r, s1, g1, val1, adj1, e1, ev, ⟨l, hl, hf⟩, hh, hq⟩ := make_live G.inv S.clean hy m ha t1 t3 hm hroom
    obtain ⟨g3, val3, adj3, ev3, hv3⟩ := make_gives hc G.inv hy m ha t1 t2 r s1 e1
    have hvr := ValL.ofRead ev.inv hq (hv3.read ev3.inv)
    unfold Plan.runL at e
    unfold Plan.run
    rw [if_pos ha, bind_ok e1] at e ⊢
    obtain ⟨q1, ext, g2, val2, adj2, S2, q2⟩ := ih ht hCare (closed := closed) (c := ⟨s1, c.env ++ r, c.marks⟩) (g := g1) (val := val1)
      (adj := adj1) ⟨G.ofEvo ev hq, fun nd hn => by
        rw [hl] at hn
        rcases List.mem_append.mp hn with hn | hn
        · exact S.fits nd hn
        · exact hf nd hn, fun h => ev.keep.clean (S.clean h)⟩
      (fun h => by
        obtain ⟨d, gs, vls, ajs, D⟩ := D h
        have hyD : ValL ys env gs vls :=
          ValL.ofRead D.sound.good.inv (fun v hv => D.sound.good.has v (by rw [D.env]; exact he v hv)) (D.vals he (hy.read G.inv))
        obtain ⟨r', d1, t1, gs1, vls1, ajs1, f1, -, -, D1⟩ := D.create hyD ha t1 t3 hmf hpr (by
          rw [← D.alike.tape]
          exact hroom)
        rw [e1] at f1
        cases f1
        exact ⟨_, _, _, _, D1⟩)
      (fun v hv => by
        rcases List.mem_append.mp hv with hv | hv
        · exact List.mem_append_left _ (he v hv)
        · exact List.mem_append_right _ hv) (List.rel_append (ev.valL G.inv hy) hvr)
      (by show k.Suits _ s1.tape.head _; rw [hh]; exact hk) ho e
    rw [List.append_assoc] at S2 q2
    exact ⟨q1, r ++ ext, g2, val2, adj2, S2, q2⟩
  | look i k ih =>
    intro ht hCare closed c g val adj env outs ys s' S D he hy hs ho e
    obtain ⟨hi, hs⟩ := hs
    rw [hy.length_eq] at hi
    unfold Plan.runL at e
    unfold Plan.run
    rw [if_pos hi, bind_ok ((hy.entry hi).read S.good.inv)] at e ⊢
    exact ih _ (ht _) (hCare _) S D he hy hs ho e
  | init p is es k ih =>
    intro ht hCare closed c g val adj env outs ys s' S D he hy hs ho e
    obtain ⟨hi, hj, hl, hs, hk⟩ := hs
    obtain ⟨rfl, ⟨t, hts, hm⟩, ho⟩ := ho
    rw [hy.length_eq] at hi hj
    unfold Plan.runL at e
    unfold Plan.run
    rw [if_pos ⟨hi, hj⟩] at e ⊢
    obtain ⟨yt, s1, e1, e2⟩ := Fz.bind_inv e
    obtain ⟨q, g1, val1, adj1, S1, hh, hv⟩ := solve_initial hc S hl hts (fun v hv => he v (mem_named hi v hv)) (hy.nths hi)
      (hy.nths hj) (by simpa using hs) hm e1
    obtain ⟨q1, ext, g2, val2, adj2, S2, q2⟩ := ih ht hCare (closed := true) S1 (by simp) (env := env ++ yt.flatten)
      (fun v hv => by
        rcases List.mem_append.mp hv with hv | hv
        · exact List.mem_append_left _ (he v hv)
        · exact List.mem_append_right _ hv) (hv _ _ hy)
      (by show k.Suits _ s1.tape.head _; rw [hh, List.length_map]; exact hk) ho e2
    rw [List.append_assoc] at S2 q2
    exact ⟨by rw [bind_ok q]; exact q1, yt.flatten ++ ext, g2, val2, adj2, S2, q2⟩
  | par p y is es k ih =>
    intro ht hCare closed c g val adj env outs ys s' S D he hy hs ho e
    obtain ⟨hi, hj, hl, h3, hs, hk⟩ := hs
    obtain ⟨rfl, ⟨t, hts, hm⟩, ho⟩ := ho
    rw [hy.length_eq] at hi hj
    unfold Plan.runL at e
    unfold Plan.run
    rw [if_pos ⟨hi, hj⟩] at e ⊢
    obtain ⟨yt, s1, e1, e2⟩ := Fz.bind_inv e
    obtain ⟨q, g1, val1, adj1, S1, hh, hv⟩ := solve_parameters hc S hl hts (fun v hv => he v (mem_named hi v hv))
      (by simpa using h3) (hy.nths hi) (hy.nths hj) hs hm e1
    obtain ⟨q1, ext, g2, val2, adj2, S2, q2⟩ := ih ht hCare (closed := true) S1 (by simp) (env := env ++ yt.1.flatten)
      (fun v hv => by
        rcases List.mem_append.mp hv with hv | hv
        · exact List.mem_append_left _ (he v hv)
        · exact List.mem_append_right _ hv) (hv _ _ hy)
      (by show k.Suits _ s1.tape.head _; rw [hh]; exact hk) ho e2
    rw [List.append_assoc] at S2 q2
    exact ⟨by rw [bind_ok q]; exact q1, yt.1.flatten ++ ext, g2, val2, adj2, S2, q2⟩
  | gradient f x is k ihf ihk =>
    intro ht hCare closed c g val adj env outs ys s' S D he hy hs ho e
    obtain ⟨hi, ⟨hl, hroom, hs, hfull⟩, y, df, hb, hk⟩ := hs
    obtain ⟨rfl, ho, hok⟩ := ho
    rw [hy.length_eq] at hi
    obtain ⟨d, D⟩ := D rfl
    obtain ⟨is', hi', hn⟩ := names_of fun v hv => he v (mem_named hi v hv)
    have hp : f.ProperL c is' (is.map (num ys)) x :=
      ⟨hi', by rw [← hn]; exact (hy.nths hi).read S.good.inv, ht.1, hl, hroom, hs, hfull⟩
    obtain ⟨gs, vls, ajs, D'⟩ := id D
    obtain ⟨r, s1, f1, f2, f3, f4, -⟩ := D'.planGradient hc hp hCare.1 hCare.2.1 (by rw [hb]; simp)
    rw [hb] at f2
    cases f2
    obtain ⟨q1, g1, val1, adj1, S1⟩ := once_gradient (ihf ht.1 hCare.2.1) S D hp ho (f1 J)
    have f1 := f1 J
    rw [← hn] at f1 q1
    unfold Plan.scalarL at f1
    unfold Plan.scalar at q1
    unfold Plan.runL at e
    unfold Plan.run
    rw [if_pos hi] at e ⊢
    rw [bind_ok f1] at e
    rw [bind_ok q1]
    exact ihk y df (ht.2 y df) (hCare.2.2 y df) (closed := true) S1 (by simp) he (once_values S S1 f4 he hy)
      (by show (k y df).Suits _ s1.tape.head _; rw [f3]; exact hk) (hok y df hb) e
  | jacobian f n x is k ihf ihk =>
    intro ht hCare closed c g val adj env outs ys s' S D he hy hs ho e
    obtain ⟨hi, ⟨hl, hroom, hs, hfull⟩, hx, rfl, hk⟩ := hs
    obtain ⟨rfl, ho, hok⟩ := ho
    rw [hy.length_eq] at hi
    obtain ⟨d, D⟩ := D rfl
    obtain ⟨is', hi', hn⟩ := names_of fun v hv => he v (mem_named hi v hv)
    have hp : f.ProperL c is' (is.map (num ys)) x :=
      ⟨hi', by rw [← hn]; exact (hy.nths hi).read S.good.inv, ht.1, hl, hroom, hs, hfull⟩
    obtain ⟨gs, vls, ajs, D'⟩ := id D
    obtain ⟨s1, f1, f3, f4, -⟩ := D'.planJacobian hc hp hCare.1 hx
    obtain ⟨q1, g1, val1, adj1, S1⟩ := once_jacobian (ihf ht.1 hCare.1) S D hp ho (f1 J)
    have f1 := f1 J
    rw [← hn] at f1 q1
    unfold Plan.vectorL at f1
    unfold Plan.vector at q1
    unfold Plan.runL at e
    unfold Plan.run
    rw [if_pos hi] at e ⊢
    rw [bind_ok f1] at e
    rw [bind_ok q1]
    exact ihk _ _ (ht.2 _ _) (hCare.2 _ _) (closed := true) S1 (by simp) he (once_values S S1 f4 he hy)
      (by show (k _ _).Suits _ s1.tape.head _; rw [f3]; exact hk) hok e

/-- **C70**, `gradient`, library with checks of array shapes: after every history of correct calls that has closed no
nested region, outside nested regions, a correct call of `gradient` for a function that solves one differential equation
completes and returns the numbers of the book; all variables of the caller keep their values, and the program may go on
with correct calls that make no plain variables.  Missing as in `C70_gradient_partial`; several output times, with which
solutions need not complete (`C27_times_refuted`); several equations. -/
theorem C70_later_gradient_partial (hc : Commutes R) (h : Orderly (R := R) false c) (h0 : c.marks = []) {f : Plan R}
    {is : List Nat} {ys x : List R} (hf : f.ProperL c is ys x) (ho : f.Once false (x ++ ys)) (ha : f.Apart) (hk : f.Careful)
    (hr : f.bookGradient ys x ≠ none) :
    ∃ r s', gradient (f.scalar (is.map (nth c.env))) x c.st = .ok (r, s') ∧ f.bookGradient ys x = some r ∧
      s'.tape.head = c.st.tape.head ∧ (vals c.env : M W (List R)) s' = (vals c.env c.st).map (fun r => (r.1, s')) ∧
      GoesOn R ⟨s', c.env, c.marks⟩ := by
  have hL := orderly_lenient h rfl h0
  obtain ⟨r, s', e, hb, -, h1, h2⟩ := C70_gradient_partial hc hL hf ha hk hr
  obtain ⟨g, val, adj, S⟩ := orderly_sound h
  obtain ⟨d, D⟩ := orderlyL_shadow hc hL
  obtain ⟨e', g', val', adj', S'⟩ := once_gradient (once_run hc f hf.2.2.1 hk) S D hf ho (e fun _ _ _ _ => Arith.zero)
  exact ⟨r, s', e', hb, h1, h2, goes_on S'⟩

/-- **C70**, `jacobian`, library with checks of array shapes, likewise, for a function that solves one differential equation
or makes one inner call of `gradient` or `jacobian`, to any depth; right-hand sides and inner functions may use variables
of the function.  Missing: several output times, several equations or inner calls one after the other. -/
theorem C70_later_jacobian_partial (hc : Commutes R) (h : Orderly (R := R) false c) (h0 : c.marks = []) {f : Plan R}
    {is : List Nat} {ys x : List R} (hf : f.ProperL c is ys x) (ho : f.Once false (x ++ ys)) (hk : f.Careful)
    (hx : x ++ ys ≠ []) :
    ∃ s', jacobian (f.vector (is.map (nth c.env))) (f.bookJacobian ys x).1.length x c.st = .ok (f.bookJacobian ys x, s') ∧
      s'.tape.head = c.st.tape.head ∧ (vals c.env : M W (List R)) s' = (vals c.env c.st).map (fun r => (r.1, s')) ∧
      GoesOn R ⟨s', c.env, c.marks⟩ := by
  have hL := orderly_lenient h rfl h0
  obtain ⟨s', e, -, h1, h2⟩ := C70_jacobian hc hL hf hk hx
  obtain ⟨g, val, adj, S⟩ := orderly_sound h
  obtain ⟨d, D⟩ := orderlyL_shadow hc hL
  obtain ⟨e', g', val', adj', S'⟩ := once_jacobian (once_run hc f hf.2.2.1 hk) S D hf ho (e fun _ _ _ _ => Arith.zero)
  exact ⟨s', e', h1, h2, goes_on S'⟩

/-! The hypotheses are met, for a program with three variables 2, 3, 6: `gradient` for `u y(1)`, where `y' = q₁ y`, `y(0) = 3`
with three parameters at 2, 3, 6 and `u = 3` is a variable of the program; `jacobian` for `w y(1)`, where `y' = a y`,
`y(0) = z` at `a = 2`, `z = 3` and `w = 6` is a variable of the program; `jacobian` for a function that calls `jacobian`
for the latter. -/

noncomputable def onceP : Ode ℝ (ℝ × List ℝ × List (List ℝ)) := { scalingP with ts := [1] }
noncomputable def onceY : Ode ℝ (ℝ × List ℝ × List (List ℝ)) := { scalingOde with ts := [1] }

noncomputable def uTimes : Plan ℝ := .par onceP [3] [0, 1, 2] [] <| .make (.bin .mul 3 4) <| .ret [5]
noncomputable def wTimes : Plan ℝ := .init onceY [1] [0] <| .make (.bin .mul 2 3) <| .ret [4]

theorem onceP_comps : onceP.compsP [] [2, 3, 6] [3] = [(9, [3, 0, 0])] := by
  simp [Ode.compsP, components, onceP, scalingP, Ode.solP, Ode.startP, solsBook, solveBook, euler, Code.sensP, scalingQ_rows, fdot, Arith.dotOf, List.replicate, List.range_succ]
  norm_num

theorem onceY_comps : onceY.compsY [2] [3] = [(9, [3])] := by
  simp [Ode.compsY, components, onceY, scalingOde, Ode.solY, Ode.startY, solsBook, solveBook, euler, Code.sensY, scaling_rows, fdot, Arith.dotOf, List.range_succ]
  norm_num

theorem uTimes_book : uTimes.bookGradient [3] [2, 3, 6] = some (27, [9, 0, 0]) := by
  simp [uTimes, Plan.bookGradient, gradientOf, stepsOf, Plan.write, solSteps, Make.write,
    Log.next, Log.each, Log.ret, Bin.write, step, input, opd, rowOf, backFrom, receive, seed, List.range_succ, Bin.pass,
    Bin.plain, Arith.mul, Arith.one, Arith.zero, Arith.add, onceP_comps]
  norm_num

theorem wTimes_book : wTimes.bookJacobian [6] [2, 3] = ([54], [[0, 18]]) := by
  simp [wTimes, Plan.bookJacobian, jacobianOf, stepsOf, Plan.write, solSteps, Make.write,
    Log.next, Log.each, Log.ret, Bin.write, step, input, opd, rowOf, backFrom, receive, seed, List.range_succ, Bin.pass,
    Bin.plain, Arith.mul, Arith.one, Arith.zero, Arith.add, onceY_comps]
  norm_num

theorem uTimes_suits {W : Type} [Rep W ℝ] {c : Client W} (hm : c.marks = []) (hh : c.st.tape.head = 21) (hn : c.env.length = 3)
    (hv : (vals ([1].map (nth c.env)) : M W (List ℝ)) c.st = .ok ([3], c.st)) :
    uTimes.ProperL c [1] [3] [2, 3, 6] ∧ uTimes.Once false [2, 3, 6, 3] := by
  refine ⟨⟨by simp [hn], hv, ⟨⟨trivial, trivial, trivial⟩, trivial⟩, by simp [hm], by simp [hh, tapeLimit], ?_, ?_⟩, rfl, ⟨1, rfl, ?_⟩, ?_⟩
  · rw [hm, hh]
    refine ⟨by simp, by simp, by simp, rfl, ?_, ?_⟩
    · have o1 := @scalingQ_callable 39 (by simp)
      simp [num, onceP, scalingP, SucceedsBook, AsksBook, solveBook, euler, Ode.startP, List.replicate, Code.sensP, scalingQ_rows,
        o1, tapeLimit]
    · simp only [num, List.map_cons, List.map_nil, List.cons_append, List.nil_append, List.getD_cons_zero, List.getD_cons_succ,
        onceP_comps]
      simp [Plan.Suits, Make.args, Make.Meets, Make.product, Make.words, Make.plain, onceP, tapeLimit]
  · intro j
    refine few_not_full ?_ j
    simp [hh, uTimes, Plan.words, Make.words, onceP]
  · simp [num, onceP, scalingP, AsksBook, euler, Ode.startP, List.replicate, scalingQ, Code.Meets, Make.args, Make.Meets, Make.plain,
      rhsInputs]
  · simp [Plan.Once, Make.Meets]

theorem wTimes_runs {depth head : Nat} (hd : depth < 10) (hh : head ≤ 50) :
    wTimes.Suits depth head [2, 3, 6] ∧ wTimes.Once false [2, 3, 6] := by
  refine ⟨⟨by simp, by simp, hd, ?_, ?_⟩, rfl, ⟨1, rfl, ?_⟩, ?_⟩
  · have o1 := @scaling_callable head hh
    simp [num, onceY, scalingOde, SucceedsBook, AsksBook, solveBook, euler, Ode.startY, List.range_succ, Code.sensY, scaling_rows,
      o1, tapeLimit]
    omega
  · simp only [num, List.map_cons, List.map_nil, List.cons_append, List.nil_append, List.getD_cons_zero, List.getD_cons_succ,
      onceY_comps]
    simp [Plan.Suits, Make.args, Make.Meets, Make.product, Make.words, Make.plain, onceY, tapeLimit]
    omega
  · simp [num, onceY, scalingOde, AsksBook, euler, Ode.startY, List.range_succ, scaling, Code.Meets, Make.args, Make.Meets,
      Make.plain, rhsInputs]
  · simp [Plan.Once, Make.Meets]

theorem wTimes_suits {W : Type} [Rep W ℝ] {c : Client W} (hm : c.marks = []) (hh : c.st.tape.head = 21) (hn : c.env.length = 3)
    (hv : (vals ([2].map (nth c.env)) : M W (List ℝ)) c.st = .ok ([6], c.st)) : wTimes.ProperL c [2] [6] [2, 3] := by
  refine ⟨by simp [hn], hv, ⟨⟨trivial, trivial, trivial⟩, trivial⟩, by simp [hm], by simp [hh, tapeLimit], ?_, ?_⟩
  · rw [hm, hh]
    exact (wTimes_runs (by simp) (by simp)).1
  · intro j
    refine few_not_full ?_ j
    simp [hh, wTimes, Plan.words, Make.words, onceY]

/-- so both calls complete there, each with the numbers of the book -/
example {W : Type} [Rep W ℝ] [LawfulRep W ℝ] : ∃ (c : Client W) (s' s'' : St W), Orderly (R := ℝ) false c ∧
    gradient (uTimes.scalar ([1].map (nth c.env))) [2, 3, 6] c.st = .ok ((27, [9, 0, 0]), s') ∧
    jacobian (wTimes.vector ([2].map (nth c.env))) 1 [2, 3] c.st = .ok (([54], [[0, 18]]), s'') := by
  obtain ⟨c, o, v, hh, hm⟩ := orderly_three (W := W)
  obtain ⟨g, val, adj, S⟩ := orderly_sound o
  have hv := ValL.ofRead S.good.inv S.good.has v
  have hn : c.env.length = 3 := hv.length_eq.symm
  have rd : ∀ i < 3, (vals ([i].map (nth c.env)) : M W (List ℝ)) c.st = .ok ([num [2, 3, 6] i], c.st) := by
    intro i hi
    exact (hv.nths (is := [i]) (by simpa [hn] using hi)).read S.good.inv
  obtain ⟨u1, u2⟩ := uTimes_suits hm hh hn (rd 1 (by simp))
  have w1 := wTimes_suits hm hh hn (rd 2 (by simp))
  obtain ⟨r, s', e, hb, -⟩ := C70_later_gradient_partial commutes_real o hm u1 u2 (by simp [uTimes, Plan.Apart])
    (by simp [uTimes, Plan.Careful]) (by rw [uTimes_book]; simp)
  obtain ⟨s'', e', -⟩ := C70_later_jacobian_partial commutes_real o hm w1 (wTimes_runs (depth := 0) (head := 0) (by simp) (by simp)).2
    (by simp [wTimes, Plan.Careful]) (by simp)
  rw [uTimes_book] at hb
  cases hb
  rw [wTimes_book] at e'
  exact ⟨c, s', s'', o, e, e'⟩

/-- a function with an inner call: `v ∂(w y(1))/∂z`, the derivative taken at `a = 2`, `z = 3` by a call of `jacobian` -/
noncomputable def vTimes : Plan ℝ :=
  .jacobian wTimes 1 [2, 3] [1] fun _ J => .make (.dotVD [0] [(J.getD 0 []).getD 1 0]) <| .ret [2]

theorem vTimes_write {env : List (Num ℝ)} (h : (opd env 1).val = 6) :
    vTimes.write env = (Plan.make (.dotVD [0] [18]) <| .ret [2]).write env := by
  have hb : jacobianOf wTimes.write [6] [2, 3] = ([54], [[0, 18]]) := wTimes_book
  simp [vTimes, Plan.write, h, hb]

theorem vTimes_book : vTimes.bookJacobian [6] [4] = ([72], [[18]]) := by
  simp [Plan.bookJacobian, jacobianOf, stepsOf, Log.next, Log.each, input]
  rw [vTimes_write rfl]
  simp [Plan.write, Make.write, Log.next, Log.each, Log.ret, step, fdot, Arith.dotOf,
    opd, rowOf, backFrom, receive, seed, List.range_succ, Arith.mul, Arith.one, Arith.zero, Arith.add]
  norm_num

theorem vTimes_suits {W : Type} [Rep W ℝ] {c : Client W} (hm : c.marks = []) (hh : c.st.tape.head = 21) (hn : c.env.length = 3)
    (hv : (vals ([2].map (nth c.env)) : M W (List ℝ)) c.st = .ok ([6], c.st)) :
    vTimes.ProperL c [2] [6] [4] ∧ vTimes.Once false [4, 6] := by
  have hb : wTimes.bookJacobian ([1].map (num [4, 6])) [2, 3] = ([54], [[0, 18]]) := wTimes_book
  refine ⟨⟨by simp [hn], hv, ⟨⟨⟨trivial, trivial, trivial⟩, trivial⟩, fun _ _ => ⟨⟨trivial, trivial, trivial⟩, trivial⟩⟩,
    by simp [hm], by simp [hh, tapeLimit], ?_, ?_⟩, rfl, (wTimes_runs (depth := 0) (head := 0) (by simp) (by simp)).2, ?_⟩
  · rw [hm, hh]
    refine ⟨by simp, ⟨by simp, by simp [tapeLimit], (wTimes_runs (by simp) (by simp)).1, fun j => few_not_full ?_ j⟩, by simp, ?_, ?_⟩
    · simp [wTimes, Plan.words, Make.words, onceY]
    · show 1 = (wTimes.bookJacobian ([1].map (num [4, 6])) [2, 3]).1.length
      rw [hb]
      rfl
    · simp [Plan.Suits, Make.args, Make.Meets, Make.product, Make.words, Make.plain, tapeLimit]
  · intro j
    refine few_not_full ?_ j
    simp [hh, vTimes, Plan.words, Make.words]
  · simp [Plan.Once, Make.Meets]

/-- this call completes too -/
example {W : Type} [Rep W ℝ] [LawfulRep W ℝ] : ∃ (c : Client W) (s' : St W), Orderly (R := ℝ) false c ∧
    jacobian (vTimes.vector ([2].map (nth c.env))) 1 [4] c.st = .ok (([72], [[18]]), s') := by
  obtain ⟨c, o, v, hh, hm⟩ := orderly_three (W := W)
  obtain ⟨g, val, adj, S⟩ := orderly_sound o
  have hv := ValL.ofRead S.good.inv S.good.has v
  have hn : c.env.length = 3 := hv.length_eq.symm
  obtain ⟨v1, v2⟩ := vTimes_suits hm hh hn ((hv.nths (is := [2]) (by simp [hn])).read S.good.inv)
  obtain ⟨s', e, -⟩ := C70_later_jacobian_partial commutes_real o hm v1 v2 ⟨by simp [wTimes, Plan.Careful], fun _ _ => trivial⟩
    (by simp)
  rw [vTimes_book] at e
  exact ⟨c, s', o, e⟩

end Props
