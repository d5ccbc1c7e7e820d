import Verif.Proof.MirrorRules
import Verif.Proof.BookOne
import Verif.Props.Rules

/-!
# C61: the rules of differentiation, without checks of array shapes

The theorems of C01, C02 and C18 about calls in the middle of a history suppose that sweeps complete in the state of the
call (`Rates`), and exclude programs that create constants: with checks of array shapes both may fail after a nested
region was closed (C33).  Without these checks neither is needed: see C59.
-/

set_option linter.unusedSectionVars false

namespace Props
open Fz Spec

variable {W : Type} [Rep W ℝ] [LawfulRep W ℝ] {c : Client W} {u : Var} {b : Var → ℝ}

/-- **C61**: the chain rule.  After every history of correct calls (compare C59) a program is run on any existing variables
`vs` with values `ys`.  It completes, its outputs have the values `p.sem ys`, and the derivative of output `k` with respect
to any existing variable `u` is the derivative of the program along the derivatives of its arguments, whatever is in
memory.  The program may create constants and may use matrix products. -/
theorem C61_chain_rule (h : OrderlyS c) {vs : List Var} (hvs : ∀ v ∈ vs, v ∈ existing c.st) {ys : List ℝ}
    (hys : (vals vs : M W (List ℝ)) c.st = .ok (ys, c.st)) (p : Prog) (hok : p.Ok ys)
    (room : c.st.tape.head + p.cost ys ≤ tapeLimit) (hu : u ∈ existing c.st) (hb : RatesL c.st u b) :
    ∃ outs s', (p.run vs : M W (List Var)) c.st = .ok (outs, s') ∧ outs.length = (p.sem ys).length ∧
      ∀ k (hk : k < outs.length), ∃ a, GivesL c.st s' outs[k] ((p.sem ys).getD k 0) u a ∧
        HasDerivAt (fun t => (p.sem (along ys (vs.map b) t)).getD k 0) a 0 := by
  obtain ⟨d, g, val, adj, S⟩ := orderlyS_shadow commutes_real h
  obtain ⟨D, ε, H⟩ := shade_rated S hu
  have hi := S.sound.good.inv
  have hex := S.alike.existing
  have hh : ∀ v ∈ vs, g.Has v := fun v hv => (mem_existing hi).mp (by rw [← hex]; exact hvs v hv)
  have hy : ys = vs.map fun v => val (g.pos v) := by
    obtain ⟨s2, e2, -⟩ := blind_vals _ _ _ _ _ S.alike (hi.varVals hh)
    rw [hys] at e2
    cases e2
    rfl
  have hhd : c.st.tape.head = d.st.tape.head := by rw [S.alike.tape]
  obtain ⟨outs, t', e, g', val', adj', D', ε', H', L, ol, out⟩ := H.progAll (env := vs) (p := p)
    (fun k hk => leafSafe_takes (S.sound.clean rfl k hk)) hh (by rw [← hy]; exact hok)
    (by rw [← hy, ← hhd]; exact room)
  have A : Akin (fun _ => False) c.st d.st := S.alike.weaken fun _ h => h.elim
  obtain ⟨s', f, A'⟩ := blind_prog_all (fun _ h => h) p vs _ _ _ _ A e
  have hbD : vs.map (fun v => D (g.pos v) 1) = vs.map b := List.map_congr_left fun v hv => by
    have h4 := hb (fun _ _ _ _ => 0) v (hvs v hv)
    rw [H.rateL A (hh v hv)] at h4
    exact Except.ok.inj h4
  rw [← hy, hbD] at out
  rw [← hy] at ol
  refine ⟨outs, s', f, ol, fun k hk => ?_⟩
  obtain ⟨o1, o2⟩ := out k hk
  exact ⟨_, H.givesL H' A A' L o1, o2⟩

/-- **C61**: the gradient.  After every history of correct calls, independent variables are created, a program is run on
them and on variables `vs` that exist, and an output is swept from.  This completes, whatever is in memory, and the adjoints
of the independent variables are the gradient (compare C01). -/
theorem C61_gradient (h : OrderlyS c) {vs : List Var} (hvs : ∀ v ∈ vs, v ∈ existing c.st) {ys : List ℝ}
    (hys : (vals vs : M W (List ℝ)) c.st = .ok (ys, c.st)) (p : Prog) (x : List ℝ) (k : Nat) (hok : p.Ok (x ++ ys))
    (hk : k < (p.sem (x ++ ys)).length) (room : c.st.tape.head + (6 * x.length + p.cost (x ++ ys)) ≤ tapeLimit) :
    ∃ df s', (∀ J : Junk W ℝ, deriveL J p vs x k c.st = .ok ((p.sem (x ++ ys), df), s')) ∧
      IsGradAt (fun z => (p.sem (z ++ ys)).getD k 0) x df := by
  obtain ⟨d, g, val, adj, S⟩ := orderlyS_shadow commutes_real h
  have hi := S.sound.good.inv
  have hex := S.alike.existing
  have hh : ∀ v ∈ vs, g.Has v := fun v hv => (mem_existing hi).mp (by rw [← hex]; exact hvs v hv)
  have hy : ys = vs.map fun v => val (g.pos v) := by
    obtain ⟨s2, e2, -⟩ := blind_vals _ _ _ _ _ S.alike (hi.varVals hh)
    rw [hys] at e2
    cases e2
    rfl
  have hhd : c.st.tape.head = d.st.tape.head := by rw [S.alike.tape]
  have hroom : Room d.st p x ys := by
    unfold Room
    rw [← hhd]
    exact room
  have hF := (shade_of S).fine
  obtain ⟨xv, outs, d1, d2, e1, e2, g', val', adj', D', ε', r⟩ := ranC hi hh hy hok hroom
  have hk' : k < outs.length := by rw [r.len]; exact hk
  have hf := r.fine (hF.weak (Or.inr trivial) fun _ => trivial)
  obtain ⟨m, e3⟩ := r.gradTotal hf r.sim.inv hk'
  obtain ⟨m', df, hm, i, ha, hgrad⟩ := r.grad r.sim.inv (fun nd hn => (r.zero nd hn).2)
    (fun nd hn => Or.inr (hF.fits nd hn)) hk' e3
  have A : Akin (fun _ => False) c.st d.st := S.alike.weaken fun _ h => h.elim
  obtain ⟨c1, f1, A1⟩ := blind_newVars _ _ _ _ _ A e1
  obtain ⟨c2, f2, A2⟩ := blind_prog_all (fun _ h => h) p _ _ _ _ _ A1 e2
  obtain ⟨c3, f3, A3⟩ := blind_vals _ _ _ _ _ A2 (r.vals r.sim.inv)
  have hl : lookV outs k = outs[k] := by simp [lookV, List.getD_eq_getElem?_getD, hk']
  obtain ⟨c4, f4, A4⟩ := gradL_mirror A3 r.sim.inv hf (by rw [hl]; exact (r.os k hk').has) e3
  obtain ⟨c5, f5, A5⟩ := blind_adjs _ _ _ _ _ A4 ha
  refine ⟨df, c5, fun J => ?_, hgrad⟩
  unfold deriveL
  rw [bind_ok f1, bind_ok f2, bind_ok f3, bind_ok (f4 J), bind_ok f5]
  rfl

theorem instr_givesL (h : OrderlyS c) {vs : List Var} (hvs : ∀ v ∈ vs, v ∈ existing c.st) {ys : List ℝ}
    (hys : (vals vs : M W (List ℝ)) c.st = .ok (ys, c.st)) {i : Instr} {m : M W Var} {f : List ℝ → ℝ}
    (hm : i.run vs = Spec.one m) (hf : ∀ z, i.sem z = [f z]) (hok : i.Ok ys)
    (room : c.st.tape.head + i.cost ys ≤ tapeLimit) (hu : u ∈ existing c.st) (hb : RatesL c.st u b) {a : ℝ}
    (hd : HasDerivAt (fun t => f (along ys (vs.map b) t)) a 0) :
    ∃ r s', m c.st = .ok (r, s') ∧ GivesL c.st s' r (f ys) u a := by
  have hl : ys.length = vs.length := mapM_length _ _ hys
  obtain ⟨outs, s', e, ol, out⟩ := C61_chain_rule h hvs hys (.op i (.ret [ys.length])) ⟨hok, by simp [hf, Prog.Ok]⟩ room hu hb
  have ho : outs.length = 1 := by rw [ol]; simp [Prog.sem]
  simp only [Prog.run, hm] at e
  obtain ⟨l, s1, e1, e2⟩ := bind_inv e
  unfold Spec.one at e1
  obtain ⟨r, s2, e3, e4⟩ := bind_inv e1
  cases e4
  have hlk : lookV (vs ++ [r]) ys.length = r := by
    simp [lookV, List.getD_eq_getElem?_getD, hl]
  have e' : ([lookV (vs ++ [r]) ys.length], _) = (outs, s') := Except.ok.inj e2
  rw [hlk] at e'
  cases e'
  obtain ⟨a', o1, o2⟩ := out 0 (by simp)
  have hfun : ∀ z : List ℝ, z.length = ys.length → ((Prog.op i (.ret [ys.length])).sem z).getD 0 0 = f z := by
    intro z hz
    simp [Prog.sem, hf, look, List.getD_eq_getElem?_getD, ← hz]
  have ha : a' = a := o2.unique (hd.congr_of_eventuallyEq (Filter.Eventually.of_forall fun t =>
    hfun _ (by simp [along, hl])))
  refine ⟨r, _, e3, ?_⟩
  rw [hfun ys rfl, ha] at o1
  exact o1

/-- **C61**: a new constant or independent variable has derivative 0 with respect to older variables. -/
theorem C61_new (h : OrderlyS c) (x : ℝ) (room : c.st.tape.head + 6 ≤ tapeLimit) (hu : u ∈ existing c.st)
    (hb : RatesL c.st u b) : ∃ r s', (newVar x : M W Var) c.st = .ok (r, s') ∧ GivesL c.st s' r x u 0 :=
  instr_givesL (i := .const x) (m := newVar x) (f := fun _ => x) h (vs := []) (by simp) rfl rfl (fun _ => rfl) trivial
    room hu hb (hasDerivAt_const _ _)

/-- **C61**: every unary function. -/
theorem C61_unary (h : OrderlyS c) (f : Un) {v : Var} (hv : v ∈ existing c.st) {x : ℝ}
    (hx : (v.val : M W ℝ) c.st = .ok (x, c.st)) (hdom : f.dom x)
    (room : c.st.tape.head + 7 ≤ tapeLimit) (hu : u ∈ existing c.st) (hb : RatesL c.st u b) {d : ℝ}
    (hd : HasDerivAt f.fn d x) :
    ∃ r s', (f.api v : M W Var) c.st = .ok (r, s') ∧ GivesL c.st s' r (f.fn x) u (d * b v) := by
  have hc : f.cost x ≤ 7 := by
    unfold Un.cost
    split <;> try split
    all_goals omega
  exact instr_givesL (i := .un f 0) (m := f.api v) (f := fun z => f.fn (look z 0)) h
    (vs := [v]) (by simpa using hv) (vals_one hx) rfl (fun _ => rfl) ⟨by simp, hdom⟩
    (show c.st.tape.head + f.cost x ≤ _ by omega) hu hb (a := d * b v) (hasDerivAt_line hd (b v))

/-- **C61**: every binary function of two variables. -/
theorem C61_binary (h : OrderlyS c) (f : Bin) {v w : Var} (hv : v ∈ existing c.st) (hw : w ∈ existing c.st)
    {x y : ℝ} (hx : (v.val : M W ℝ) c.st = .ok (x, c.st)) (hy : (w.val : M W ℝ) c.st = .ok (y, c.st))
    (hdom : f.domVV x y) (room : c.st.tape.head + 8 ≤ tapeLimit) (hu : u ∈ existing c.st) (hb : RatesL c.st u b)
    {d₁ d₂ : ℝ} (hd : HasFDerivAt (fun z : ℝ × ℝ => f.fn z.1 z.2)
      (d₁ • ContinuousLinearMap.fst ℝ ℝ ℝ + d₂ • ContinuousLinearMap.snd ℝ ℝ ℝ) (x, y)) :
    ∃ r s', (f.apiVV v w : M W Var) c.st = .ok (r, s') ∧ GivesL c.st s' r (f.fn x y) u (d₁ * b v + d₂ * b w) :=
  instr_givesL (i := .bin f 0 1) (m := f.apiVV v w) (f := fun z => f.fn (look z 0) (look z 1)) h
    (vs := [v, w]) (by simp [hv, hw]) (vals_two hx hy) rfl (fun _ => rfl) ⟨by simp, by simp, hdom⟩
    room hu hb (hasDerivAt_plane hd (b v) (b w))

/-- **C61**: a variable and a real number, the defects C15, C16, C17 excepted. -/
theorem C61_var_real (h : OrderlyS c) (f : Bin) {v : Var} (hv : v ∈ existing c.st) {x : ℝ}
    (hx : (v.val : M W ℝ) c.st = .ok (x, c.st)) (y : ℝ) (hdom : f.domVD x y) (hdef : ¬ f.defectVD y)
    (room : c.st.tape.head + 9 ≤ tapeLimit) (hu : u ∈ existing c.st) (hb : RatesL c.st u b) {d : ℝ}
    (hd : HasDerivAt (fun z => f.fn z y) d x) :
    ∃ r s', (f.apiVD v y : M W Var) c.st = .ok (r, s') ∧ GivesL c.st s' r (f.fn x y) u (d * b v) := by
  have hc : f.costVD y ≤ 9 := by
    unfold Bin.costVD
    split <;> try split <;> try split
    all_goals omega
  exact instr_givesL (i := .binVD f 0 y) (m := f.apiVD v y) (f := fun z => f.fn (look z 0) y) h
    (vs := [v]) (by simpa using hv) (vals_one hx) rfl (fun _ => rfl) ⟨by simp, hdom, hdef⟩
    (show c.st.tape.head + f.costVD y ≤ _ by omega) hu hb (hasDerivAt_line hd (b v))

/-- **C61**: a real number and a variable, the defects C15, C17 excepted. -/
theorem C61_real_var (h : OrderlyS c) (f : Bin) (x : ℝ) {v : Var} (hv : v ∈ existing c.st) {y : ℝ}
    (hy : (v.val : M W ℝ) c.st = .ok (y, c.st)) (hdom : f.domDV x y) (hdef : ¬ f.defectDV x)
    (room : c.st.tape.head + 9 ≤ tapeLimit) (hu : u ∈ existing c.st) (hb : RatesL c.st u b) {d : ℝ}
    (hd : HasDerivAt (fun z => f.fn x z) d y) :
    ∃ r s', (f.apiDV x v : M W Var) c.st = .ok (r, s') ∧ GivesL c.st s' r (f.fn x y) u (d * b v) := by
  have hc : f.costDV ≤ 9 := by
    unfold Bin.costDV
    split <;> omega
  exact instr_givesL (i := .binDV f x 0) (m := f.apiDV x v) (f := fun z => f.fn x (look z 0)) h
    (vs := [v]) (by simpa using hv) (vals_one hy) rfl (fun _ => rfl) ⟨by simp, hdom, hdef⟩
    (show c.st.tape.head + f.costDV ≤ _ by omega) hu hb (hasDerivAt_line hd (b v))

/-! The hypotheses are met, in a state where a chain procedure was left behind: after 2, 3 and their product, `gradient` has
computed the derivative of a product. -/

theorem orderlyL_closed : ∃ c : Client W, OrderlyL ℝ c ∧ c.st.tape.head = 21 ∧ c.env.length = 3 ∧
    (∀ v ∈ c.env, v ∈ existing c.st) ∧ ∀ is : List Nat, (∀ i ∈ is, i < 3) →
      (vals (is.map (nth c.env)) : M W (List ℝ)) c.st = .ok (is.map (num [2, 3, 6]), c.st) := by
  obtain ⟨c, o, v, hh, hm, hn⟩ := orderlyL_three (W := W)
  obtain ⟨d, g, val, adj, S⟩ := orderlyL_shadow commutes_real o
  have hv := ValL.ofRead S.sound.good.inv (by rw [← S.env]; exact S.sound.good.has) (S.vals (fun _ h => h) v)
  have v0 : (vals ([0, 1, 2].map (nth c.env)) : M W (List ℝ)) c.st = .ok ([2, 3, 6], c.st) := by
    have h1 := (hv.nths (is := [0, 1, 2]) (by simp [hn])).read S.sound.good.inv
    obtain ⟨s2, e2, -⟩ := blind_vals _ _ _ _ _ S.alike h1
    have := vals_st e2
    subst this
    rw [e2]
    simp [num]
  have hq : (Ask.gradient (mulCode 0 0 4) [5]).ProperL c [0, 1, 2] [2, 3, 6] := by
    refine ⟨by simp [hm], by simp [hn], v0, ?_, rfl, trivial⟩
    rw [hh]
    refine ⟨⟨trivial, trivial⟩, ⟨trivial, trivial⟩, ⟨trivial, trivial⟩, ?_, ?_, ?_, fun j => ?_⟩
    · simp [mulCode, Code.Meets, Make.args, Make.Meets, Make.plain]
    · simp [mulCode, Code.plain]
    · simp [mulCode, Code.words, Make.words, tapeLimit]
    · have := Nat.one_le_two_pow (n := j)
      simp [mulCode, Code.words, Make.words]
      omega
  obtain ⟨r, s', e, -, h1, h2, -⟩ := S.ask commutes_real hq
  have o' := OrderlyL.ask (fun _ _ _ _ => 0) _ _ _ r o hq (e _)
  obtain ⟨d', g', val', adj', S'⟩ := orderlyL_shadow commutes_real o'
  have henv : [0, 1, 2].map (nth c.env) = c.env := by
    apply List.ext_getElem
    · simp [hn]
    · intro i h3 h4
      have : i = 0 ∨ i = 1 ∨ i = 2 := by simp at h3; omega
      rcases this with rfl | rfl | rfl <;> simp [nth, List.getD_eq_getElem?_getD, h4]
  rw [henv] at h2
  refine ⟨_, o', by rw [← hh]; exact h1.head, hn, fun v hv => ?_, fun is his => ?_⟩
  · rw [S'.alike.existing]
    exact (mem_existing S'.sound.good.inv).mpr (S'.sound.good.has _ (by rw [S'.env]; exact hv))
  · have hv' := ValL.ofRead S'.sound.good.inv (by rw [← S'.env]; exact S'.sound.good.has) (S'.vals (fun _ h => h) h2)
    have h3 := (hv'.nths (is := is) (fun i hi => by rw [hn]; exact his i hi)).read S'.sound.good.inv
    obtain ⟨s2, e2, -⟩ := blind_vals _ _ _ _ _ S'.alike h3
    have := vals_st e2
    subst this
    exact e2

/-- a program with a constant, a branch and a product of a 1×1 with a 1×1 matrix -/
noncomputable def mixed : Prog :=
  .op (.const 5) <| .ifVV .gt 0 1 (.op (.matmulVV ⟨1, 1, fun _ _ => 0⟩ ⟨1, 1, fun _ _ => 2⟩) <| .op (.un .log 3) (.ret [4, 0])) (.ret [])

/-- C61_chain_rule -/
example : ∃ (c : Client W) (vs : List Var) (u : Var) (b : Var → ℝ) (outs : List Var) (s' : St W), OrderlyL ℝ c ∧
    RatesL c.st u b ∧ (mixed.run vs : M W (List Var)) c.st = .ok (outs, s') ∧ outs.length = 2 := by
  obtain ⟨c, o, hh, hn, hex, hv⟩ := orderlyL_closed (W := W)
  have h0 : nth c.env 0 ∈ existing c.st := hex _ (nth_mem (by omega))
  obtain ⟨b, hb⟩ := C60_rates o.solves h0
  have ok : mixed.Ok [6, 3] := by
    simp [mixed, Prog.Ok, Instr.Ok, Instr.sem, Un.dom, Rel.holds, look, entries]
  obtain ⟨outs, s', e, hl, -⟩ := C61_chain_rule o.solves (vs := [2, 1].map (nth c.env)) (by
      intro v hv
      obtain ⟨i, hi, rfl⟩ := List.mem_map.mp hv
      exact hex _ (nth_mem (by simp at hi; omega))) (ys := [6, 3]) (by
      rw [hv [2, 1] (by simp)]; simp [num]) mixed ok (by
      rw [hh]
      norm_num [mixed, Prog.cost, Instr.cost, Un.cost, tapeLimit, Rel.holds, look, Instr.sem, entries]) h0 hb
  refine ⟨c, _, _, b, outs, s', o, hb, e, ?_⟩
  rw [hl]
  norm_num [mixed, Prog.sem, Instr.sem, Rel.holds, look, entries]

/-- C61_gradient -/
example : ∃ (c : Client W) (vs : List Var) (df : List ℝ) (s' : St W), OrderlyL ℝ c ∧ vs.length = 1 ∧
    ∀ J : Junk W ℝ, deriveL J mixed vs [7] 0 c.st = .ok ((mixed.sem [7, 3], df), s') := by
  obtain ⟨c, o, hh, hn, hex, hv⟩ := orderlyL_closed (W := W)
  have ok : mixed.Ok [7, 3] := by
    simp [mixed, Prog.Ok, Instr.Ok, Instr.sem, Un.dom, Rel.holds, look, entries]
  obtain ⟨df, s', e, -⟩ := C61_gradient o.solves (vs := [1].map (nth c.env)) (by
      intro v hv
      obtain ⟨i, hi, rfl⟩ := List.mem_map.mp hv
      exact hex _ (nth_mem (by simp at hi; omega))) (ys := [3]) (by
      rw [hv [1] (by simp)]; simp [num]) mixed [7] 0 ok
    (by norm_num [mixed, Prog.sem, Instr.sem, Rel.holds, look, entries]) (by
      rw [hh]
      norm_num [mixed, Prog.cost, Instr.cost, Un.cost, tapeLimit, Rel.holds, look, Instr.sem, entries])
  exact ⟨c, _, df, s', o, by simp, e⟩

/-- C61_new, C61_unary, C61_binary, C61_var_real, C61_real_var -/
example : ∃ (c : Client W) (u : Var) (b : Var → ℝ) (v w : Var), OrderlyL ℝ c ∧ u ∈ existing c.st ∧ RatesL c.st u b ∧
    v ∈ existing c.st ∧ w ∈ existing c.st ∧ (v.val : M W ℝ) c.st = .ok (6, c.st) ∧ (w.val : M W ℝ) c.st = .ok (2, c.st) ∧
    Un.dom .log 6 ∧ HasDerivAt (Un.fn .log) (6⁻¹) 6 ∧ Bin.domVV .add 6 2 ∧
    Bin.domVD .mul 6 5 ∧ ¬ Bin.defectVD .mul 5 ∧ HasDerivAt (fun z => Bin.fn .mul z 5) 5 6 ∧
    Bin.domDV .sub 5 6 ∧ ¬ Bin.defectDV .sub 5 ∧ HasDerivAt (fun z => Bin.fn .sub 5 z) (-1) 6 ∧
    c.st.tape.head + 9 ≤ tapeLimit := by
  obtain ⟨c, o, hh, hn, hex, hv⟩ := orderlyL_closed (W := W)
  have h0 : ∀ k < 3, nth c.env k ∈ existing c.st := fun k hk => hex _ (nth_mem (by omega))
  obtain ⟨b, hb⟩ := C60_rates o.solves (h0 0 (by omega))
  have rd : ∀ k < 3, ((nth c.env k).val : M W ℝ) c.st = .ok (num [2, 3, 6] k, c.st) := fun k hk => by
    have h1 := hv [k] (by simpa using hk)
    unfold vals at h1
    rw [List.map_singleton, List.mapM_cons] at h1
    obtain ⟨x, s1, e1, e2⟩ := bind_inv h1
    cases e2
    exact e1
  refine ⟨c, _, b, nth c.env 2, nth c.env 0, o, h0 0 (by omega), hb, h0 2 (by omega), h0 0 (by omega), ?_, ?_, ?_, ?_,
    trivial, trivial, ?_, ?_, trivial, ?_, ?_, ?_⟩
  · rw [rd 2 (by omega)]; simp [num]
  · rw [rd 0 (by omega)]; simp [num]
  · simp [Un.dom]
  · exact Real.hasDerivAt_log (by norm_num)
  · simp [Bin.defectVD]
  · simpa [Bin.fn] using (hasDerivAt_id (6:ℝ)).mul_const 5
  · simp [Bin.defectDV]
  · simpa [Bin.fn] using (hasDerivAt_id (6:ℝ)).const_sub 5
  · rw [hh]; simp [tapeLimit]

end Props
