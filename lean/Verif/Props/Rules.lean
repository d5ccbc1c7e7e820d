import Verif.Proof.Rules
import Verif.Props.Storage

/-!
# C01 (chain rule), C18: what single operations give

`rate s v u` is the derivative of `v` with respect to `u` as the library computes it: reset the adjoints,
sweep from `v`, read the adjoint of `u`.  `Rates s u b`: for every variable `v` it is `b v`.  `Gives s s' r x u a`:
the result `r` has value `x` and derivative `a` with respect to `u`, and nothing that can be read about older
variables has changed (`Spec/Partial.lean`).

The operands are any existing variables, however they were computed, and they may be equal to each other;
`u` is any existing variable; the state is any state that API calls can reach and in which sweeps complete.
-/

set_option linter.unusedSectionVars false

namespace Props
open Fz Spec

variable {W : Type} [Rep W ℝ] [LawfulRep W ℝ]
variable {h : List (Call ℝ)} {c : Client W} {u : Var} {b : Var → ℝ}

/-- **C01, C02**: the chain rule.  A program (without new constants) is run on any existing variables `vs` with
values `ys`.  It completes, its outputs have the values `p.sem ys`, and the derivative of output `k` with
respect to any existing variable `u` is the derivative of the program along the derivatives of its
arguments with respect to `u`. -/
theorem C01_chain_rule (hr : Reach h c) {vs : List Var} (hvs : ∀ v ∈ vs, v ∈ existing c.st) {ys : List ℝ}
    (hys : (vals vs : M W (List ℝ)) c.st = .ok (ys, c.st)) (p : Prog) (hok : p.Ok ys) (hnc : ¬ p.hasConst)
    (room : c.st.tape.head + p.cost ys ≤ tapeLimit) (hu : u ∈ existing c.st) (hb : Rates c.st u b) :
    ∃ outs s', (p.run vs : M W (List Var)) c.st = .ok (outs, s') ∧ outs.length = (p.sem ys).length ∧
      ∀ k (hk : k < outs.length), ∃ a, Gives c.st s' outs[k] ((p.sem ys).getD k 0) u a ∧
        HasDerivAt (fun t => (p.sem (along ys (vs.map b) t)).getD k 0) a 0 := by
  obtain ⟨g, val, adj, D, ε, G, H, hD⟩ := rated hr hu hb
  have hh : ∀ v ∈ vs, g.Has v := fun v hv => (mem_existing G.inv).mp (hvs v hv)
  have hy := vals_eq G.inv hh hys
  obtain ⟨outs, s', e, g', val', adj', D', ε', H', pre, d1, d2, d3, ol, out⟩ := H.prog (env := vs)
    (p := p) hh (by rw [← hy]; exact hok) hnc (by rw [← hy]; exact room)
  have hbD : vs.map (fun v => D (g.pos v) 1) = vs.map b :=
    List.map_congr_left fun v hv => hD v (hvs v hv)
  rw [← hy, hbD] at out
  rw [← hy] at ol
  refine ⟨outs, s', e, ol, fun k hk => ?_⟩
  obtain ⟨o1, o2, o3⟩ := out k hk
  exact ⟨_, H.gives H' pre d1 d2 d3 o1 o2 rfl, o3⟩

/-! ## Functions and operators -/

theorem along_one (x β : ℝ) (t : ℝ) : along [x] [β] t = [x + t * β] := rfl

theorem hasDerivAt_line {f : ℝ → ℝ} {d x : ℝ} (hd : HasDerivAt f d x) (β : ℝ) :
    HasDerivAt (fun t => f (x + t * β)) (d * β) 0 := by
  have h1 : HasDerivAt (fun t : ℝ => x + t * β) β 0 := by
    simpa using ((hasDerivAt_id (0:ℝ)).mul_const β).const_add x
  have h2 : HasDerivAt f d (x + 0 * β) := by simpa using hd
  exact h2.comp (0:ℝ) h1

theorem hasDerivAt_plane {f : ℝ → ℝ → ℝ} {d₁ d₂ x y : ℝ}
    (hd : HasFDerivAt (fun z : ℝ × ℝ => f z.1 z.2)
      (d₁ • ContinuousLinearMap.fst ℝ ℝ ℝ + d₂ • ContinuousLinearMap.snd ℝ ℝ ℝ) (x, y)) (β γ : ℝ) :
    HasDerivAt (fun t => f (x + t * β) (y + t * γ)) (d₁ * β + d₂ * γ) 0 := by
  have h1 : HasDerivAt (fun t : ℝ => (x + t * β, y + t * γ)) (β, γ) 0 := by
    refine HasDerivAt.prodMk ?_ ?_
    · simpa using ((hasDerivAt_id (0:ℝ)).mul_const β).const_add x
    · simpa using ((hasDerivAt_id (0:ℝ)).mul_const γ).const_add y
  have h2 : HasFDerivAt (fun z : ℝ × ℝ => f z.1 z.2)
      (d₁ • ContinuousLinearMap.fst ℝ ℝ ℝ + d₂ • ContinuousLinearMap.snd ℝ ℝ ℝ) (x + 0 * β, y + 0 * γ) := by
    simpa using hd
  have := h2.comp_hasDerivAt (0:ℝ) h1
  refine HasDerivAt.congr_deriv (f := fun t => f (x + t * β) (y + t * γ)) this ?_
  simp

theorem vals_one {s : St W} {v : Var} {x : ℝ} (hx : (v.val : M W ℝ) s = .ok (x, s)) :
    (vals [v] : M W (List ℝ)) s = .ok ([x], s) := by
  unfold vals
  rw [List.mapM_cons, bind_ok hx]
  rfl

theorem vals_two {s : St W} {v w : Var} {x y : ℝ} (hx : (v.val : M W ℝ) s = .ok (x, s))
    (hy : (w.val : M W ℝ) s = .ok (y, s)) : (vals [v, w] : M W (List ℝ)) s = .ok ([x, y], s) := by
  unfold vals
  rw [List.mapM_cons, bind_ok hx, List.mapM_cons, bind_assoc, bind_ok hy]
  rfl

/-- **C01**: every unary function. -/
theorem C01_unary (hr : Reach h c) (f : Un) {v : Var} (hv : v ∈ existing c.st) {x : ℝ}
    (hx : (v.val : M W ℝ) c.st = .ok (x, c.st)) (hdom : f.dom x)
    (room : c.st.tape.head + 7 ≤ tapeLimit) (hu : u ∈ existing c.st) (hb : Rates c.st u b) {d : ℝ}
    (hd : HasDerivAt f.fn d x) :
    ∃ r s', (f.api v : M W Var) c.st = .ok (r, s') ∧ Gives c.st s' r (f.fn x) u (d * b v) := by
  have hc : f.cost x ≤ 7 := by
    unfold Un.cost
    split <;> try split
    all_goals omega
  obtain ⟨r, s', e, g⟩ := instr_gives (i := .un f 0) (m := f.api v) (f := fun z => f.fn (look z 0)) hr
    (vs := [v]) (by simpa using hv) (vals_one hx) rfl (fun _ => rfl) ⟨by simp, hdom⟩ id
    (show c.st.tape.head + f.cost x ≤ _ by omega) hu hb (a := d * b v) (hasDerivAt_line hd (b v))
  exact ⟨r, s', e, g⟩

/-- **C01**: every binary function of two variables. -/
theorem C01_binary (hr : Reach h c) (f : Bin) {v w : Var} (hv : v ∈ existing c.st) (hw : w ∈ existing c.st)
    {x y : ℝ} (hx : (v.val : M W ℝ) c.st = .ok (x, c.st)) (hy : (w.val : M W ℝ) c.st = .ok (y, c.st))
    (hdom : f.domVV x y) (room : c.st.tape.head + 8 ≤ tapeLimit) (hu : u ∈ existing c.st) (hb : Rates c.st u b)
    {d₁ d₂ : ℝ} (hd : HasFDerivAt (fun z : ℝ × ℝ => f.fn z.1 z.2)
      (d₁ • ContinuousLinearMap.fst ℝ ℝ ℝ + d₂ • ContinuousLinearMap.snd ℝ ℝ ℝ) (x, y)) :
    ∃ r s', (f.apiVV v w : M W Var) c.st = .ok (r, s') ∧ Gives c.st s' r (f.fn x y) u (d₁ * b v + d₂ * b w) := by
  exact instr_gives (i := .bin f 0 1) (m := f.apiVV v w) (f := fun z => f.fn (look z 0) (look z 1)) hr
    (vs := [v, w]) (by simp [hv, hw]) (vals_two hx hy) rfl (fun _ => rfl) ⟨by simp, by simp, hdom⟩ id
    room hu hb (hasDerivAt_plane hd (b v) (b w))

/-- **C01**: a variable and a real number, the defects C15, C16, C17 excepted. -/
theorem C01_var_real (hr : Reach h c) (f : Bin) {v : Var} (hv : v ∈ existing c.st) {x : ℝ}
    (hx : (v.val : M W ℝ) c.st = .ok (x, c.st)) (y : ℝ) (hdom : f.domVD x y) (hdef : ¬ f.defectVD y)
    (room : c.st.tape.head + 9 ≤ tapeLimit) (hu : u ∈ existing c.st) (hb : Rates c.st u b) {d : ℝ}
    (hd : HasDerivAt (fun z => f.fn z y) d x) :
    ∃ r s', (f.apiVD v y : M W Var) c.st = .ok (r, s') ∧ Gives c.st s' r (f.fn x y) u (d * b v) := by
  have hc : f.costVD y ≤ 9 := by
    unfold Bin.costVD
    split <;> try split <;> try split
    all_goals omega
  exact instr_gives (i := .binVD f 0 y) (m := f.apiVD v y) (f := fun z => f.fn (look z 0) y) hr
    (vs := [v]) (by simpa using hv) (vals_one hx) rfl (fun _ => rfl) ⟨by simp, hdom, hdef⟩ id
    (show c.st.tape.head + f.costVD y ≤ _ by omega) hu hb (hasDerivAt_line hd (b v))

/-- **C01**: a real number and a variable, the defects C15, C17 excepted. -/
theorem C01_real_var (hr : Reach h c) (f : Bin) (x : ℝ) {v : Var} (hv : v ∈ existing c.st) {y : ℝ}
    (hy : (v.val : M W ℝ) c.st = .ok (y, c.st)) (hdom : f.domDV x y) (hdef : ¬ f.defectDV x)
    (room : c.st.tape.head + 9 ≤ tapeLimit) (hu : u ∈ existing c.st) (hb : Rates c.st u b) {d : ℝ}
    (hd : HasDerivAt (fun z => f.fn x z) d y) :
    ∃ r s', (f.apiDV x v : M W Var) c.st = .ok (r, s') ∧ Gives c.st s' r (f.fn x y) u (d * b v) := by
  have hc : f.costDV ≤ 9 := by
    unfold Bin.costDV
    split <;> omega
  exact instr_gives (i := .binDV f x 0) (m := f.apiDV x v) (f := fun z => f.fn x (look z 0)) hr
    (vs := [v]) (by simpa using hv) (vals_one hy) rfl (fun _ => rfl) ⟨by simp, hdom, hdef⟩ id
    (show c.st.tape.head + f.costDV ≤ _ by omega) hu hb (hasDerivAt_line hd (b v))

/-! ## C18: repeated operands -/

theorem range_look (vs : List Var) : (List.range vs.length).map (lookV vs) = vs := by
  apply List.ext_getElem
  · simp
  · intro i h1 h2
    simp [lookV, List.getD_eq_getElem?_getD, h2]

theorem look_along {ys βs : List ℝ} (hl : βs.length = ys.length) (t : ℝ) {i : Nat} (hi : i < ys.length) :
    look (along ys βs t) i = look ys i + t * look βs i := by
  simp [look, along, List.getD_eq_getElem?_getD, hi, hl]

theorem sum_line {ι : Type} (l : List ι) (f g : ι → ℝ) :
    HasDerivAt (fun t : ℝ => (l.map fun i => f i + t * g i).sum) (l.map g).sum 0 := by
  have : (fun t : ℝ => (l.map fun i => f i + t * g i).sum) = fun t => (l.map f).sum + t * (l.map g).sum := by
    funext t
    rw [← List.sum_map_mul_left, ← List.sum_map_add]
  rw [this]
  simpa using ((hasDerivAt_id (0:ℝ)).mul_const (l.map g).sum).const_add (l.map f).sum

/-- **C18**: `sum(vs)`: every occurrence of a variable counts. -/
theorem C18_sum (hr : Reach h c) {vs : List Var} (hvs : ∀ v ∈ vs, v ∈ existing c.st) {ys : List ℝ}
    (hys : (vals vs : M W (List ℝ)) c.st = .ok (ys, c.st))
    (room : c.st.tape.head + (6 + vs.length) ≤ tapeLimit) (hu : u ∈ existing c.st) (hb : Rates c.st u b) :
    ∃ r s', (sumV vs : M W Var) c.st = .ok (r, s') ∧ Gives c.st s' r ys.sum u (vs.map b).sum := by
  obtain ⟨g, val, adj, D, ε, G, H, hD⟩ := rated hr hu hb
  have hy := vals_eq G.inv (fun v hv => (mem_existing G.inv).mp (hvs v hv)) hys
  have hl : ys.length = vs.length := by rw [hy]; simp
  have hsem : ∀ z : List ℝ, z.length = vs.length → ((List.range vs.length).map (look z)).sum = z.sum := by
    intro z hz
    congr 1
    apply List.ext_getElem
    · simp [hz]
    · intro i h1 h2
      simp [look, List.getD_eq_getElem?_getD, h2]
  obtain ⟨r, s', e, gv⟩ := instr_gives (i := .sum (List.range vs.length)) (m := sumV vs)
    (f := fun z => ((List.range vs.length).map (look z)).sum) hr hvs hys
    (by simp only [Instr.run, range_look]) (fun _ => rfl)
    (by simp [Instr.Ok, hl]) id (by simpa [Instr.cost] using room) hu hb (a := (vs.map b).sum) (by
      have := sum_line (List.range vs.length) (look ys) (look (vs.map b))
      rw [hsem (vs.map b) (by simp)] at this
      refine this.congr_of_eventuallyEq (Filter.Eventually.of_forall fun t => ?_)
      simp only
      congr 1
      apply List.map_congr_left
      intro i hi
      have : i < vs.length := List.mem_range.mp hi
      exact look_along (by simp [hl]) t (by omega))
  rw [hsem ys hl] at gv
  exact ⟨r, s', e, gv⟩

/-- **C18**: the product of a variable with itself, and of any two variables. -/
theorem C18_product (hr : Reach h c) {v w : Var} (hv : v ∈ existing c.st) (hw : w ∈ existing c.st)
    {x y : ℝ} (hx : (v.val : M W ℝ) c.st = .ok (x, c.st)) (hy : (w.val : M W ℝ) c.st = .ok (y, c.st))
    (room : c.st.tape.head + 8 ≤ tapeLimit) (hu : u ∈ existing c.st) (hb : Rates c.st u b) :
    (∃ r s', (mulVV v v : M W Var) c.st = .ok (r, s') ∧ Gives c.st s' r (x * x) u (2 * x * b v)) ∧
    ∃ r s', (mulVV v w : M W Var) c.st = .ok (r, s') ∧ Gives c.st s' r (x * y) u (y * b v + x * b w) := by
  have hd : ∀ x y : ℝ, HasFDerivAt (fun z : ℝ × ℝ => Bin.mul.fn z.1 z.2)
      (y • ContinuousLinearMap.fst ℝ ℝ ℝ + x • ContinuousLinearMap.snd ℝ ℝ ℝ) (x, y) := by
    intro x y
    have := (hasFDerivAt_fst (𝕜 := ℝ) (p := (x, y))).mul (hasFDerivAt_snd (𝕜 := ℝ) (p := (x, y)))
    refine this.congr_fderiv ?_
    rw [add_comm]
  constructor
  · obtain ⟨r, s', e, g⟩ := C01_binary hr .mul hv hv hx hx trivial room hu hb (hd x x)
    refine ⟨r, s', e, ?_⟩
    rw [show 2 * x * b v = x * b v + x * b v by ring]
    exact g
  · exact C01_binary hr .mul hv hw hx hy trivial room hu hb (hd x y)

/-! ## The hypotheses are met

After `demo` there are three variables: 2, 3 and their product. -/

/-- C01_chain_rule, on the operands `x y`, `x`, `x y` (one of them twice): a program with a branch -/
example : ∃ (c : Client ℝ) (vs : List Var) (ys : List ℝ) (p : Prog), Reach demo c ∧
    (∀ v ∈ vs, v ∈ existing c.st) ∧ (vals vs : M ℝ (List ℝ)) c.st = .ok (ys, c.st) ∧ p.Ok ys ∧ ¬ p.hasConst ∧
    c.st.tape.head + p.cost ys ≤ tapeLimit ∧ (⟨1⟩ : Var) ∈ existing c.st ∧ Rates c.st ⟨1⟩ demoB := by
  obtain ⟨c, hr, hh, hex, h1, h2, h3, hb⟩ := demo_rates (W := ℝ)
  refine ⟨c, [⟨3⟩, ⟨1⟩, ⟨3⟩], [6, 2, 6], .ifVV .gt 0 1 (.op (.un .log 2) (.ret [3, 0])) (.ret []), hr, ?_, ?_, ?_,
    ?_, ?_, ?_, hb⟩
  · simp [hex]
  · unfold vals
    rw [List.mapM_cons, bind_ok h3, List.mapM_cons, bind_assoc, bind_ok h1, bind_assoc, List.mapM_cons, bind_assoc,
      bind_ok h3]
    rfl
  · simp [Prog.Ok, Spec.Rel.holds, look, Instr.Ok, Instr.sem, Un.dom]
  · simp [Prog.hasConst]
  · rw [hh]
    simp [Prog.cost, look, Spec.Rel.holds, Instr.cost, Un.cost, tapeLimit]
    split <;> omega
  · simp [hex]

/-- C01_unary, C01_binary, C01_var_real, C01_real_var, C18_sum, C18_product -/
example : ∃ c : Client ℝ, Reach demo c ∧ (⟨3⟩ : Var) ∈ existing c.st ∧ (⟨1⟩ : Var) ∈ existing c.st ∧
    ((⟨3⟩ : Var).val : M ℝ ℝ) c.st = .ok (6, c.st) ∧ ((⟨1⟩ : Var).val : M ℝ ℝ) c.st = .ok (2, c.st) ∧
    (vals [⟨3⟩, ⟨3⟩] : M ℝ (List ℝ)) c.st = .ok ([6, 6], c.st) ∧
    Un.dom .log 6 ∧ HasDerivAt (Un.fn .log) (6⁻¹) 6 ∧ Bin.domVV .add 6 2 ∧
    Bin.domVD .mul 6 5 ∧ ¬ Bin.defectVD .mul 5 ∧ HasDerivAt (fun z => Bin.fn .mul z 5) 5 6 ∧
    Bin.domDV .sub 5 6 ∧ ¬ Bin.defectDV .sub 5 ∧ HasDerivAt (fun z => Bin.fn .sub 5 z) (-1) 6 ∧
    c.st.tape.head + 9 ≤ tapeLimit ∧ Rates c.st ⟨1⟩ demoB := by
  obtain ⟨c, hr, hh, hex, h1, h2, h3, hb⟩ := demo_rates (W := ℝ)
  refine ⟨c, hr, by simp [hex], by simp [hex], h3, h1, vals_two h3 h3, ?_, ?_, trivial, trivial, ?_, ?_, trivial, ?_,
    ?_, ?_, hb⟩
  · simp [Un.dom]
  · exact Real.hasDerivAt_log (by norm_num)
  · simp [Bin.defectVD]
  · simpa [Bin.fn] using (hasDerivAt_id (6:ℝ)).mul_const 5
  · simp [Bin.defectDV]
  · simpa [Bin.fn] using (hasDerivAt_id (6:ℝ)).const_sub 5
  · rw [hh]; simp [tapeLimit]

end Props
