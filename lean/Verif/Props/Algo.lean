import Verif.Proof.Algo
import Verif.Proof.ProgStep
import Verif.Props.LenientRules
import Mathlib.Topology.Algebra.Order.Floor

/-!
# C67: functions whose control flow depends on values

The user's function looks at values (`x%val()`, comparisons) and goes on as they tell: branches, loops whose number of
steps depends on the data, iterations until convergence (`Spec/Algo.lean`).
-/

set_option linter.unusedSectionVars false

namespace Props
open Fz Spec

variable {W : Type} [Rep W ℝ] [LawfulRep W ℝ] {a : Algo}

/-- **C67**: `gradient` returns the value of the function and the partial derivatives of the straight-line program that
was carried out at the point: values that were looked at count as constants. -/
theorem C67_gradient_path {h : List (Call ℝ)} {c : Client W} (hr : Reach h c) {ys : List ℝ}
    (hys : vals c.env c.st = .ok (ys, c.st)) (x : List ℝ) (hok : a.Ok (x ++ ys)) (hk : a.sem (x ++ ys) ≠ [])
    (hroom : Room c.st (a.path (x ++ ys)) x ys) {y : ℝ} {df : List ℝ} {s' : St W}
    (hrun : gradient (a.scalarFn c.env) x c.st = .ok ((y, df), s')) :
    y = (a.sem (x ++ ys)).getD 0 0 ∧ IsGradAt (fun z => ((a.path (x ++ ys)).sem (z ++ ys)).getD 0 0) x df := by
  obtain ⟨g, val, adj, G⟩ := hr.good
  rw [algo_gradient G.inv G.has (G.vals hys) hok hroom] at hrun
  obtain ⟨h1, h2⟩ := gradient_ok G.inv G.okf G.has (G.vals hys) (Algo.path_ok hok) hroom
    (by rw [Algo.path_sem]; exact hk) hrun
  refine ⟨?_, h2⟩
  rw [h1]
  unfold Prog.out
  rw [Algo.path_sem]

/-- **C67**: where small changes of the inputs do not change the decisions, `gradient` returns the value and the partial
derivatives of the function, whatever is on the tape. -/
theorem C67_gradient {h : List (Call ℝ)} {c : Client W} (hr : Reach h c) {ys : List ℝ}
    (hys : vals c.env c.st = .ok (ys, c.st)) (x : List ℝ) (hok : a.Ok (x ++ ys)) (hst : a.Steady x ys)
    (hk : a.sem (x ++ ys) ≠ []) (hroom : Room c.st (a.path (x ++ ys)) x ys) {y : ℝ} {df : List ℝ} {s' : St W}
    (hrun : gradient (a.scalarFn c.env) x c.st = .ok ((y, df), s')) :
    y = (a.sem (x ++ ys)).getD 0 0 ∧ IsGradAt (fun z => (a.sem (z ++ ys)).getD 0 0) x df := by
  obtain ⟨g, val, adj, G⟩ := hr.good
  obtain ⟨h1, h2⟩ := C67_gradient_path hr hys x hok hk hroom hrun
  exact ⟨h1, algo_grad hst h2⟩

/-- **C67**: `jacobian` likewise. -/
theorem C67_jacobian_path {h : List (Call ℝ)} {c : Client W} (hr : Reach h c) {ys : List ℝ}
    (hys : vals c.env c.st = .ok (ys, c.st)) (x : List ℝ) (n : Nat) (hok : a.Ok (x ++ ys))
    (hroom : Room c.st (a.path (x ++ ys)) x ys) {o : List ℝ} {rows : List (List ℝ)} {s' : St W}
    (hrun : jacobian (a.vectorFn c.env) n x c.st = .ok ((o, rows), s')) :
    n = (a.sem (x ++ ys)).length ∧ o = a.sem (x ++ ys) ∧ rows.length = n ∧
      ∀ i (hi : i < rows.length),
        IsGradAt (fun z => ((a.path (x ++ ys)).sem (z ++ ys)).getD i 0) x rows[i] := by
  obtain ⟨g, val, adj, G⟩ := hr.good
  rw [algo_jacobian G.inv G.has (G.vals hys) hok hroom] at hrun
  have := C10_jacobian hr hys _ x n (Algo.path_ok hok) hroom hrun
  rwa [Algo.path_sem] at this

/-- **C67**: and where small changes of the inputs do not change the decisions, the derivatives are those of the
function. -/
theorem C67_jacobian {h : List (Call ℝ)} {c : Client W} (hr : Reach h c) {ys : List ℝ}
    (hys : vals c.env c.st = .ok (ys, c.st)) (x : List ℝ) (n : Nat) (hok : a.Ok (x ++ ys)) (hst : a.Steady x ys)
    (hroom : Room c.st (a.path (x ++ ys)) x ys) {o : List ℝ} {rows : List (List ℝ)} {s' : St W}
    (hrun : jacobian (a.vectorFn c.env) n x c.st = .ok ((o, rows), s')) :
    n = (a.sem (x ++ ys)).length ∧ o = a.sem (x ++ ys) ∧ rows.length = n ∧
      ∀ i (hi : i < rows.length), IsGradAt (fun z => (a.sem (z ++ ys)).getD i 0) x rows[i] := by
  obtain ⟨g, val, adj, G⟩ := hr.good
  obtain ⟨h1, h2, h3, h4⟩ := C67_jacobian_path hr hys x n hok hroom hrun
  exact ⟨h1, h2, h3, fun i hi => algo_grad hst (h4 i hi)⟩

/-- **C67**: from the start of the program creating variables, computing, sweeping and reading the adjoints completes,
with the right value and derivatives. -/
theorem C67_completes (x : List ℝ) (k : Nat) (hok : a.Ok x) (hst : a.Steady x []) (hk : k < (a.sem x).length)
    (hroom : 1 + (6 * x.length + (a.path x).cost x) ≤ tapeLimit) :
    ∃ df s', a.derive [] x k (St.init : St W) = .ok ((a.sem x, df), s') ∧
      IsGradAt (fun z => (a.sem z).getD k 0) x df := by
  have hi : Inv (St.init : St W) Graph.empty (fun _ => 0) (fun _ => 0) := inv_init _ _
  have hr : Room (St.init : St W) (a.path (x ++ [])) x [] := by
    simpa [Room, St.init, Tape.init] using hroom
  obtain ⟨df, s', e, hg⟩ := C01_completes (W := W) (a.path x) x k (Algo.path_ok hok) (by rwa [Algo.path_sem]) hroom
  rw [Algo.path_sem] at e
  refine ⟨df, s', ?_, ?_⟩
  · rw [algo_derive (ys := []) hi (by simp) rfl (by simpa using hok) hr]
    simpa using e
  · have := algo_grad hst (k := k) (by simpa using hg)
    simpa using this

/-- **C67**: so does `gradient`, unless the tape is left exactly full (C36). -/
theorem C67_gradient_completes (x : List ℝ) (hok : a.Ok x) (hk : a.sem x ≠ [])
    (hroom : 1 + (6 * x.length + (a.path x).cost x) ≤ tapeLimit) (h0 : 0 < 6 * x.length + (a.path x).cost x)
    (hfull : ∀ j, 6 * x.length + (a.path x).cost x ≠ 12288 * 2 ^ j) :
    ∃ df s', gradient (a.scalarFn []) x (St.init : St W) = .ok (((a.sem x).getD 0 0, df), s') ∧
      IsGradAt (fun z => ((a.path x).sem z).getD 0 0) x df ∧
      (a.Steady x [] → IsGradAt (fun z => (a.sem z).getD 0 0) x df) := by
  have hi : Inv (St.init : St W) Graph.empty (fun _ => 0) (fun _ => 0) := inv_init _ _
  have hh : (St.init : St W).tape.head = 1 := rfl
  have hr : Room (St.init : St W) (a.path (x ++ [])) x [] := by
    unfold Room
    rw [hh, List.append_nil]
    exact hroom
  have hok' : a.Ok (x ++ []) := by rw [List.append_nil]; exact hok
  have hk' : (a.path (x ++ [])).sem (x ++ []) ≠ [] := by rw [Algo.path_sem, List.append_nil]; exact hk
  have hn : NotFull (St.init : St W) (6 * x.length + (a.path (x ++ [])).cost (x ++ [])) := by
    rw [List.append_nil]
    unfold NotFull
    rw [hh]
    exact ⟨by omega, fun j => by have := hfull j; omega⟩
  have hf := fine_init (W := W) x.length (a.path (x ++ [])).hasConst (fun _ => 0) (fun _ => 0)
  have hl : (St.init : St W).level < maxNestedStack := by show 0 < 10; omega
  obtain ⟨y, df, s', e, -⟩ := gradient_total hf hl (env := []) (ys := []) (by simp) rfl (Algo.path_ok hok') hr hk' hn
  obtain ⟨rfl, hg⟩ := gradient_ok hi (by simp [Graph.empty]) (env := []) (by simp) rfl (Algo.path_ok hok') hr hk' e
  rw [← algo_gradient (ys := []) hi (by simp) rfl hok' hr] at e
  refine ⟨df, s', ?_, ?_, fun hst => ?_⟩
  · rw [e]
    unfold Prog.out
    rw [Algo.path_sem, List.map_nil, List.append_nil]
  · have hg' : IsGradAt (fun z => ((a.path (x ++ [])).sem (z ++ [])).getD 0 0) x df := hg
    simp only [List.append_nil] at hg'
    exact hg'
  · have hg' := algo_grad (k := 0) hst hg
    simp only [List.append_nil] at hg'
    exact hg'

/-- as `Algo.derive`, without checks of array shapes -/
noncomputable def deriveAlgoL (J : Junk W ℝ) (a : Algo) (env : List Var) (x : List ℝ) (k : Nat) :
    M W (List ℝ × List ℝ) := do
  let xv ← newVars x
  let outs ← a.run (xv ++ env)
  let ys ← vals outs
  (lookV outs k).gradL J
  let df ← adjs xv
  pure (ys, df)

theorem blind_algo {T : Nat → Prop} (hT : ∀ k, ¬ T k) : ∀ (a : Algo) (env : List Var), Blind T (a.run env : M W (List Var))
  | .ret _, _ => .pure _
  | .op _ k, _ => .bind (blind_instr_all hT _ _) fun _ => blind_algo hT k _
  | .look _ k, _ => .bind (blind_val _) fun v => blind_algo hT (k v) _

/-- **C67**: without checks of array shapes this completes after every history of correct calls (C61), whatever is in
memory. -/
theorem C67_unchecked {c : Client W} (h : OrderlyS c) {vs : List Var} (hvs : ∀ v ∈ vs, v ∈ existing c.st) {ys : List ℝ}
    (hys : (vals vs : M W (List ℝ)) c.st = .ok (ys, c.st)) (x : List ℝ) (k : Nat) (hok : a.Ok (x ++ ys))
    (hst : a.Steady x ys) (hk : k < (a.sem (x ++ ys)).length)
    (room : c.st.tape.head + (6 * x.length + (a.path (x ++ ys)).cost (x ++ ys)) ≤ tapeLimit) :
    ∃ df s', (∀ J : Junk W ℝ, deriveAlgoL J a vs x k c.st = .ok ((a.sem (x ++ ys), df), s')) ∧
      IsGradAt (fun z => (a.sem (z ++ ys)).getD k 0) x df := by
  obtain ⟨d, g, val, adj, S⟩ := orderlyS_shadow commutes_real h
  have hi := S.sound.good.inv
  have hex := S.alike.existing
  have hh : ∀ v ∈ vs, g.Has v := fun v hv => (mem_existing hi).mp (by rw [← hex]; exact hvs v hv)
  have hy : ys = vs.map fun v => val (g.pos v) := by
    obtain ⟨s2, e2, -⟩ := blind_vals _ _ _ _ _ S.alike (hi.varVals hh)
    rw [hys] at e2
    cases e2
    rfl
  have hroom : Room d.st (a.path (x ++ ys)) x ys := by
    unfold Room
    rw [← S.alike.tape]
    exact room
  have hF := (shade_of S).fine
  have hpk : k < ((a.path (x ++ ys)).sem (x ++ ys)).length := by rw [Algo.path_sem]; exact hk
  obtain ⟨xv, outs, d1, d2, e1, e2, g', val', adj', D', ε', r⟩ := ranC hi hh hy (Algo.path_ok hok) hroom
  obtain ⟨xv', d1', e1', same⟩ := algo_run hi hh hy hok hroom
  rw [e1] at e1'
  cases e1'
  rw [← same] at e2
  have hk' : k < outs.length := by rw [r.len]; exact hpk
  have hf := r.fine (hF.weak (Or.inr trivial) fun _ => trivial)
  obtain ⟨m, e3⟩ := r.gradTotal hf r.sim.inv hk'
  obtain ⟨m', df, hm, i, ha, hgrad⟩ := r.grad r.sim.inv (fun nd hn => (r.zero nd hn).2)
    (fun nd hn => Or.inr (hF.fits nd hn)) hk' e3
  have A : Akin (fun _ => False) c.st d.st := S.alike.weaken fun _ h => h.elim
  obtain ⟨c1, f1, A1⟩ := blind_newVars _ _ _ _ _ A e1
  obtain ⟨c2, f2, A2⟩ := blind_algo (fun _ h => h) a _ _ _ _ _ A1 e2
  obtain ⟨c3, f3, A3⟩ := blind_vals _ _ _ _ _ A2 (r.vals r.sim.inv)
  have hl : lookV outs k = outs[k] := by simp [lookV, List.getD_eq_getElem?_getD, hk']
  obtain ⟨c4, f4, A4⟩ := gradL_mirror A3 r.sim.inv hf (by rw [hl]; exact (r.os k hk').has) e3
  obtain ⟨c5, f5, A5⟩ := blind_adjs _ _ _ _ _ A4 ha
  refine ⟨df, c5, fun J => ?_, algo_grad hst hgrad⟩
  unfold deriveAlgoL
  rw [bind_ok f1, bind_ok f2, bind_ok f3, bind_ok (f4 J), bind_ok f5, Algo.path_sem]
  rfl

/-! ## When small changes do not change the decisions -/

/-- **C67**: it is enough that each value that is looked at would have led to the same continuation if it had been a
little different. -/
theorem C67_stable {h : List (Call ℝ)} {c : Client W} (hr : Reach h c) {ys : List ℝ}
    (hys : vals c.env c.st = .ok (ys, c.st)) (x : List ℝ) (hok : a.Ok (x ++ ys)) (hst : a.Stable (x ++ ys))
    (hroom : Room c.st (a.path (x ++ ys)) x ys) : a.Steady x ys := by
  obtain ⟨g, val, adj, G⟩ := hr.good
  exact algo_steady G.inv G.has (G.vals hys) hok hst hroom

/-- **C67**: programs with comparisons are functions of this kind; where the compared numbers differ (`Prog.Ok`) small
changes do not change the decisions.  So this property extends C08 and C10. -/
theorem C67_comparisons {h : List (Call ℝ)} {c : Client W} (hr : Reach h c) {ys : List ℝ}
    (hys : vals c.env c.st = .ok (ys, c.st)) (p : Prog) (x : List ℝ) (hok : p.Ok (x ++ ys)) (hroom : Room c.st p x ys) :
    p.algo.Ok (x ++ ys) ∧ p.algo.Steady x ys ∧ (∀ z, p.algo.sem z = p.sem z) ∧
      Room c.st (p.algo.path (x ++ ys)) x ys := by
  obtain ⟨g, val, adj, G⟩ := hr.good
  refine ⟨algoOf_ok hok, algoOf_steady G.inv G.has (G.vals hys) hok hroom, algoOf_sem p, ?_⟩
  unfold Room
  rw [algoOf_cost]
  exact hroom

/-! ## A loop whose number of steps depends on the data

`y = x; do i = 1, floor(x%val()); y = y * x; end do` -/

/-- `n` times: multiply the last result, number `i`, by result 0 -/
def timesLoop : Nat → Nat → Algo
  | 0, i => .ret [i]
  | n + 1, i => .op (.bin .mul i 0) (timesLoop n (i + 1))

/-- the loop with `floor(x%val())` steps -/
noncomputable def floorLoop : Algo := .look 0 fun v => timesLoop ⌊v⌋₊ 0

theorem timesLoop_sem : ∀ (n i : Nat) (env : List ℝ), env.length = i + 1 →
    (timesLoop n i).sem env = [look env i * look env 0 ^ n] := by
  intro n
  induction n with
  | zero => intro i env _; simp [timesLoop, Algo.sem]
  | succ n ih =>
    intro i env h
    simp only [timesLoop, Algo.sem]
    rw [ih _ _ (by simp [Instr.sem, h])]
    have h1 : look (env ++ Instr.sem (.bin .mul i 0) env) (i + 1) = look env i * look env 0 := by
      simp [look, Instr.sem, Bin.fn, List.getD_eq_getElem?_getD, ← h]
    have h2 : look (env ++ Instr.sem (.bin .mul i 0) env) 0 = look env 0 := by
      simp [look, List.getD_eq_getElem?_getD, List.getElem?_append_left (show 0 < env.length by omega)]
    rw [h1, h2, pow_succ]
    congr 1
    ring

theorem timesLoop_ok : ∀ (n i : Nat) (env : List ℝ), env.length = i + 1 → (timesLoop n i).Ok env := by
  intro n
  induction n with
  | zero => intro i env h; simp [timesLoop, Algo.Ok, h]
  | succ n ih =>
    intro i env h
    exact ⟨⟨by omega, by omega, trivial⟩, ih _ _ (by simp [Instr.sem, h])⟩

theorem timesLoop_cost : ∀ (n i : Nat) (env : List ℝ), ((timesLoop n i).path env).cost env = 8 * n := by
  intro n
  induction n with
  | zero => intro i env; rfl
  | succ n ih =>
    intro i env
    simp only [timesLoop, Algo.path, Prog.cost, Instr.cost, ih]
    omega

theorem timesLoop_path : ∀ (n i : Nat) (e e' : List ℝ), (timesLoop n i).path e = (timesLoop n i).path e' := by
  intro n
  induction n with
  | zero => intro i e e'; rfl
  | succ n ih => intro i e e'; simp only [timesLoop, Algo.path, ih _ (e ++ _) (e' ++ Instr.sem (.bin .mul i 0) e')]

/-- the meaning of the loop -/
theorem floorLoop_sem (x : ℝ) : floorLoop.sem [x] = [x * x ^ ⌊x⌋₊] :=
  timesLoop_sem _ _ _ rfl

theorem floor_near {x : ℝ} (h : ∀ n : ℕ, x ≠ n) : ∀ᶠ v in nhds x, ⌊v⌋₊ = ⌊x⌋₊ := by
  rcases lt_or_ge x 0 with h0 | h0
  · filter_upwards [gt_mem_nhds h0] with v hv
    rw [Nat.floor_of_nonpos hv.le, Nat.floor_of_nonpos h0.le]
  · have h1 : (⌊x⌋₊ : ℝ) < x := lt_of_le_of_ne (Nat.floor_le h0) fun e => h _ e.symm
    filter_upwards [lt_mem_nhds h1, gt_mem_nhds (Nat.lt_floor_add_one x)] with v hv hv'
    exact (Nat.floor_eq_iff ((Nat.cast_nonneg _).trans hv.le)).mpr ⟨hv.le, hv'⟩

/-- at numbers that are not integers the number of steps does not change -/
theorem floorLoop_steady {x : ℝ} (h : ∀ n : ℕ, x ≠ n) : floorLoop.Steady [x] [] := by
  have hc : ContinuousAt (fun y : Fin [x].length → ℝ => y 0) (fun i => [x][i]) := (continuous_apply _).continuousAt
  filter_upwards [hc.eventually (floor_near h)] with y hy
  have : look (List.ofFn y ++ []) 0 = y 0 := by simp [look, List.getD_eq_getElem?_getD]
  simp only [floorLoop, Algo.path, this, hy]
  exact timesLoop_path _ _ _ _

/-- the derivative of `x * x ** floor(x)`, by `gradient` at every number that is not an integer, as long as the tape
holds: `C67_gradient_completes` -/
example {x : ℝ} (h : ∀ n : ℕ, x ≠ n) (hb : ⌊x⌋₊ ≤ 1000) :
    ∃ s', gradient (floorLoop.scalarFn []) [x] (St.init : St W) =
      .ok ((x * x ^ ⌊x⌋₊, [((⌊x⌋₊ : ℝ) + 1) * x ^ ⌊x⌋₊]), s') := by
  have hcost : (floorLoop.path [x]).cost [x] = 8 * ⌊x⌋₊ := timesLoop_cost _ _ _
  obtain ⟨df, s', e, -, hg⟩ := C67_gradient_completes (W := W) (a := floorLoop) [x]
    ⟨by simp, timesLoop_ok _ _ _ rfl⟩ (by rw [floorLoop_sem]; simp)
    (by rw [hcost]; simp [tapeLimit]; omega) (by simp) (by
      intro j
      have := Nat.one_le_two_pow (n := j)
      rw [hcost]
      simp only [List.length_cons, List.length_nil]
      omega)
  rw [floorLoop_sem] at e
  have hd : HasDerivAt (fun t : ℝ => t * t ^ ⌊x⌋₊) (((⌊x⌋₊ : ℝ) + 1) * x ^ ⌊x⌋₊) x := by
    have := hasDerivAt_pow (⌊x⌋₊ + 1) x
    simp only [pow_succ', Nat.add_sub_cancel] at this
    push_cast at this
    exact this
  have hu := (hg (floorLoop_steady h)).unique (isGradAt_one (F := fun z => (floorLoop.sem z).getD 0 0)
    (hd.congr_of_eventuallyEq (by
      filter_upwards [floor_near h] with t ht
      rw [floorLoop_sem, ht]
      rfl)))
  rw [hu] at e
  exact ⟨s', e⟩

/-- the same point by point: `C67_completes` -/
example : ∃ df s', floorLoop.derive [] [5/2] 0 (St.init : St W) = .ok ((floorLoop.sem [5/2], df), s') ∧
    IsGradAt (fun z => (floorLoop.sem z).getD 0 0) [5/2] df := by
  refine C67_completes [5/2] 0 ⟨by simp, timesLoop_ok _ _ _ rfl⟩ (floorLoop_steady fun n hn => ?_)
    (by rw [floorLoop_sem]; simp) ?_
  · have h1 : (5 : ℝ) = ((2 * n : ℕ) : ℝ) := by push_cast; linarith
    have h2 : 5 = 2 * n := by exact_mod_cast h1
    omega
  · have hcost : (floorLoop.path [5/2]).cost [5/2] = 8 * ⌊(5/2 : ℝ)⌋₊ := timesLoop_cost _ _ _
    have h2 : ⌊(5/2 : ℝ)⌋₊ = 2 := by rw [Nat.floor_eq_iff] <;> norm_num
    rw [hcost, h2]
    simp [tapeLimit]

/-! ## Values used as data -/

/-- `x * x%val()` -/
def detached : Algo := .look 0 fun v => .op (.binVD .mul 0 v) (.ret [1])

/-- **C67**: a value that was looked at is a constant for the sweep.  For `x * x%val()`, whose derivative at 3 is 6,
`gradient` returns 3; so the condition on the decisions is needed. -/
theorem C67_detached : ∃ s', gradient (detached.scalarFn []) [3] (St.init : St W) = .ok ((9, [3]), s') ∧
    IsGradAt (fun z => (detached.sem z).getD 0 0) [3] [6] ∧ ¬ detached.Steady [3] [] := by
  have hs : ∀ x : ℝ, detached.sem [x] = [x * x] := fun x => by
    simp [detached, Algo.sem, Instr.sem, Bin.fn, look]
  have hp : ∀ x t : ℝ, (detached.path [x]).sem [t] = [t * x] := fun x t => by
    simp [detached, Algo.path, Prog.sem, Instr.sem, Bin.fn, look]
  have hc : (detached.path [3]).cost [3] = 9 := by
    simp [detached, Algo.path, Prog.cost, Instr.cost, Bin.costVD]
  obtain ⟨df, s', e, h1, h2⟩ := C67_gradient_completes (W := W) (a := detached) [3]
    (by simp [detached, Algo.Ok, Instr.Ok, Instr.sem, Bin.domVD, Bin.defectVD, look]) (by rw [hs]; simp)
    (by rw [hc]; simp [tapeLimit]) (by rw [hc]; simp) (by
      intro j
      have := Nat.one_le_two_pow (n := j)
      rw [hc]
      simp only [List.length_cons, List.length_nil]
      omega)
  have g3 : df = [3] := h1.unique (isGradAt_one (F := fun z => ((detached.path [3]).sem z).getD 0 0) (by
    have : HasDerivAt (fun t : ℝ => t * 3) 3 3 := by simpa using (hasDerivAt_id (3:ℝ)).mul_const 3
    refine this.congr_of_eventuallyEq (.of_forall fun t => ?_)
    simp [hp]))
  have g6 : IsGradAt (fun z => (detached.sem z).getD 0 0) [3] [6] := isGradAt_one (by
    have : HasDerivAt (fun t : ℝ => t * t) 6 3 := by
      have := (hasDerivAt_id (3:ℝ)).mul (hasDerivAt_id (3:ℝ))
      simp only [id] at this
      exact this.congr_deriv (by norm_num)
    refine this.congr_of_eventuallyEq (.of_forall fun t => ?_)
    simp [hs])
  subst g3
  refine ⟨s', ?_, g6, fun hst => ?_⟩
  · rw [e, hs]
    norm_num
  · have := (h2 hst).unique g6
    norm_num at this

/-! ## In the middle of a history -/

/-- looks at a variable of the caller: below 4 it multiplies by it -/
noncomputable def peek : Algo :=
  .look 1 fun v => if v < 4 then .op (.bin .mul 0 1) (.ret [4, 0]) else .ret [0, 1]

theorem peek_stable {x y z : ℝ} : peek.Stable [x, 2, y, z] := by
  refine ⟨?_, ?_⟩
  · filter_upwards [gt_mem_nhds (show look [x, 2, y, z] 1 < 4 by norm_num [look])] with v hv
    rw [if_pos hv, if_pos (by norm_num [look])]
  · dsimp only
    rw [if_pos (by norm_num [look])]
    trivial

theorem peek_ok {x y z : ℝ} : peek.Ok [x, 2, y, z] := by
  refine ⟨by simp, ?_⟩
  dsimp only
  rw [if_pos (by norm_num [look])]
  simp [Algo.Ok, Instr.Ok, Instr.sem, Bin.domVV]

theorem peek_path {x y z : ℝ} : peek.path [x, 2, y, z] = .op (.bin .mul 0 1) (.ret [4, 0]) := by
  simp only [peek, Algo.path]
  rw [if_pos (by norm_num [look])]
  rfl

/-- the hypotheses of `C67_gradient_path`, `C67_gradient`, `C67_jacobian_path`, `C67_jacobian`, `C67_stable` and
`C67_comparisons` are met after the history `demo` -/
example : ∃ (c : Client ℝ) (ys : List ℝ), Reach demo c ∧ vals c.env c.st = .ok (ys, c.st) ∧
    peek.Ok ([5] ++ ys) ∧ peek.Stable ([5] ++ ys) ∧ peek.Steady [5] ys ∧ peek.sem ([5] ++ ys) ≠ [] ∧
    Room c.st (peek.path ([5] ++ ys)) [5] ys ∧
    (∃ r s', gradient (peek.scalarFn c.env) [5] c.st = .ok (r, s')) ∧
    (∃ r s', jacobian (peek.vectorFn c.env) 2 [5] c.st = .ok (r, s')) ∧
    sample.Ok ([2, 3] ++ ys) ∧ Room c.st sample [2, 3] ys := by
  obtain ⟨c, hr, hv, ha, hh, hl, he, g, val, adj, hf, hhas⟩ := demo_reach (W := ℝ)
  have hroom : Room c.st (peek.path ([5] ++ [2, 3, 6])) [5] [2, 3, 6] := by
    unfold Room
    rw [hh]
    simp [peek_path, Prog.cost, Instr.cost, tapeLimit]
  have hs : peek.sem ([5] ++ [2, 3, 6]) = [10, 5] := by
    rw [← Algo.path_sem]
    simp only [List.cons_append, List.nil_append, peek_path, Prog.sem, Instr.sem, Bin.fn]
    norm_num [look]
  have hy : [2, 3, 6] = c.env.map fun v => val (g.pos v) := by
    have := hf.inv.varVals hhas
    rw [hv] at this
    injection this with this
    injection this
  have hpk : (peek.path ([5] ++ [2, 3, 6])).sem ([5] ++ [2, 3, 6]) = [10, 5] := by rw [Algo.path_sem, hs]
  have hcost : (peek.path ([5] ++ [2, 3, 6])).cost ([5] ++ [2, 3, 6]) = 8 := by
    simp [peek_path, Prog.cost, Instr.cost]
  have hn : NotFull c.st (6 * [(5 : ℝ)].length + (peek.path ([5] ++ [2, 3, 6])).cost ([5] ++ [2, 3, 6])) :=
    ⟨by rw [hh]; omega, fun j => by
      rw [hh, hcost]
      have := Nat.one_le_two_pow (n := j)
      simp only [List.length_cons, List.length_nil]
      omega⟩
  have hl' : c.st.level < maxNestedStack := by rw [hl]; simp [maxNestedStack]
  obtain ⟨y, df, s', e, -⟩ := gradient_total (p := peek.path ([5] ++ [2, 3, 6])) (x := [5])
    (hf.weak (Or.inr trivial) fun _ => trivial) hl' hhas hy (Algo.path_ok peek_ok) hroom (by rw [hpk]; simp) hn
  obtain ⟨o, rows, s'', e', -⟩ := jacobian_total (p := peek.path ([5] ++ [2, 3, 6])) (x := [5])
    (hf.weak (Or.inr trivial) fun _ => trivial) hl' hhas hy (Algo.path_ok peek_ok) hroom hn
  rw [hpk] at e'
  refine ⟨c, _, hr, hv, peek_ok, peek_stable, C67_stable hr hv _ peek_ok peek_stable hroom, by rw [hs]; simp, hroom,
    ⟨_, s', (algo_gradient hf.inv hhas hy peek_ok hroom).trans e⟩,
    ⟨_, s'', (algo_jacobian hf.inv hhas hy peek_ok hroom 2).trans e'⟩, ?_, ?_⟩
  · simp [sample, Prog.Ok, Instr.Ok, Instr.sem, Bin.domVV, Un.dom, Rel.holds, look, entries]
    exact ⟨fun j hj => by omega, fun j hj => by omega⟩
  · simp [Room, hh, sample, Prog.cost, Instr.cost, Un.cost, tapeLimit, Rel.holds, look]

/-- C67_unchecked -/
example : ∃ (c : Client W) (vs : List Var) (df : List ℝ) (s' : St W), OrderlyL ℝ c ∧ vs.length = 3 ∧
    ∀ J : Junk W ℝ, deriveAlgoL J peek vs [7] 0 c.st = .ok ((peek.sem [7, 2, 3, 6], df), s') := by
  obtain ⟨c, o, hh, hn, hex, hv⟩ := orderlyL_closed (W := W)
  have hroom : c.st.tape.head + (6 * [(7 : ℝ)].length + (peek.path ([7] ++ [2, 3, 6])).cost ([7] ++ [2, 3, 6])) ≤
      tapeLimit := by
    rw [hh]
    simp [peek_path, Prog.cost, Instr.cost, tapeLimit]
  have hst : peek.Steady [7] [2, 3, 6] := by
    refine .of_forall fun y => ?_
    have : List.ofFn y = [y 0] := by simp
    rw [this]
    exact peek_path.trans peek_path.symm
  obtain ⟨df, s', e, -⟩ := C67_unchecked (a := peek) o.solves (vs := [0, 1, 2].map (nth c.env)) (by
      intro v hv
      obtain ⟨i, hi, rfl⟩ := List.mem_map.mp hv
      exact hex _ (nth_mem (by simp at hi; omega))) (ys := [2, 3, 6]) (by
      rw [hv [0, 1, 2] (by simp)]; simp [num]) [7] 0 peek_ok hst (by
      rw [← Algo.path_sem]
      simp [peek_path, Prog.sem]) hroom
  exact ⟨c, _, df, s', o, by simp, e⟩

end Props
