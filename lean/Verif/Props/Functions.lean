import Verif.Props.Repeat
import Verif.Props.Nesting

/-!
# C16, C28, C30, C31, C39: particular functions

`Gives c.st s' r x u a`: the result `r` has value `x` and derivative `a` with respect to `u`, and nothing that can be
read about older variables has changed.  `b v` is the derivative of the operand `v` with respect to `u`.
-/

set_option linter.unusedSectionVars false

namespace Props
open Fz Spec

variable {W : Type} [Rep W ℝ] [LawfulRep W ℝ]
variable {h : List (Call ℝ)} {c : Client W} {u : Var} {b : Var → ℝ}

/-! ## C16 -/

/-- **C16**, the derivative: `inv_square(x)` and `x**(-2.0)` have the derivative of `1/x^2`.  Missing: the value,
which is 1 for every `x ≠ 0`, see `C16_refuted`. -/
theorem C16_derivative_partial (hr : Reach h c) {v : Var} (hv : v ∈ existing c.st) {x : ℝ}
    (hx : (v.val : M W ℝ) c.st = .ok (x, c.st)) (h0 : x ≠ 0) (room : c.st.tape.head + 7 ≤ tapeLimit)
    (hu : u ∈ existing c.st) (hb : Rates c.st u b) :
    HasDerivAt (fun z : ℝ => 1 / z ^ 2) (-2 / x ^ 3) x ∧
    (∃ r s', (invSquareV v : M W Var) c.st = .ok (r, s') ∧ Gives c.st s' r 1 u (-2 / x ^ 3 * b v)) ∧
    ∃ r s', (powVD v (-2) : M W Var) c.st = .ok (r, s') ∧ Gives c.st s' r 1 u (-2 / x ^ 3 * b v) := by
  have key : ∃ r s', (invSquareV v : M W Var) c.st = .ok (r, s') ∧ Gives c.st s' r 1 u (-2 / x ^ 3 * b v) := by
    obtain ⟨r, s', e, g⟩ := record_gives (vs := [v]) (ys := [x]) (m := invSquareV v) (x := 1) (ds := [])
      (coefs := [-2 / x ^ 3]) (ch := .isq) hr (by simpa using hv) (vals_one hx) (fun g val adj hi hh he => by
        obtain ⟨s', e, gr⟩ := hi.unary_ok (hh v (by simp)) (fun x => Arith.mul (Arith.div Arith.one x) x) .isq room
        simp only [List.map_cons, List.map_nil, List.cons.injEq, and_true] at he
        rw [he, show Arith.mul (Arith.div Arith.one x) x = (1 : ℝ) by
          simp [Arith.mul, Arith.div, Arith.one, h0]] at gr
        exact ⟨s', e, gr⟩)
      (local_un (f := fun a v => Arith.neg (Arith.div (Arith.mul a Arith.two) (Arith.mul (Arith.mul v v) v)))
        (fun a => rfl) fun a => by
          simp only [Arith.neg, Arith.div, Arith.mul, Arith.two]
          field_simp) hu hb
    exact ⟨r, s', e, by simpa using g⟩
  refine ⟨?_, key, ?_⟩
  · have h1 := (hasDerivAt_pow 2 x).fun_inv (pow_ne_zero 2 h0)
    simp only [one_div]
    refine h1.congr_deriv ?_
    push_cast
    field_simp
  · have : (powVD v (-2 : ℝ) : M W Var) = invSquareV v := by
      unfold powVD
      simp only [Arith.feq, Arith.half, Arith.one, Arith.two, Arith.neg]
      norm_num
    rw [this]
    exact key

/-- the value of `inv_square(x)` is right only for `x = 1` and `x = -1` -/
theorem C16_iff (hr : Reach h c) {v : Var} (hv : v ∈ existing c.st) {x : ℝ}
    (hx : (v.val : M W ℝ) c.st = .ok (x, c.st)) (h0 : x ≠ 0) (room : c.st.tape.head + 7 ≤ tapeLimit)
    (hb : Rates c.st v b) :
    ∃ r s', (invSquareV v : M W Var) c.st = .ok (r, s') ∧
      ((r.val : M W ℝ) s' = .ok (1 / x ^ 2, s') ↔ x = 1 ∨ x = -1) := by
  obtain ⟨-, ⟨r, s', e, g⟩, -⟩ := C16_derivative_partial hr hv hx h0 room hv hb
  refine ⟨r, s', e, ?_⟩
  rw [g.value]
  constructor
  · intro k
    have k : (1:ℝ) = 1 / x ^ 2 := (Prod.mk.inj (Except.ok.inj k)).1
    have : x ^ 2 = 1 := by field_simp at k; exact k
    rcases mul_eq_zero.mp (show (x - 1) * (x + 1) = 0 by linear_combination this) with k | k
    · exact Or.inl (by linarith)
    · exact Or.inr (by linarith)
  · rintro (rfl | rfl) <;> norm_num

/-- **C16 is false of the code**: `inv_square` of a variable with value 2 has value 1 instead of 1/4, and so has
its power with the exponent -2. -/
theorem C16_refuted : ∃ (c : Client W) (v : Var), Reach demo c ∧ v ∈ existing c.st ∧
    (v.val : M W ℝ) c.st = .ok (2, c.st) ∧
    (∃ r s', (invSquareV v : M W Var) c.st = .ok (r, s') ∧ (r.val : M W ℝ) s' = .ok (1, s')) ∧
    ∃ r s', (powVD v (-2) : M W Var) c.st = .ok (r, s') ∧ (r.val : M W ℝ) s' = .ok (1, s') := by
  obtain ⟨c, hr, hh, hex, h1, h2, h3, hb⟩ := demo_rates (W := W)
  obtain ⟨-, ⟨r, s', e, g⟩, r', s'', e', g'⟩ := C16_derivative_partial hr (v := ⟨1⟩) (by simp [hex]) h1 (by norm_num)
    (by rw [hh]; simp [tapeLimit]) (by simp [hex]) hb
  exact ⟨c, ⟨1⟩, hr, by simp [hex], h1, ⟨r, s', e, g.value⟩, r', s'', e', g'.value⟩

/-! ## C39 -/

/-- **C39** for `x**d`, `x > 0`, any real exponent: the derivative is `d x^(d-1)` always, the value is `x^d` except
for `d = -2`.  Missing: the value for `d = -2`, see `C16_refuted`. -/
theorem C39_var_real_partial (hr : Reach h c) {v : Var} (hv : v ∈ existing c.st) {x : ℝ}
    (hx : (v.val : M W ℝ) c.st = .ok (x, c.st)) (h0 : 0 < x) (d : ℝ) (room : c.st.tape.head + 9 ≤ tapeLimit)
    (hu : u ∈ existing c.st) (hb : Rates c.st u b) :
    ∃ r s' y, (powVD v d : M W Var) c.st = .ok (r, s') ∧ Gives c.st s' r y u (d * x ^ (d - 1) * b v) ∧
      (d ≠ -2 → y = x ^ d) := by
  by_cases hd : d = -2
  · subst hd
    obtain ⟨-, -, r, s', e, g⟩ := C16_derivative_partial hr hv hx h0.ne' (by omega) hu hb
    refine ⟨r, s', 1, e, ?_, fun k => absurd rfl k⟩
    rw [show (-2 : ℝ) * x ^ ((-2 : ℝ) - 1) = -2 / x ^ 3 by
      rw [show ((-2 : ℝ) - 1) = -((3 : ℕ) : ℝ) by norm_num, Real.rpow_neg h0.le, Real.rpow_natCast]
      rfl]
    exact g
  · obtain ⟨r, s', e, g⟩ := C01_var_real hr .pow hv hx d (Or.inl h0) hd room hu hb
      (Real.hasDerivAt_rpow_const (x := x) (p := d) (Or.inl h0.ne'))
    exact ⟨r, s', _, e, g, fun _ => rfl⟩

/-- **C39** for `d**x`, `d > 0`. -/
theorem C39_real_var (hr : Reach h c) {v : Var} (hv : v ∈ existing c.st) {x : ℝ}
    (hx : (v.val : M W ℝ) c.st = .ok (x, c.st)) {d : ℝ} (h0 : 0 < d) (room : c.st.tape.head + 9 ≤ tapeLimit)
    (hu : u ∈ existing c.st) (hb : Rates c.st u b) :
    ∃ r s', (powDV d v : M W Var) c.st = .ok (r, s') ∧ Gives c.st s' r (d ^ x) u (Real.log d * d ^ x * b v) := by
  refine C01_real_var hr .pow d hv hx (Or.inl h0) (by simp [Bin.defectDV]) room hu hb ?_
  have := (hasDerivAt_id x).const_rpow h0
  simpa [mul_comm, Bin.fn] using this

/-- **C39** for two variables, wherever the power is differentiable in both: positive base, or base 0 and an exponent
beyond 1. -/
theorem C39_var_var (hr : Reach h c) {v w : Var} (hv : v ∈ existing c.st) (hw : w ∈ existing c.st) {x y : ℝ}
    (hx : (v.val : M W ℝ) c.st = .ok (x, c.st)) (hy : (w.val : M W ℝ) c.st = .ok (y, c.st))
    (h0 : 0 < x ∨ (x = 0 ∧ 1 < y)) (room : c.st.tape.head + 8 ≤ tapeLimit) (hu : u ∈ existing c.st)
    (hb : Rates c.st u b) :
    ∃ r s', (powVV v w : M W Var) c.st = .ok (r, s') ∧
      Gives c.st s' r (x ^ y) u (y * x ^ (y - 1) * b v + x ^ y * Real.log x * b w) := by
  exact C01_binary hr .pow hv hw hx hy h0 room hu hb (bin_pow h0).deriv

/-- **C39** at base 0, two variables: whatever the exponent, the derivative with respect to any variable is 0. -/
theorem C39_base_zero_partial (hr : Reach h c) {v w : Var} (hv : v ∈ existing c.st) (hw : w ∈ existing c.st) {y : ℝ}
    (hx : (v.val : M W ℝ) c.st = .ok (0, c.st)) (hy : (w.val : M W ℝ) c.st = .ok (y, c.st))
    (room : c.st.tape.head + 8 ≤ tapeLimit) (hu : u ∈ existing c.st) (hb : Rates c.st u b) :
    ∃ r s', (powVV v w : M W Var) c.st = .ok (r, s') ∧ Gives c.st s' r ((0:ℝ) ^ y) u 0 := by
  obtain ⟨r, s', e, g⟩ := record_gives (vs := [v, w]) (ys := [0, y]) (m := powVV v w) (x := (0:ℝ) ^ y) (ds := [])
    (coefs := []) (ch := .powVV) hr (by simp [hv, hw]) (vals_two hx hy) (fun g val adj hi hh he => by
      obtain ⟨s', e, gr⟩ := hi.binary_ok (hh v (by simp)) (hh w (by simp)) Arith.pow .powVV room
      simp only [List.map_cons, List.map_nil, List.cons.injEq, and_true] at he
      rw [he.1, he.2] at gr
      exact ⟨s', e, gr⟩)
    (fun a => by
      have e : ¬ fne (0:ℝ) Arith.zero = true := by simp
      simp only [contribPlain, cBin, e]
      rfl) hu hb
  exact ⟨r, s', e, by simpa using g⟩

/-- two of the variables of `demo`: `2 ** 3` -/
example : ∃ c : Client ℝ, Reach demo c ∧ ∃ r s', (powVV ⟨1⟩ ⟨2⟩ : M ℝ Var) c.st = .ok (r, s') ∧
    Gives c.st s' r ((2:ℝ) ^ (3:ℝ)) ⟨1⟩ (3 * 2 ^ ((3:ℝ) - 1) * demoB ⟨1⟩ + 2 ^ (3:ℝ) * Real.log 2 * demoB ⟨2⟩) := by
  obtain ⟨c, hr, hh, hex, h1, h2, h3, hb⟩ := demo_rates (W := ℝ)
  exact ⟨c, hr, C39_var_var hr (by simp [hex]) (by simp [hex]) h1 h2 (Or.inl (by norm_num))
    (by rw [hh]; simp [tapeLimit]) (by simp [hex]) hb⟩

/-- variables with the values 0 and 1 -/
def zeroOne : List (Call ℝ) := [.make (.newVals [0, 1])]

/-- **C39 fails** at base 0 for the exponent 1 if the exponent is a variable: the derivative of `x ** 1` with respect to
`x` is 1, the library gives 0. -/
theorem C39_base_zero_refuted : ∃ (c : Client W) (v w r : Var) (s' : St W), Reach zeroOne c ∧
    (v.val : M W ℝ) c.st = .ok (0, c.st) ∧ (w.val : M W ℝ) c.st = .ok (1, c.st) ∧
    (powVV v w : M W Var) c.st = .ok (r, s') ∧ rate s' r v = .ok 0 ∧ HasDerivAt (fun z : ℝ => z ^ (1:ℝ)) 1 0 := by
  obtain ⟨s1, e1, h1⟩ := (Here.init (W := W) (fun _ => (0 : ℝ)) fun _ => 0).newVars2 0 1 (by simp [cap])
  have H : Here s1 ⟨[⟨1, [], [], .dummy, .plain⟩, ⟨7, [], [], .dummy, .plain⟩], []⟩ (fun p => if p = 7 then 1 else 0)
      (fun _ => 0) 13 [] unused := by
    refine h1.congr ?_ ?_ <;> simp [Graph.push, Graph.empty, upd, Arith.zero]
  have k1 : (Call.make (R := ℝ) (.newVals [0, 1])).exec (Client.init : Client W) =
      .ok ⟨s1, [⟨1⟩, ⟨2⟩], []⟩ := exec_make (c := Client.init) (by simp [Make.args]) e1
  have hr : Reach zeroOne (⟨s1, [⟨1⟩, ⟨2⟩], []⟩ : Client W) := by
    refine ⟨by simp [zeroOne, Call.Sane, Make.Sane], ?_⟩
    unfold zeroOne
    rw [run_one k1]
    rfl
  have hex : existing s1 = [⟨1⟩, ⟨2⟩] := by simp [existing, H.inv.vhead, List.range_succ]
  have hh : ∀ v ∈ existing s1, (⟨[⟨1, [], [], .dummy, .plain⟩, ⟨7, [], [], .dummy, .plain⟩], []⟩ : Graph ℝ).Has v :=
    fun v hv => (mem_existing H.inv).mp hv
  have hv1 : (⟨1⟩ : Var) ∈ existing s1 := by simp [hex]
  have hv2 : (⟨2⟩ : Var) ∈ existing s1 := by simp [hex]
  have x1 : ((⟨1⟩ : Var).val : M W ℝ) s1 = .ok (0, s1) := by
    rw [H.inv.varVal (hh _ hv1)]; simp [Graph.pos]
  have x2 : ((⟨2⟩ : Var).val : M W ℝ) s1 = .ok (1, s1) := by
    rw [H.inv.varVal (hh _ hv2)]; simp [Graph.pos]
  have hb : Rates s1 ⟨1⟩ (fun v => if v.vi = 1 then (1:ℝ) else 0) := by
    intro v hv
    obtain ⟨s2, e2, h2⟩ := H.zeroAll
    obtain ⟨s3, e3, h3⟩ := h2.grad (hh v hv) (by
      intro nd hn
      simp only [List.mem_cons, List.not_mem_nil, or_false] at hn
      rcases hn with rfl | rfl <;> exact fun a => ⟨[], rfl⟩)
    unfold rate partialOf
    rw [bind_ok e2, bind_ok e3, h3.inv.varAdj (hh _ hv1)]
    rw [hex] at hv
    simp only [List.mem_cons, List.not_mem_nil, or_false] at hv
    rcases hv with rfl | rfl <;>
      simp [Graph.pos, upd, Arith.one, Arith.zero, sweep, Node.args, Node.cl, Node.contrib, contribPlain, addAll]
  obtain ⟨r, s', e, g⟩ := C39_base_zero_partial hr hv1 hv2 x1 x2 (by rw [H.head]; simp [tapeLimit]) hv1 hb
  refine ⟨_, ⟨1⟩, ⟨2⟩, r, s', hr, x1, x2, e, g.deriv, ?_⟩
  simpa using hasDerivAt_id' (0:ℝ)

/-! ## C28 -/

/-- **C28** away from 0: `abs(x)` has value `|x|` and derivative `sign(x)`; older variables are not disturbed. -/
theorem C28_nonzero (hr : Reach h c) {v : Var} (hv : v ∈ existing c.st) {x : ℝ}
    (hx : (v.val : M W ℝ) c.st = .ok (x, c.st)) (h0 : x ≠ 0) (room : c.st.tape.head + 7 ≤ tapeLimit)
    (hu : u ∈ existing c.st) (hb : Rates c.st u b) :
    ∃ r s', (absV (R := ℝ) v : M W Var) c.st = .ok (r, s') ∧
      Gives c.st s' r |x| u ((if 0 < x then 1 else -1) * b v) := by
  refine C01_unary hr .abs hv hx h0 room hu hb ?_
  rcases lt_or_gt_of_ne h0 with hl | hl
  · rw [if_neg hl.not_gt]
    exact hasDerivAt_abs_neg hl
  · rw [if_pos hl]
    exact hasDerivAt_abs_pos hl

/-- the free slot of the variable table is as initialised if no earlier state had more variables -/
theorem slot_fresh (hr : Reach h c)
    (hp : ∀ h1 (c1 : Client W), h1 <+: h → Reach h1 c1 → (existing c1.st).length ≤ (existing c.st).length) :
    c.st.varis c.st.vhead = {} := by
  obtain ⟨g, val, adj, G⟩ := hr.good
  refine run_slot c.st.vhead h (good_init (fun _ => Arith.zero) (fun _ => Arith.zero)) hr.1 hr.2 ?_ rfl
  intro l1 c1 hl hr1
  have hr1' : Reach l1 c1 := ⟨fun k hk => hr.1 k (hl.subset hk), hr1⟩
  have := hp l1 c1 hl hr1'
  obtain ⟨g1, val1, adj1, G1⟩ := hr1'.good
  have hv1 := G1.inv.vhead
  have hv := G.inv.vhead
  simp only [existing, List.length_map, List.length_range] at this
  omega

/-- **C28** at 0: `abs` of a variable with value 0 is a new constant 0 with zero derivative, if no earlier state had
more variables than there are now (no region has been closed over the slot of the variable table that is taken).
Missing: after such a region, see `C28_refuted`. -/
theorem C28_zero_partial (hr : Reach h c)
    (hp : ∀ h1 (c1 : Client W), h1 <+: h → Reach h1 c1 → (existing c1.st).length ≤ (existing c.st).length)
    {v : Var} (hx : (v.val : M W ℝ) c.st = .ok (0, c.st)) (room : c.st.tape.head + 6 ≤ tapeLimit)
    (hu : u ∈ existing c.st) (hb : Rates c.st u b) :
    ∃ r s', (absV (R := ℝ) v : M W Var) c.st = .ok (r, s') ∧ r ∉ existing c.st ∧ Gives c.st s' r 0 u 0 := by
  obtain ⟨g0, val0, adj0, G0⟩ := hr.good
  have hm : (absV (R := ℝ) v : M W Var) c.st = (newVar0 : M W Var) c.st := by
    unfold absV
    rw [bind_ok hx]
    simp [fgt, Arith.flt, Arith.feq, Arith.zero]
  obtain ⟨r, s', e, g⟩ := record_gives (vs := []) (ys := []) (m := newVar0) (x := 0) (ds := [])
      (coefs := []) (ch := .dummy) hr (by simp) rfl (fun g val adj hi hh he => by
        obtain ⟨s', e, gr⟩ := hi.newVar0_ok room
        rw [slot_fresh hr hp] at gr
        exact ⟨s', e, gr⟩) (fun a => rfl) hu hb
  refine ⟨r, s', by rw [hm, e], ?_, by simpa using g⟩
  obtain ⟨s1, e1, -⟩ := G0.inv.newVar0_ok room
  rw [e] at e1
  cases e1
  simp only [existing, List.mem_map, List.mem_range, not_exists, not_and, Var.mk.injEq]
  intro k hk
  omega

/-- the history of `C28_refuted`: a region with a product, then a variable with value 0 and its `abs` -/
noncomputable def staleAbs : List (Call ℝ) :=
  [.begin, .make (.new 2), .make (.bin .mul 0 0), .done, .make (.new 0), .make (.fn .abs 0)]

/-- **C28 fails** at 0 after a region has been closed: the constant that `abs` makes keeps the propagation rule of the
product of the region, and a sweep from it does not complete. -/
theorem C28_refuted : ∃ c : Client W, Reach staleAbs c ∧ existing c.st = [⟨1⟩, ⟨2⟩] ∧ c.env = [⟨1⟩, ⟨2⟩] ∧
    (seen c.st ⟨1⟩ = .ok (⟨0, 0, [], []⟩ : View ℝ)) ∧ (seen c.st ⟨2⟩ = .ok (⟨0, 0, [], []⟩ : View ℝ)) ∧
    ∃ e, (Call.grad (R := ℝ) 1).exec c = .error e := by
  have H := Here.init (W := W) (fun _ => (0 : ℝ)) fun _ => 0
  obtain ⟨e0, H0⟩ := H.begin (by simp [maxNestedStack])
  obtain ⟨s1, e1, H1⟩ := H0.newVar 2 (by simp [cap])
  obtain ⟨s2, e2, H2⟩ := H1.binary (v := ⟨1⟩) (w := ⟨1⟩) (by simp [Graph.Has, Graph.empty, Graph.push])
    (by simp [Graph.Has, Graph.empty, Graph.push]) (Arith.mul (R := ℝ)) .mulVV (by simp [cap])
  obtain ⟨s3, e3, -, H3⟩ := H2.done (g0 := Graph.empty) (l := []) (by simp [maxNestedStack])
    ⟨by simp [Graph.empty], by simp [Graph.empty, Graph.push]⟩ H.inv.wf (by omega) (by omega) (by
      have := size_big H2.inv (by rw [H2.head]; omega)
      omega)
  obtain ⟨s4, e4, H4⟩ := H3.newVar 0 (by simp [cap])
  obtain ⟨s5, e5, H5⟩ := H4.newVar 0 (by simp [cap])
  have ea : (absV (R := ℝ) ⟨1⟩ : M W Var) s4 = .ok (⟨2⟩, s5) := by
    have hx : ((⟨1⟩ : Var).val : M W ℝ) s4 = .ok (0, s4) := by
      rw [H4.inv.varVal (by simp [Graph.Has, Graph.empty, Graph.push])]
      simp [Graph.pos, Graph.push, Graph.empty, upd]
    unfold absV
    rw [bind_ok hx]
    simp only [fgt, Arith.flt, Arith.zero, lt_irrefl, decide_false, Bool.false_eq_true, if_false]
    have e5' : (newVar (0:ℝ) : M W Var) s4 = .ok (⟨2⟩, s5) := e5
    rw [if_pos (by simp [Arith.feq])]
    exact e5'
  have k0 : (Call.begin : Call ℝ).exec (Client.init : Client W) = .ok ⟨St.init.begun, [], [0]⟩ := exec_begin e0
  have k1 : (Call.make (R := ℝ) (.new 2)).exec (⟨St.init.begun, [], [0]⟩ : Client W) = .ok ⟨s1, [⟨1⟩], [0]⟩ :=
    exec_make (c := ⟨St.init.begun, [], [0]⟩) (vs := [⟨1⟩]) (by simp [Make.args]) (bind_ok (f := fun v => pure [v]) e1)
  have k2 : (Call.make (R := ℝ) (.bin .mul 0 0)).exec (⟨s1, [⟨1⟩], [0]⟩ : Client W) = .ok ⟨s2, [⟨1⟩, ⟨2⟩], [0]⟩ :=
    exec_make (c := ⟨s1, [⟨1⟩], [0]⟩) (vs := [⟨2⟩]) (by simp [Make.args]) (bind_ok (f := fun v => pure [v]) e2)
  have k3 : (Call.done : Call ℝ).exec (⟨s2, [⟨1⟩, ⟨2⟩], [0]⟩ : Client W) = .ok ⟨s3, [], []⟩ :=
    exec_done (c := ⟨s2, [⟨1⟩, ⟨2⟩], [0]⟩) e3 rfl
  have k4 : (Call.make (R := ℝ) (.new 0)).exec (⟨s3, [], []⟩ : Client W) = .ok ⟨s4, [⟨1⟩], []⟩ :=
    exec_make (c := ⟨s3, [], []⟩) (vs := [⟨1⟩]) (by simp [Make.args]) (bind_ok (f := fun v => pure [v]) e4)
  have k5 : (Call.make (R := ℝ) (.fn .abs 0)).exec (⟨s4, [⟨1⟩], []⟩ : Client W) = .ok ⟨s5, [⟨1⟩, ⟨2⟩], []⟩ :=
    exec_make (c := ⟨s4, [⟨1⟩], []⟩) (vs := [⟨2⟩]) (by simp [Make.args]) (bind_ok (f := fun v => pure [v]) ea)
  have H6 : Here s5 ⟨[⟨1, [], [], .dummy, .plain⟩, ⟨7, [], [], .mulVV, .plain⟩], []⟩ (fun _ => 0) (fun _ => 0) 13 []
      (fun k => if h : k - 1 < 2 then ([Chain.dummy, .mulVV][k - 1]'h) else .dummy) := by
    refine ⟨?_, H5.head, ?_, H5.marks⟩
    · have := H5.inv
      simp [Graph.push, Graph.empty, unused] at this
      exact this.congr (by simp [upd]) (by simp [upd, Arith.zero])
    · intro k hk
      rw [H5.free k hk]
      have := H5.inv.vhead
      simp [Graph.push, Graph.empty] at this
      rw [dif_neg (by simp [Graph.push, Graph.empty]; omega), dif_neg (by omega)]
      rfl
  refine ⟨⟨s5, [⟨1⟩, ⟨2⟩], []⟩, ⟨by simp [staleAbs, Call.Sane, Make.Sane], ?_⟩, ?_, rfl, ?_, ?_, ?_⟩
  · unfold staleAbs
    rw [run_one k0, run_one k1, run_one k2, run_one k3, run_one k4, run_one k5]
    rfl
  · have := H6.inv.vhead
    simp [existing, this, List.range_succ]
  · exact H6.inv.seen (v := ⟨1⟩) (nd := ⟨1, [], [], .dummy, .plain⟩) ⟨by simp, rfl⟩
  · exact H6.inv.seen (v := ⟨2⟩) (nd := ⟨7, [], [], .mulVV, .plain⟩) ⟨by simp, rfl⟩
  · cases hx : (Call.grad (R := ℝ) 1).exec (⟨s5, [⟨1⟩, ⟨2⟩], []⟩ : Client W) with
    | error e => exact ⟨e, rfl⟩
    | ok c' =>
      exfalso
      unfold Call.exec at hx
      rw [if_pos (by simp [Call.args])] at hx
      obtain ⟨s', e, -⟩ := keep_ok (m := Var.grad ⟨2⟩) hx
      have hf := (grad_run H6.inv (fun nd hn => Or.inl (by
        simp only [List.mem_cons, List.not_mem_nil, or_false] at hn
        rcases hn with rfl | rfl
        · intro _; rfl
        · intro _; rfl)) (v := ⟨2⟩) (by simp [Graph.Has]) e).1
      obtain ⟨l, hl⟩ := hf ⟨7, [], [], .mulVV, .plain⟩ (by simp) fun _ => 0
      cases hl

/-! ## C30 -/

/-- the weights of the derivative of `log_sum_exp` -/
noncomputable def softmax (ys : List ℝ) (k : Nat) : ℝ := Real.exp (ys.getD k 0) / (ys.map Real.exp).sum

theorem sum_exp_pos {ys : List ℝ} (hne : ys ≠ []) : 0 < (ys.map Real.exp).sum := by
  cases ys with
  | nil => exact absurd rfl hne
  | cons y ys =>
    simp only [List.map_cons, List.sum_cons]
    have : 0 ≤ (ys.map Real.exp).sum := List.sum_nonneg (by
      intro z hz
      obtain ⟨w, -, rfl⟩ := List.mem_map.mp hz
      exact (Real.exp_pos w).le)
    linarith [Real.exp_pos y]

theorem range_getD (f : ℝ → ℝ) (ys : List ℝ) : (List.range ys.length).map (fun k => f (ys.getD k 0)) = ys.map f := by
  apply List.ext_getElem
  · simp
  · intro i h1 h2
    simp [List.getD_eq_getElem?_getD, (by simpa using h2 : i < ys.length)]

/-- **C30**: the softmax weights are not negative and add up to 1. -/
theorem C30_weights {ys : List ℝ} (hne : ys ≠ []) :
    (∀ k, 0 ≤ softmax ys k) ∧ ((List.range ys.length).map (softmax ys)).sum = 1 := by
  have hp := sum_exp_pos hne
  refine ⟨fun k => div_nonneg (Real.exp_pos _).le hp.le, ?_⟩
  have : (List.range ys.length).map (softmax ys) =
      (List.range ys.length).map fun k => (fun z => Real.exp z * ((ys.map Real.exp).sum)⁻¹) (ys.getD k 0) := rfl
  rw [this, range_getD (fun z => Real.exp z * ((ys.map Real.exp).sum)⁻¹) ys, List.sum_map_mul_right]
  exact mul_inv_cancel₀ hp.ne'

theorem hasDerivAt_sumExp {ι : Type} (l : List ι) (p q : ι → ℝ) :
    HasDerivAt (fun t : ℝ => (l.map fun i => Real.exp (p i + t * q i)).sum)
      (l.map fun i => Real.exp (p i) * q i).sum 0 := by
  induction l with
  | nil => simpa using hasDerivAt_const (0:ℝ) (0:ℝ)
  | cons i l ih =>
    simp only [List.map_cons, List.sum_cons]
    refine HasDerivAt.fun_add ?_ ih
    exact hasDerivAt_line (Real.hasDerivAt_exp (p i)) (q i)

/-- **C30**: `log_sum_exp` of a non-empty array of variables with finite values (at most the largest double) is the
logarithm of the sum of exponentials, its derivatives are the softmax weights. -/
theorem C30_log_sum_exp (hr : Reach h c) {vs : List Var} (hvs : ∀ v ∈ vs, v ∈ existing c.st) {ys : List ℝ}
    (hys : (vals vs : M W (List ℝ)) c.st = .ok (ys, c.st)) (hne : ys ≠ []) (hfin : ∀ y ∈ ys, y ≤ hugeDouble)
    (room : c.st.tape.head + (6 + vs.length) ≤ tapeLimit) (hu : u ∈ existing c.st) (hb : Rates c.st u b) :
    logSumExpD ys = Real.log (ys.map Real.exp).sum ∧
    ∃ r s', (logSumExpV vs : M W Var) c.st = .ok (r, s') ∧ Gives c.st s' r (Real.log (ys.map Real.exp).sum) u
      ((List.range vs.length).map fun k => softmax ys k * b (vs.getD k ⟨0⟩)).sum := by
  refine ⟨logSumExpD_real hne hfin, ?_⟩
  obtain ⟨g, val, adj, D, ε, G, H, hD⟩ := rated hr hu hb
  have hy := vals_eq G.inv (fun v hv => (mem_existing G.inv).mp (hvs v hv)) hys
  have hl : ys.length = vs.length := by rw [hy]; simp
  have hp := sum_exp_pos hne
  have hsem : ((List.range vs.length).map fun i => Real.exp (look ys i)) = ys.map Real.exp := by
    rw [← hl]
    exact range_getD Real.exp ys
  obtain ⟨r, s', e, gv⟩ := instr_gives (i := .logSumExp (List.range vs.length)) (m := logSumExpV vs)
    (f := fun z => Real.log ((List.range vs.length).map fun i => Real.exp (look z i)).sum) hr hvs hys
    (by simp only [Instr.run, range_look]) (fun _ => rfl)
    (by
      refine ⟨fun i hi => ?_, ?_⟩
      · have hi : i < ys.length := by rw [hl]; exact List.mem_range.mp hi
        refine ⟨hi, ?_⟩
        have : look ys i = ys[i] := by simp [look, List.getD_eq_getElem?_getD, hi]
        rw [this]
        exact hfin _ (List.getElem_mem hi)
      · intro h0
        rw [← hl, List.range_eq_nil] at h0
        exact hne (List.length_eq_zero_iff.mp h0)) id (by simpa [Instr.cost] using room) hu hb
    (a := ((List.range vs.length).map fun k => softmax ys k * b (vs.getD k ⟨0⟩)).sum) (by
      have h1 := hasDerivAt_sumExp (List.range vs.length) (look ys) (look (vs.map b))
      have h2 : HasDerivAt (fun t : ℝ => ((List.range vs.length).map fun i =>
          Real.exp (look (along ys (vs.map b) t) i)).sum)
          ((List.range vs.length).map fun i => Real.exp (look ys i) * look (vs.map b) i).sum 0 := by
        refine h1.congr_of_eventuallyEq (Filter.Eventually.of_forall fun t => ?_)
        simp only
        congr 1
        apply List.map_congr_left
        intro i hi
        have : i < vs.length := List.mem_range.mp hi
        rw [look_along (by simp [hl]) t (by omega)]
      have h0 : along ys (vs.map b) 0 = ys := along_zero (by simp [hl])
      have h3 := h2.log (by simp only [h0, hsem]; exact hp.ne')
      simp only [h0, hsem] at h3
      refine h3.congr_deriv ?_
      rw [div_eq_mul_inv, ← List.sum_map_mul_right]
      congr 1
      apply List.map_congr_left
      intro k hk
      have hk : k < vs.length := List.mem_range.mp hk
      simp only [softmax, look, List.getD_eq_getElem?_getD, List.getElem?_map, List.getElem?_eq_getElem hk,
        Option.map_some, Option.getD_some]
      ring)
  refine ⟨r, s', e, ?_⟩
  simp only [hsem] at gv
  exact gv

/-- arithmetic in which `exp` is some function `f` -/
@[reducible] noncomputable def withExp (f : ℝ → ℝ) : Arith ℝ := { instArithReal with exp := f }

theorem le_fmaxval : ∀ (l : List ℝ), ∀ x ∈ l, x ≤ fmaxval l := by
  intro l x hx
  cases l with
  | nil => simp at hx
  | cons y ys =>
    show x ≤ ys.foldl _ y
    have key : ∀ (ys : List ℝ) (y : ℝ), y ≤ ys.foldl (fun m y => if Arith.flt m y then y else m) y ∧
        ∀ z ∈ ys, z ≤ ys.foldl (fun m y => if Arith.flt m y then y else m) y := by
      intro ys
      induction ys with
      | nil => intro y; simp
      | cons z ys ih =>
        intro y
        simp only [List.foldl_cons]
        have hz : y ≤ (if Arith.flt y z then z else y) ∧ z ≤ (if Arith.flt y z then z else y) := by
          by_cases hc : y < z
          · simp [Arith.flt, hc, hc.le]
          · simp [Arith.flt, hc, not_lt.mp hc]
        obtain ⟨i1, i2⟩ := ih (if Arith.flt y z then z else y)
        refine ⟨hz.1.trans i1, fun w hw => ?_⟩
        rcases List.mem_cons.mp hw with rfl | hw
        · exact hz.2.trans i1
        · exact i2 w hw
    rcases List.mem_cons.mp hx with rfl | hx
    · exact (key ys x).1
    · exact (key ys y).2 x hx

/-- **C30**: the exponential is only ever applied to numbers `<= 0`: the value computed does not change if `exp` is
replaced by any function that agrees with it there. -/
theorem C30_exponents (f : ℝ → ℝ) (hf : ∀ t ≤ 0, f t = Real.exp t) (ys : List ℝ) :
    @logSumExpD ℝ (withExp f) ys = logSumExpD ys := by
  have h1 : @fmaxval ℝ (withExp f) ys = fmaxval ys := by cases ys <;> rfl
  have h2 : (ys.map fun x => f (x - fmaxval ys)) = ys.map fun x => Real.exp (x - fmaxval ys) :=
    List.map_congr_left fun x hx => hf _ (by linarith [le_fmaxval ys x hx])
  unfold logSumExpD
  rw [h1]
  show (if isInf (fmaxval ys) = true then fmaxval ys else _ + Real.log (fsum (ys.map fun x => f (x - fmaxval ys)))) = _
  rw [h2]
  rfl

theorem readTape_state {α : Type} {f : Tape W → Except Err α} {s s' : St W} {a : α}
    (h : (readTape f : M W α) s = .ok (a, s')) : s = s' := by
  unfold readTape at h
  split at h
  · cases h; rfl
  · cases h

theorem setByIndex_withExp (f : ℝ → ℝ) (e : Vari) : ∀ (ps : List Nat) (d : List ℝ),
    (@Vari.setOperandAdjByIndex W ℝ (withExp f) _ e ps d : M W Unit) = Vari.setOperandAdjByIndex e ps d
  | [], _ => rfl
  | _ :: _, [] => rfl
  | p :: ps, d :: ds => by
    have ih := setByIndex_withExp f e ps ds
    show (do
      let a ← readTape fun t => t.adjAt p
      modTape fun t => t.setAdjAt p (a + d)
      @Vari.setOperandAdjByIndex W ℝ (withExp f) _ e ps ds : M W Unit) = _
    rw [ih]
    rfl

theorem setAll_withExp (f : ℝ → ℝ) (e : Vari) (d : List ℝ) :
    (@Vari.setOperandAdjAll W ℝ (withExp f) _ e d : M W Unit) = Vari.setOperandAdjAll e d := by
  unfold Vari.setOperandAdjAll
  simp only [setByIndex_withExp]

/-- **C30**, the sweep: the propagation rule of the result applies the exponential to numbers `<= 0` only, in the
state after the call and in any later one in which the operands and the result have the same values. -/
theorem C30_exponents_sweep (f : ℝ → ℝ) (hf : ∀ t ≤ 0, f t = Real.exp t) (hr : Reach h c) {vs : List Var}
    (hvs : ∀ v ∈ vs, v ∈ existing c.st) {ys : List ℝ} (hys : (vals vs : M W (List ℝ)) c.st = .ok (ys, c.st))
    (hne : ys ≠ []) (hfin : ∀ y ∈ ys, y ≤ hugeDouble) (room : c.st.tape.head + (6 + vs.length) ≤ tapeLimit) :
    ∃ r s' e, (logSumExpV vs : M W Var) c.st = .ok (r, s') ∧ (getVari r.vi : M W Vari) s' = .ok (e, s') ∧
      (e.operandVal : M W (List ℝ)) s' = .ok (ys, s') ∧
      (e.val : M W ℝ) s' = .ok (Real.log (ys.map Real.exp).sum, s') ∧
      ∀ t : St W, (e.operandVal : M W (List ℝ)) t = .ok (ys, t) →
        (e.val : M W ℝ) t = .ok (Real.log (ys.map Real.exp).sum, t) →
        (@runChain W ℝ (withExp f) _ e : M W Unit) t = runChain e t := by
  obtain ⟨g, val, adj, G⟩ := hr.good
  have hg : ∀ v ∈ vs, g.Has v := fun v hv => (mem_existing G.inv).mp (hvs v hv)
  have hy := vals_eq G.inv hg hys
  obtain ⟨s', e, gr⟩ := G.inv.reduceV_ok hg logSumExpD .logSumExp room
  rw [← hy, logSumExpD_real hne hfin] at gr
  have hvh := G.inv.vhead
  have hat : (g.push ⟨c.st.tape.head, vs.map g.pos, [], .logSumExp, .plain⟩).At ⟨c.st.vhead⟩
      ⟨c.st.tape.head, vs.map g.pos, [], .logSumExp, .plain⟩ := by
    have := g.at_last ⟨c.st.tape.head, vs.map g.pos, [], .logSumExp, .plain⟩
    rwa [← hvh] at this
  have hmem : (⟨c.st.tape.head, vs.map g.pos, [], .logSumExp, .plain⟩ : Node ℝ) ∈
      (g.push ⟨c.st.tape.head, vs.map g.pos, [], .logSumExp, .plain⟩).nodes := by simp [Graph.push]
  refine ⟨⟨c.st.vhead⟩, s', ⟨c.st.tape.head, .logSumExp⟩, e, gr.inv.getV hat, ?_, ?_, ?_⟩
  · rw [gr.inv.opValM hmem _ rfl, hy]
    congr 2
    simp only [List.map_map]
    apply List.map_congr_left
    intro v hv
    have := G.inv.has_lt (hg v hv)
    simp [upd, this.ne]
  · rw [gr.inv.valM hmem]
    simp [upd]
  · intro t ho hv
    have hle : ∀ y ∈ ys, y - Real.log (ys.map Real.exp).sum ≤ 0 := by
      intro y hy
      rw [sub_nonpos, Real.le_log_iff_exp_le (sum_exp_pos hne)]
      exact List.single_le_sum (by
        intro z hz
        obtain ⟨w, -, rfl⟩ := List.mem_map.mp hz
        exact (Real.exp_pos w).le) _ (List.mem_map_of_mem hy)
    show (@chainLogSumExp W ℝ (withExp f) _ _ : M W Unit) t = chainLogSumExp _ t
    unfold chainLogSumExp
    rw [bind_ok ho, bind_ok ho]
    cases ha : (Vari.adj ⟨c.st.tape.head, .logSumExp⟩ : M W ℝ) t with
    | error er => rw [bind_err ha, bind_err ha]
    | ok p =>
      obtain ⟨a, t'⟩ := p
      obtain rfl : t = t' := readTape_state ha
      rw [bind_ok ha, bind_ok ha, bind_ok hv, bind_ok hv]
      have : (ys.map fun x => a * f (x - Real.log (ys.map Real.exp).sum)) =
          ys.map fun x => a * Real.exp (x - Real.log (ys.map Real.exp).sum) :=
        List.map_congr_left fun y hy => by rw [hf _ (hle y hy)]
      rw [setAll_withExp]
      show Vari.setOperandAdjAll _ (ys.map fun x => a * f (x - Real.log (ys.map Real.exp).sum)) t = _
      rw [this]
      rfl

/-! ## C31 -/

theorem invLogitD_eq (x : ℝ) : invLogitD x =
    if x < Real.log ((2:ℝ) ^ (-1022 : ℤ)) then Real.exp x else 1 / (1 + Real.exp (-x)) := by
  have hneg : Real.log ((2:ℝ) ^ (-1022 : ℤ)) < 0 := by
    rw [Real.log_zpow]
    have := Real.log_pos (by norm_num : (1:ℝ) < 2)
    push_cast
    linarith
  unfold invLogitD logEpsilon invD
  simp only [Arith.flt, Arith.zero, Arith.exp, Arith.log, Arith.tiny, Arith.div, Arith.add, Arith.one, Arith.neg,
    decide_eq_true_eq]
  by_cases h0 : x < 0
  · rw [if_pos h0]
    split
    · rfl
    · rw [Real.exp_neg]
      have := Real.exp_pos x
      field_simp
      ring
  · rw [if_neg h0, if_neg (by linarith)]

/-- **C31**: `inv_logit(x)` lies strictly between 0 and 1, for every `x`. -/
theorem C31_range (x : ℝ) : 0 < invLogitD x ∧ invLogitD x < 1 := by
  have hneg : Real.log ((2:ℝ) ^ (-1022 : ℤ)) < 0 := by
    rw [Real.log_zpow]
    have := Real.log_pos (by norm_num : (1:ℝ) < 2)
    push_cast
    linarith
  rw [invLogitD_eq]
  have := Real.exp_pos (-x)
  split
  · exact ⟨Real.exp_pos x, by rw [Real.exp_lt_one_iff]; linarith⟩
  · constructor
    · positivity
    · rw [div_lt_one (by linarith)]
      linarith

/-- **C31**: `inv_logit` is the logistic function from the logarithm of the smallest normal double upwards; below,
it is `exp(x)`, which is larger than the logistic function by less than a factor `1 + 2^(-1022)`. -/
theorem C31_logistic (x : ℝ) :
    (Real.log ((2:ℝ) ^ (-1022 : ℤ)) ≤ x → invLogitD x = 1 / (1 + Real.exp (-x))) ∧
    (x < Real.log ((2:ℝ) ^ (-1022 : ℤ)) → invLogitD x = Real.exp x ∧
      1 / (1 + Real.exp (-x)) < invLogitD x ∧
      invLogitD x < (1 + (2:ℝ) ^ (-1022 : ℤ)) * (1 / (1 + Real.exp (-x)))) := by
  rw [invLogitD_eq]
  refine ⟨fun h => by rw [if_neg (not_lt.mpr h)], fun h => ?_⟩
  rw [if_pos h]
  have he := Real.exp_pos x
  have hlt : Real.exp x < (2:ℝ) ^ (-1022 : ℤ) := by
    rwa [Real.lt_log_iff_exp_lt (by positivity)] at h
  have hs : 1 / (1 + Real.exp (-x)) = Real.exp x / (1 + Real.exp x) := by
    rw [Real.exp_neg]
    field_simp
    ring
  rw [hs]
  refine ⟨rfl, ?_, ?_⟩
  · rw [div_lt_iff₀ (by linarith)]
    nlinarith
  · rw [← mul_div_assoc, lt_div_iff₀ (by linarith)]
    nlinarith

/-- **C31**: `logit` undoes `inv_logit` where that is the logistic function. -/
theorem C31_inverse (x : ℝ) (hx : Real.log ((2:ℝ) ^ (-1022 : ℤ)) ≤ x) : logitD (invLogitD x) = x := by
  rw [(C31_logistic x).1 hx]
  have he := Real.exp_pos (-x)
  show Real.log (1 / (1 + Real.exp (-x)) / (1 - 1 / (1 + Real.exp (-x)))) = x
  have : 1 / (1 + Real.exp (-x)) / (1 - 1 / (1 + Real.exp (-x))) = Real.exp x := by
    rw [Real.exp_neg] at *
    have := Real.exp_pos x
    field_simp
    ring
  rw [this, Real.log_exp]

/-- **C31**: below, it misses `x` by less than `2^(-1021)`. -/
theorem C31_inverse_tail (x : ℝ) (hx : x < Real.log ((2:ℝ) ^ (-1022 : ℤ))) :
    x < logitD (invLogitD x) ∧ logitD (invLogitD x) < x + (2:ℝ) ^ (-1021 : ℤ) := by
  rw [((C31_logistic x).2 hx).1]
  have he := Real.exp_pos x
  have hlt : Real.exp x < (2:ℝ) ^ (-1022 : ℤ) := by
    rwa [Real.lt_log_iff_exp_lt (by positivity)] at hx
  have h2 : (2:ℝ) ^ (-1022 : ℤ) ≤ 1 / 2 := by
    rw [show (-1022 : ℤ) = -1021 + -1 by norm_num, zpow_add₀ (by norm_num)]
    have : (2:ℝ) ^ (-1021 : ℤ) ≤ 1 := zpow_le_one_of_nonpos₀ (by norm_num) (by norm_num)
    rw [zpow_neg_one]
    linarith
  have h3 : (2:ℝ) ^ (-1021 : ℤ) = 2 * (2:ℝ) ^ (-1022 : ℤ) := by
    rw [show (-1021 : ℤ) = 1 + -1022 by norm_num, zpow_add₀ (by norm_num)]
    norm_num
  have hd : 0 < 1 - Real.exp x := by linarith
  show x < Real.log (Real.exp x / (1 - Real.exp x)) ∧ Real.log (Real.exp x / (1 - Real.exp x)) < _
  rw [Real.log_div he.ne' hd.ne', Real.log_exp, h3]
  have hn : Real.log (1 - Real.exp x) < 0 := Real.log_neg hd (by linarith)
  have hb := Real.one_sub_inv_le_log_of_pos hd
  refine ⟨by linarith, ?_⟩
  have : (1 - Real.exp x)⁻¹ - 1 < 2 * (2:ℝ) ^ (-1022 : ℤ) := by
    have h5 : (1 - Real.exp x)⁻¹ - 1 = Real.exp x / (1 - Real.exp x) := by field_simp; ring
    rw [h5, div_lt_iff₀ hd]
    nlinarith
  linarith

/-- **C31** for variables: value and derivative of `inv_logit`, and its derivative is `y (1 - y)` for the value `y`. -/
theorem C31_variable (hr : Reach h c) {v : Var} (hv : v ∈ existing c.st) {x : ℝ}
    (hx : (v.val : M W ℝ) c.st = .ok (x, c.st)) (room : c.st.tape.head + 7 ≤ tapeLimit)
    (hu : u ∈ existing c.st) (hb : Rates c.st u b) :
    ∃ r s', (invLogitV (R := ℝ) v : M W Var) c.st = .ok (r, s') ∧
      Gives c.st s' r (invLogitD x) u (invLogitD x * (1 - invLogitD x) * b v) := by
  obtain ⟨r, s', e, g⟩ := record_gives (vs := [v]) (ys := [x]) (m := invLogitV (R := ℝ) v) (x := invLogitD x) (ds := [])
    (coefs := [invLogitD x * (1 - invLogitD x)]) (ch := .invLogit) hr (by simpa using hv) (vals_one hx)
    (fun g val adj hi hh he => by
      obtain ⟨s', e, gr⟩ := hi.unary_ok (hh v (by simp)) invLogitD .invLogit room
      simp only [List.map_cons, List.map_nil, List.cons.injEq, and_true] at he
      rw [he] at gr
      exact ⟨s', e, gr⟩)
    (fun a => by
      show some _ = some _
      simp [Arith.mul, Arith.sub, Arith.one, mul_assoc]) hu hb
  exact ⟨r, s', e, by simpa using g⟩

/-! ## the hypotheses are met: `x = 2`, `y = 3`, `z = x*y`, derivatives with respect to `x` -/

example : ∃ c : Client ℝ, Reach demo c ∧
    (∃ r s', (invSquareV ⟨3⟩ : M ℝ Var) c.st = .ok (r, s') ∧ Gives c.st s' r 1 ⟨1⟩ (-2 / 6 ^ 3 * 3)) ∧
    (∃ r s' y, (powVD ⟨3⟩ (1 / 2) : M ℝ Var) c.st = .ok (r, s') ∧
      Gives c.st s' r y ⟨1⟩ (1 / 2 * 6 ^ ((1 / 2 : ℝ) - 1) * 3) ∧ ((1 / 2 : ℝ) ≠ -2 → y = 6 ^ (1 / 2 : ℝ))) ∧
    (∃ r s', (powDV 5 ⟨3⟩ : M ℝ Var) c.st = .ok (r, s') ∧ Gives c.st s' r (5 ^ (6 : ℝ)) ⟨1⟩ (Real.log 5 * 5 ^ (6 : ℝ) * 3)) ∧
    (∃ r s', (absV (R := ℝ) ⟨3⟩ : M ℝ Var) c.st = .ok (r, s') ∧ Gives c.st s' r |6| ⟨1⟩ ((if (0 : ℝ) < 6 then 1 else -1) * 3)) ∧
    (∃ r s', (invLogitV (R := ℝ) ⟨3⟩ : M ℝ Var) c.st = .ok (r, s') ∧
      Gives c.st s' r (invLogitD 6) ⟨1⟩ (invLogitD 6 * (1 - invLogitD 6) * 3)) := by
  obtain ⟨c, hr, hh, hex, h1, h2, h3, hb⟩ := demo_rates (W := ℝ)
  have hb3 : demoB ⟨3⟩ = 3 := by simp [demoB]
  have room : c.st.tape.head + 9 ≤ tapeLimit := by rw [hh]; simp [tapeLimit]
  have hu : (⟨1⟩ : Var) ∈ existing c.st := by simp [hex]
  have hv : (⟨3⟩ : Var) ∈ existing c.st := by simp [hex]
  refine ⟨c, hr, ?_, ?_, ?_, ?_, ?_⟩ <;> rw [← hb3]
  · exact (C16_derivative_partial hr hv h3 (by norm_num) (by omega) hu hb).2.1
  · exact C39_var_real_partial hr hv h3 (by norm_num) _ room hu hb
  · exact C39_real_var hr hv h3 (by norm_num) room hu hb
  · exact C28_nonzero hr hv h3 (by norm_num) (by omega) hu hb
  · exact C31_variable hr hv h3 (by omega) hu hb

/-- C30: `log_sum_exp([x, z, x])` -/
example : ∃ c : Client ℝ, Reach demo c ∧
    ∃ r s', (logSumExpV [⟨1⟩, ⟨3⟩, ⟨1⟩] : M ℝ Var) c.st = .ok (r, s') ∧
      Gives c.st s' r (Real.log (([2, 6, 2] : List ℝ).map Real.exp).sum) ⟨1⟩
        (((List.range 3).map fun k => softmax [2, 6, 2] k * demoB (([⟨1⟩, ⟨3⟩, ⟨1⟩] : List Var).getD k ⟨0⟩)).sum) := by
  obtain ⟨c, hr, hh, hex, h1, h2, h3, hb⟩ := demo_rates (W := ℝ)
  refine ⟨c, hr, (C30_log_sum_exp hr (vs := [⟨1⟩, ⟨3⟩, ⟨1⟩]) (by simp [hex]) (ys := [2, 6, 2]) ?_ (by simp) ?_ ?_
    (by simp [hex]) hb).2⟩
  · exact vals_append (vals_one h1) (vals_two h3 h1)
  · have : (6:ℝ) ≤ hugeDouble := by
      unfold hugeDouble
      have h1 : (2:ℝ) ^ (-52 : ℤ) ≤ 1 := zpow_le_one_of_nonpos₀ (by norm_num) (by norm_num)
      have h2 : (2:ℝ) ^ (3 : ℤ) ≤ 2 ^ (1023 : ℤ) := zpow_le_zpow_right₀ (by norm_num) (by norm_num)
      have h3 : (2:ℝ) ^ (3 : ℤ) = 8 := by norm_num
      rw [h3] at h2
      calc (6:ℝ) ≤ 1 * 8 := by norm_num
        _ ≤ _ := mul_le_mul (by linarith) h2 (by norm_num) (by linarith)
    intro y hy
    simp only [List.mem_cons, List.not_mem_nil, or_false] at hy
    rcases hy with rfl | rfl | rfl <;> linarith
  · rw [hh]; simp [tapeLimit]

/-- C28 at 0: the hypotheses after `x = var(0)` -/
example : ∃ c : Client ℝ, Reach [.make (.new (0:ℝ))] c ∧ ((⟨1⟩ : Var).val : M ℝ ℝ) c.st = .ok (0, c.st) ∧
    c.st.tape.head + 6 ≤ tapeLimit ∧ (⟨1⟩ : Var) ∈ existing c.st ∧ (∃ b, Rates c.st ⟨1⟩ b) ∧
    ∀ h1 (c1 : Client ℝ), h1 <+: [.make (.new (0:ℝ))] → Reach h1 c1 → (existing c1.st).length ≤ (existing c.st).length := by
  have H := Here.init (W := ℝ) (fun _ => (0 : ℝ)) fun _ => 0
  obtain ⟨s1, e1, H1⟩ := H.newVar 0 (by simp [cap])
  have k1 : (Call.make (R := ℝ) (.new 0)).exec (Client.init : Client ℝ) = .ok ⟨s1, [⟨1⟩], []⟩ :=
    exec_make (c := Client.init) (vs := [⟨1⟩]) (by simp [Make.args]) (bind_ok (f := fun v => pure [v]) e1)
  have hex : existing s1 = [⟨1⟩] := by
    have := H1.inv.vhead
    simp [existing, this, Graph.push, Graph.empty, List.range_succ]
  have hhas : (Graph.empty.push (⟨1, [], [], unused ((Graph.empty : Graph ℝ).nodes.length + 1), .plain⟩ : Node ℝ)).Has ⟨1⟩ := by
    simp [Graph.Has, Graph.empty, Graph.push]
  refine ⟨⟨s1, [⟨1⟩], []⟩, ⟨by simp [Call.Sane, Make.Sane], ?_⟩, ?_, ?_, ?_, ⟨fun _ => 1, ?_⟩, ?_⟩
  · rw [run_one k1]
    rfl
  · rw [H1.inv.varVal hhas]
    simp [Graph.pos, Graph.push, Graph.empty, upd]
  · rw [H1.head]; simp [tapeLimit]
  · simp [hex]
  · intro v hv
    obtain rfl : v = ⟨1⟩ := by simpa [hex] using hv
    obtain ⟨s2, e2, h2⟩ := H1.zeroAll
    obtain ⟨s3, e3, h3⟩ := h2.grad hhas (by
      intro nd hn
      have : nd = ⟨1, [], [], .dummy, .plain⟩ := by simpa [Graph.push, Graph.empty, unused] using hn
      rw [this]
      intro a
      exact ⟨_, rfl⟩)
    unfold rate partialOf
    rw [bind_ok e2, bind_ok e3, h3.inv.varAdj hhas]
    simp [sweep, Graph.push, Graph.empty, Node.args, Node.cl, Node.contrib, contribPlain, addAll, Graph.pos, upd,
      unused, Arith.one]
  · intro h1 c1 hp hr1
    rcases h1 with _ | ⟨k, t⟩
    · have : (Client.init : Client ℝ) = c1 := by
        have := hr1.2
        cases this
        rfl
      rw [← this]
      simp [existing, Client.init, St.init]
    · obtain ⟨rfl, ht⟩ := List.cons_prefix_cons.mp hp
      obtain rfl := List.prefix_nil.mp ht
      have := hr1.2
      rw [run_one k1] at this
      cases this
      exact le_refl _

end Props
