import Verif.Props.Functions
import Verif.Proof.Rechain

/-!
# C15, C17: real operands that make the code take a short cut

The short cut returns the operand itself and overwrites its propagation rule.

`Gives c.st s' r x u a`: the result `r` has value `x` and derivative `a` with respect to `u`, and nothing that can be
read about older variables has changed, nor have their derivatives.  `b v` is the derivative of the operand `v` with
respect to `u`.
-/

set_option linter.unusedSectionVars false

namespace Props
open Fz Spec

/-! ## C15 -/

section generic
variable {W R : Type} [Arith R] [Rep W R] [LawfulRep W R]
variable {h : List (Call R)} {c : Client W}

/-- the six calls with a neutral element: `x + z`, `z + x`, `x - z`, `x * o`, `o * x`, `x / o` -/
def neutralCalls (v : Var) (z o : R) : List (M W Var) :=
  [addVD v z, addDV z v, subVD v z, mulVD v o, mulDV o v, divVD v o]

/-- **C15**, what can be read, for every arithmetic: adding or subtracting a real that the comparison finds equal to 0,
and multiplying or dividing by one it finds equal to 1, completes and returns the operand itself, so the result has its
value; nothing that can be read about any variable changes. -/
theorem C15_value (hr : Reach h c) {v : Var} (hv : v ∈ existing c.st) {z o : R} (hz : fne z Arith.zero = false)
    (ho : fne o Arith.one = false) :
    ∀ m ∈ (neutralCalls v z o : List (M W Var)), ∃ s', m c.st = .ok (v, s') ∧ existing s' = existing c.st ∧
      ∀ w ∈ existing c.st, seen (R := R) s' w = seen c.st w := by
  obtain ⟨g, val, adj, G⟩ := hr.good
  have hh := (mem_existing G.inv).mp hv
  obtain ⟨nd, h1, -⟩ := hh.at
  have key : ∀ ch : Chain, ∃ s', (do v.setChain ch; pure v : M W Var) c.st = .ok (v, s') ∧
      existing s' = existing c.st ∧ ∀ w ∈ existing c.st, seen (R := R) s' w = seen c.st w := by
    intro ch
    obtain ⟨s', e, i, h2, h3, k⟩ := G.inv.setChain_ok h1 ch
    refine ⟨s', by rw [bind_ok e]; rfl, by simp [existing, h2], fun w hw =>
      G.inv.seen_setChain i ((mem_existing G.inv).mp hw)⟩
  intro m hm
  simp only [neutralCalls, List.mem_cons, List.not_mem_nil, or_false] at hm
  rcases hm with rfl | rfl | rfl | rfl | rfl | rfl
  · have : (addVD v z : M W Var) = (do v.setChain .addVD; pure v) := by simp [addVD, hz]
    rw [this]; exact key _
  · have : (addDV z v : M W Var) = (do v.setChain .addVD; pure v) := by simp [addDV, hz]
    rw [this]; exact key _
  · have : (subVD v z : M W Var) = (do v.setChain .subVD; pure v) := by simp [subVD, hz]
    rw [this]; exact key _
  · have : (mulVD v o : M W Var) = (do v.setChain .mulVD; pure v) := by simp [mulVD, ho]
    rw [this]; exact key _
  · have : (mulDV o v : M W Var) = (do v.setChain .mulVD; pure v) := by simp [mulDV, ho]
    rw [this]; exact key _
  · have : (divVD v o : M W Var) = (do v.setChain .divVD; pure v) := by simp [divVD, ho]
    rw [this]; exact key _

/-- **C15** for results of the same operation: if `r` has been computed as `x + d`, then `r + 0` and `0 + r` are `r` and
nothing at all changes; likewise `r - 0` for `r = x - d`, `r * 1` and `1 * r` for `r = x * d`, and `r / 1` for
`r = x / d`.  Missing: operands computed otherwise, see `C15_refuted`. -/
theorem C15_same_partial (hr : Reach h c) {v : Var} (hv : v ∈ existing c.st) {z o d : R}
    (hz : fne z Arith.zero = false) (ho : fne o Arith.one = false) (hd0 : fne d Arith.zero = true)
    (hd1 : fne d Arith.one = true) (room : c.st.tape.head + 9 ≤ tapeLimit) :
    (∃ r s', (addVD v d : M W Var) c.st = .ok (r, s') ∧ (addVD r z : M W Var) s' = .ok (r, s') ∧
      (addDV z r : M W Var) s' = .ok (r, s')) ∧
    (∃ r s', (subVD v d : M W Var) c.st = .ok (r, s') ∧ (subVD r z : M W Var) s' = .ok (r, s')) ∧
    (∃ r s', (mulVD v d : M W Var) c.st = .ok (r, s') ∧ (mulVD r o : M W Var) s' = .ok (r, s') ∧
      (mulDV o r : M W Var) s' = .ok (r, s')) ∧
    ∃ r s', (divVD v d : M W Var) c.st = .ok (r, s') ∧ (divVD r o : M W Var) s' = .ok (r, s') := by
  obtain ⟨g, val, adj, G⟩ := hr.good
  have hh := (mem_existing G.inv).mp hv
  have hvh := G.inv.vhead
  have same : ∀ {nd : Node R} {x : R} {s' : St W}, Inv.Grown c.st g val adj nd x s' →
      (do Var.setChain ⟨c.st.vhead⟩ nd.chain; pure ⟨c.st.vhead⟩ : M W Var) s' = .ok (⟨c.st.vhead⟩, s') := by
    intro nd x s' gr
    have := gr.inv.setChain_same (v := ⟨c.st.vhead⟩) (nd := nd) (by rw [hvh]; exact Graph.at_last g _)
    rw [bind_ok this]; rfl
  refine ⟨?_, ?_, ?_, ?_⟩
  · obtain ⟨s', e, gr⟩ := G.inv.unary_ok hh (fun x => Arith.add x d) .addVD (by have : cap = tapeLimit := rfl; omega)
    have := same gr
    exact ⟨_, s', by simpa [addVD, hd0] using e, by simpa [addVD, hz] using this, by simpa [addDV, hz] using this⟩
  · obtain ⟨s', e, gr⟩ := G.inv.unary_ok hh (fun x => Arith.sub x d) .subVD (by have : cap = tapeLimit := rfl; omega)
    have := same gr
    exact ⟨_, s', by simpa [subVD, hd0] using e, by simpa [subVD, hz] using this⟩
  · obtain ⟨s', e, gr⟩ := G.inv.unaryData_ok hh (fun x => Arith.mul x d) d .mulVD (by have : cap = tapeLimit := rfl; omega)
    have := same gr
    exact ⟨_, s', by simpa [mulVD, hd1] using e, by simpa [mulVD, ho] using this, by simpa [mulDV, ho] using this⟩
  · obtain ⟨s', e, gr⟩ := G.inv.unaryData_ok hh (fun x => Arith.div x d) d .divVD (by have : cap = tapeLimit := rfl; omega)
    have := same gr
    exact ⟨_, s', by simpa [divVD, hd1] using e, by simpa [divVD, ho] using this⟩

/-- **C15 fails for products and quotients**: `x * 1.0`, `1.0 * x` and `x / 1.0` of any variable that does not hold
exactly one data item (an independent variable, or the result of a function) make every later sweep fail, from whatever
variable. -/
theorem C15_product_refuted (hr : Reach h c) {v : Var} (hv : v ∈ existing c.st) {o : R} (ho : fne o Arith.one = false)
    {q : View R} (hq : seen c.st v = .ok q) (hd : q.data.length ≠ 1) :
    ∀ m ∈ ([mulVD v o, mulDV o v, divVD v o] : List (M W Var)), ∃ s', m c.st = .ok (v, s') ∧
      ∀ w ∈ existing c.st, ∃ e, (w.grad : M W Unit) s' = .error e := by
  obtain ⟨g, val, adj, G⟩ := hr.good
  have hh := (mem_existing G.inv).mp hv
  obtain ⟨nd, h1, -⟩ := hh.at
  rw [G.inv.seen h1] at hq
  cases hq
  simp only [Node.view] at hd
  have key : ∀ ch : Chain, ch = .mulVD ∨ ch = .divVD → ∃ s', (do v.setChain ch; pure v : M W Var) c.st = .ok (v, s') ∧
      ∀ w ∈ existing c.st, ∃ e, (w.grad : M W Unit) s' = .error e := by
    intro ch hch
    obtain ⟨s', e, i, h2, h3, k⟩ := G.inv.setChain_ok h1 ch
    refine ⟨s', by rw [bind_ok e]; rfl, fun w hw => ?_⟩
    have hw := (mem_existing G.inv).mp hw
    have hn : ch.isNeutral := by
      rcases hch with rfl | rfl <;> simp [Chain.isNeutral]
    have hcok := (Evo.ofSetChain (φ := fun _ => True) h1 hn trivial i h3 k).cok G.cok
    cases hx : (w.grad : M W Unit) s' with
    | error e => exact ⟨e, rfl⟩
    | ok p =>
      exfalso
      obtain ⟨⟨⟩, s2⟩ := p
      obtain ⟨l, hl⟩ := (grad_run i (fun nd hn => Or.inl (hcok nd hn)) (hw.setChain _ _) hx).1 _ (setChain_mem h1 ch)
        adj
      have : (Node.contrib { nd with chain := ch } val adj) = none := by
        unfold Node.contrib
        cases hk : nd.kind with
        | plain =>
          have : ∀ f : R → R, cDat (nd.ops.map val).length f nd.dops = none := by
            intro f
            match hds : nd.dops, hd with
            | [], _ => rfl
            | [_], hd => exact absurd rfl hd
            | _ :: _ :: _, _ => rfl
          rcases hch with rfl | rfl <;> simp only [contribPlain] <;> exact this _
        | mmVV r c => rcases hch with rfl | rfl <;> simp
        | mmVD r c => rcases hch with rfl | rfl <;> simp
        | mmDV r c => rcases hch with rfl | rfl <;> simp
      rw [this] at hl
      cases hl
  intro m hm
  simp only [List.mem_cons, List.not_mem_nil, or_false] at hm
  rcases hm with rfl | rfl | rfl
  · have : (mulVD v o : M W Var) = (do v.setChain .mulVD; pure v) := by simp [mulVD, ho]
    rw [this]; exact key _ (Or.inl rfl)
  · have : (mulDV o v : M W Var) = (do v.setChain .mulVD; pure v) := by simp [mulDV, ho]
    rw [this]; exact key _ (Or.inl rfl)
  · have : (divVD v o : M W Var) = (do v.setChain .divVD; pure v) := by simp [divVD, ho]
    rw [this]; exact key _ (Or.inr rfl)

end generic

section real
variable {W : Type} [Rep W ℝ] [LawfulRep W ℝ]
variable {h : List (Call ℝ)} {c : Client W} {u : Var} {b : Var → ℝ}

theorem real_fne_self (x : ℝ) : fne x x = false := by simp [fne, Arith.feq]

/-- a new propagation rule on a record without operands -/
theorem leaf_rechain (hr : Reach h c) {v : Var} (hv : v ∈ existing c.st) {x a : ℝ} {ds : List ℝ}
    (hq : seen c.st v = .ok (⟨x, a, [], ds⟩ : View ℝ)) (hu : u ∈ existing c.st) (hb : Rates c.st u b) {ch : Chain}
    (hch : ch = .addVD ∨ ch = .subVD ∨ ch = .hypot) :
    ∃ s', (do v.setChain ch; pure v : M W Var) c.st = .ok (v, s') ∧ Gives c.st s' v x u (b v) := by
  obtain ⟨g, val, adj, D, ε, G, H, hD⟩ := rated hr hu hb
  have hh := (mem_existing G.inv).mp hv
  obtain ⟨nd, h1, h2⟩ := hh.at
  rw [G.inv.seen h1] at hq
  obtain ⟨q1, q2, q3, q4⟩ := (View.mk.injEq ..).mp (Except.ok.inj hq)
  have hk : nd.kind = .plain := by
    have := G.inv.wf.kinds nd h1.mem
    cases hk : nd.kind with
    | plain => rfl
    | mmVV r c => simp [KindOK, hk, q3] at this
    | mmVD r c => simp [KindOK, hk, q3] at this
    | mmDV r c => simp [KindOK, hk, q3] at this
  have ha : nd.args = [] := by simp [Node.args, hk, q3]
  have hfit : Node.Fits { nd with chain := ch } val := by
    intro adj
    rcases hch with rfl | rfl | rfl <;> simp [Node.contrib, hk, q3, contribPlain, cAll]
  obtain ⟨s', e, gv⟩ := H.rechain h1 (c := ch) (fun adj' l hl => by
    obtain ⟨l', hl'⟩ := H.fits nd h1.mem adj'
    have := H.sim.rules nd h1.mem adj' l' hl'
    have ha' : Node.args { nd with chain := ch } = [] := ha
    rw [ha, zsum_nil'] at this
    rw [ha', zsum_nil']
    exact this) hfit
  refine ⟨s', by rw [bind_ok e]; rfl, ?_⟩
  rw [q1, h2, hD v hv] at gv
  exact gv

/-- **C15** for variables without operands (independent variables): `x + 0.0`, `0.0 + x` and `x - 0.0` have the value
and the derivative of `x`, and no derivative changes.  Missing: other operands, see `C15_exp` and `C15_refuted`. -/
theorem C15_leaf_partial (hr : Reach h c) {v : Var} (hv : v ∈ existing c.st) {x a : ℝ} {ds : List ℝ}
    (hq : seen c.st v = .ok (⟨x, a, [], ds⟩ : View ℝ)) (hu : u ∈ existing c.st) (hb : Rates c.st u b) :
    ∀ m ∈ ([addVD v (0:ℝ), addDV (0:ℝ) v, subVD v (0:ℝ)] : List (M W Var)),
      ∃ s', m c.st = .ok (v, s') ∧ Gives c.st s' v x u (b v) := by
  have hz : fne (0:ℝ) Arith.zero = false := real_fne_self 0
  intro m hm
  simp only [List.mem_cons, List.not_mem_nil, or_false] at hm
  rcases hm with rfl | rfl | rfl
  · have : (addVD v (0:ℝ) : M W Var) = (do v.setChain .addVD; pure v) := by simp [addVD, hz]
    rw [this]; exact leaf_rechain hr hv hq hu hb (by simp)
  · have : (addDV (0:ℝ) v : M W Var) = (do v.setChain .addVD; pure v) := by simp [addDV, hz]
    rw [this]; exact leaf_rechain hr hv hq hu hb (by simp)
  · have : (subVD v (0:ℝ) : M W Var) = (do v.setChain .subVD; pure v) := by simp [subVD, hz]
    rw [this]; exact leaf_rechain hr hv hq hu hb (by simp)

/-- a function of one operand, and then another propagation rule for its result -/
theorem unary_rechain (hr : Reach h c) {v : Var} (hv : v ∈ existing c.st) {x : ℝ}
    (hx : (v.val : M W ℝ) c.st = .ok (x, c.st)) (f : ℝ → ℝ) (ch ch' : Chain) {y k : ℝ} (hy : f x = y)
    (hl : Local ch' y [x] [] [k]) (room : c.st.tape.head + 7 ≤ tapeLimit) (hu : u ∈ existing c.st)
    (hb : Rates c.st u b) {m : Var → M W Var} (hm : ∀ (r : Var) (s' : St W), (r.val : M W ℝ) s' = .ok (y, s') →
      m r s' = (do r.setChain ch'; pure r : M W Var) s') :
    ∃ r s', (do let r ← unary f ch v; m r : M W Var) c.st = .ok (r, s') ∧ Gives c.st s' r y u (k * b v) := by
  obtain ⟨r, s', e, g⟩ := record_gives (vs := [v]) (ys := [x]) (m := do let r ← unary f ch v; m r) (x := y) (ds := [])
    (coefs := [k]) (ch := ch') hr (by simpa using hv) (vals_one hx) (fun g val adj hi hh he => by
      obtain ⟨s', e, gr⟩ := hi.unary_ok (hh v (by simp)) f ch room
      simp only [List.map_cons, List.map_nil, List.cons.injEq, and_true] at he
      rw [he, hy] at gr
      obtain ⟨s'', e', gr'⟩ := gr.rechain hi ch'
      refine ⟨s'', ?_, gr'⟩
      rw [bind_ok e, hm _ _ ?_, bind_ok e']
      · rfl
      · have hvh := hi.vhead
        rw [gr.inv.varVal (by rw [hvh]; exact g.has_last _)]
        have : (g.push ⟨c.st.tape.head, [g.pos v], [], ch, .plain⟩).pos ⟨c.st.vhead⟩ = c.st.tape.head := by
          rw [hvh]; exact g.pos_last _
        rw [this, upd_self]) hl hu hb
  exact ⟨r, s', e, by simpa using g⟩

/-- **C15**, how it fails for a computed operand: in every state, `exp(x) + 0.0`, `0.0 + exp(x)` and `exp(x) - 0.0` have
the right value, but the derivative of `x` in place of that of `exp(x)`. -/
theorem C15_exp (hr : Reach h c) {v : Var} (hv : v ∈ existing c.st) {x : ℝ}
    (hx : (v.val : M W ℝ) c.st = .ok (x, c.st)) (room : c.st.tape.head + 7 ≤ tapeLimit) (hu : u ∈ existing c.st)
    (hb : Rates c.st u b) :
    ∀ f ∈ ([fun r => addVD r (0:ℝ), fun r => addDV (0:ℝ) r, fun r => subVD r (0:ℝ)] : List (Var → M W Var)),
      ∃ r s', (do let r ← expV (R := ℝ) v; f r : M W Var) c.st = .ok (r, s') ∧
        Gives c.st s' r (Real.exp x) u (b v) := by
  have hz : fne (0:ℝ) Arith.zero = false := real_fne_self 0
  have key : ∀ (m : Var → M W Var) (ch' : Chain), ch' = .addVD ∨ ch' = .subVD →
      (∀ r, m r = (do r.setChain ch'; pure r)) →
      ∃ r s', (do let r ← expV (R := ℝ) v; m r : M W Var) c.st = .ok (r, s') ∧
        Gives c.st s' r (Real.exp x) u (b v) := by
    intro m ch' hch hm
    obtain ⟨r, s', e, g⟩ := unary_rechain hr hv hx Real.exp .exp ch' (m := m) (k := 1) rfl
      (by
        intro a
        rcases hch with rfl | rfl <;> simp [contribPlain, cAll]) room hu hb
      fun r s' _ => by rw [hm r]
    exact ⟨r, s', e, by simpa using g⟩
  intro f hf
  simp only [List.mem_cons, List.not_mem_nil, or_false] at hf
  rcases hf with rfl | rfl | rfl
  · exact key _ .addVD (by simp) fun r => by simp [addVD, hz]
  · exact key _ .addVD (by simp) fun r => by simp [addDV, hz]
  · exact key _ .subVD (by simp) fun r => by simp [subVD, hz]

/-- **C15 is false of the code**: with `x = 2` and `y = exp(x)`, the derivative of `y` is `exp(2)`, the derivative of
`y + 0.0` is 1. -/
theorem C15_refuted : ∃ (c : Client W) (v : Var), Reach demo c ∧ v ∈ existing c.st ∧
    (v.val : M W ℝ) c.st = .ok (2, c.st) ∧
    (∃ r s', (expV (R := ℝ) v : M W Var) c.st = .ok (r, s') ∧ rate s' r v = .ok (Real.exp 2)) ∧
    (∃ r s', (do let r ← expV (R := ℝ) v; addVD r (0:ℝ) : M W Var) c.st = .ok (r, s') ∧ rate s' r v = .ok (1:ℝ)) ∧
    Real.exp 2 ≠ 1 := by
  obtain ⟨c, hr, hh, hex, h1, h2, h3, hb⟩ := demo_rates (W := W)
  refine ⟨c, ⟨1⟩, hr, by simp [hex], h1, ?_, ?_, ?_⟩
  · obtain ⟨r, s', e, g⟩ := C01_unary hr .exp (v := ⟨1⟩) (by simp [hex]) h1 trivial (by rw [hh]; simp [tapeLimit, Un.cost])
      (by simp [hex]) hb (Real.hasDerivAt_exp 2)
    exact ⟨r, s', e, by simpa [demoB] using g.deriv⟩
  · obtain ⟨r, s', e, g⟩ := C15_exp hr (v := ⟨1⟩) (by simp [hex]) h1 (by rw [hh]; simp [tapeLimit]) (by simp [hex]) hb
      (fun r => addVD r (0:ℝ)) (by simp)
    exact ⟨r, s', e, by simpa [demoB] using g.deriv⟩
  · rw [ne_eq, Real.exp_eq_one_iff]; norm_num

/-! ## C17 -/

/-- **C17** for `hypot(x, 0.0)` with `x < 0`, however computed. -/
theorem C17_negative (hr : Reach h c) {v : Var} (hv : v ∈ existing c.st) {x : ℝ}
    (hx : (v.val : M W ℝ) c.st = .ok (x, c.st)) (h0 : x < 0) (room : c.st.tape.head + 7 ≤ tapeLimit)
    (hu : u ∈ existing c.st) (hb : Rates c.st u b) :
    ∃ r s', (hypotVD v (0:ℝ) : M W Var) c.st = .ok (r, s') ∧ Gives c.st s' r |x| u (-1 * b v) := by
  obtain ⟨r, s', e, g⟩ := unary_rechain hr hv hx (fun x => -x) .subDV .hypot
    (m := fun r => do r.setChain .hypot; pure r) (y := |x|) (k := -1) (abs_of_neg h0).symm
    (by
      intro a
      rw [abs_of_neg h0]
      simp only [contribPlain, List.map_cons, List.map_nil, Arith.mul, Arith.div, Option.some.injEq, List.cons.injEq,
        and_true]
      have := h0.ne
      field_simp) room hu hb fun _ _ _ => rfl
  refine ⟨r, s', ?_, g⟩
  rw [← e]
  have ha : (absV (R := ℝ) v : M W Var) c.st = (unary (fun x : ℝ => -x) .subDV v : M W Var) c.st := by
    unfold absV
    rw [bind_ok hx]
    simp only [fgt, Arith.flt, Arith.zero, h0, not_lt_of_gt h0, decide_false, decide_true, Bool.false_eq_true, if_false,
      if_true]
    rfl
  unfold hypotVD
  rw [if_neg (by simp [fne, Arith.feq, Arith.zero])]
  show Except.bind _ _ = Except.bind _ _
  rw [ha]

/-- **C17** for `hypot(x, 0.0)` and `hypot(0.0, x)` with `x > 0` and without operands.  Missing: computed operands, see
`C17_exp`, and `hypot(0.0, x)` for `x < 0`, see `C17_sign`. -/
theorem C17_leaf_partial (hr : Reach h c) {v : Var} (hv : v ∈ existing c.st) {x a : ℝ} {ds : List ℝ}
    (hq : seen c.st v = .ok (⟨x, a, [], ds⟩ : View ℝ)) (h0 : 0 < x) (hu : u ∈ existing c.st) (hb : Rates c.st u b) :
    (∃ r s', (hypotVD v (0:ℝ) : M W Var) c.st = .ok (r, s') ∧ Gives c.st s' r |x| u (1 * b v)) ∧
    ∃ r s', (hypotDV (0:ℝ) v : M W Var) c.st = .ok (r, s') ∧ Gives c.st s' r |x| u (1 * b v) := by
  obtain ⟨s', e, g⟩ := leaf_rechain hr hv hq hu hb (ch := .hypot) (by simp)
  rw [abs_of_pos h0, one_mul]
  refine ⟨⟨v, s', ?_, g⟩, v, s', ?_, g⟩
  · rw [← e]
    obtain ⟨gr, val, adj, G⟩ := hr.good
    have hh := (mem_existing G.inv).mp hv
    obtain ⟨nd, h1, h2⟩ := hh.at
    rw [G.inv.seen h1] at hq
    obtain ⟨q1, -⟩ := (View.mk.injEq ..).mp (Except.ok.inj hq)
    have hx := G.inv.varVal hh
    rw [← h2, q1] at hx
    have ha : (absV (R := ℝ) v : M W Var) c.st = .ok (v, c.st) := by
      unfold absV
      rw [bind_ok hx]
      simp [fgt, Arith.flt, Arith.zero, h0]
      rfl
    unfold hypotVD
    rw [if_neg (by simp [fne, Arith.feq, Arith.zero]), bind_ok ha]
  · rw [← e]
    unfold hypotDV
    rw [if_neg (by simp [fne, Arith.feq, Arith.zero])]
    rfl

/-- **C17**, how the value fails: `hypot(0.0, x)` returns `x` itself, its value is right only if `x` is not negative. -/
theorem C17_sign (hr : Reach h c) {v : Var} (hv : v ∈ existing c.st) {x : ℝ}
    (hx : (v.val : M W ℝ) c.st = .ok (x, c.st)) :
    ∃ s', (hypotDV (0:ℝ) v : M W Var) c.st = .ok (v, s') ∧ (v.val : M W ℝ) s' = .ok (x, s') ∧ (x = |x| ↔ 0 ≤ x) := by
  obtain ⟨g, val, adj, G⟩ := hr.good
  have hh := (mem_existing G.inv).mp hv
  obtain ⟨nd, h1, h2⟩ := hh.at
  obtain ⟨s', e, i, -⟩ := G.inv.setChain_ok h1 .hypot
  refine ⟨s', ?_, ?_, ?_⟩
  · unfold hypotDV
    rw [if_neg (by simp [fne, Arith.feq, Arith.zero])]
    show (do v.setChain .hypot; pure v : M W Var) c.st = _
    rw [bind_ok e]
    rfl
  · rw [G.inv.varVal hh] at hx
    cases hx
    rw [i.varVal (hh.setChain _ _), Graph.pos_setChain]
  · exact ⟨fun k => k ▸ abs_nonneg x, fun k => (abs_of_nonneg k).symm⟩

/-- **C17**, how the derivative fails for a computed operand: in every state, `hypot(exp(x), 0.0)` and
`hypot(0.0, exp(x))` have the right value `exp(x)`, but the derivative `x / exp(x)`, which is never that of `exp`. -/
theorem C17_exp (hr : Reach h c) {v : Var} (hv : v ∈ existing c.st) {x : ℝ}
    (hx : (v.val : M W ℝ) c.st = .ok (x, c.st)) (room : c.st.tape.head + 7 ≤ tapeLimit) (hu : u ∈ existing c.st)
    (hb : Rates c.st u b) :
    (∃ r s', (do let r ← expV (R := ℝ) v; hypotVD r (0:ℝ) : M W Var) c.st = .ok (r, s') ∧
      Gives c.st s' r (Real.exp x) u (x / Real.exp x * b v)) ∧
    (∃ r s', (do let r ← expV (R := ℝ) v; hypotDV (0:ℝ) r : M W Var) c.st = .ok (r, s') ∧
      Gives c.st s' r (Real.exp x) u (x / Real.exp x * b v)) ∧ x / Real.exp x ≠ Real.exp x := by
  have hl : Local .hypot (Real.exp x) [x] [] [x / Real.exp x] := by
    intro a
    simp only [contribPlain, List.map_cons, List.map_nil, Arith.mul, Arith.div, mul_div_assoc]
  refine ⟨unary_rechain hr hv hx Real.exp .exp .hypot rfl hl room hu hb fun r s' hy => ?_,
    unary_rechain hr hv hx Real.exp .exp .hypot rfl hl room hu hb fun r s' hy => ?_, fun k => ?_⟩
  · have ha : (absV (R := ℝ) r : M W Var) s' = .ok (r, s') := by
      unfold absV
      rw [bind_ok hy]
      simp [fgt, Arith.flt, Arith.zero, Real.exp_pos]
      rfl
    unfold hypotVD
    rw [if_neg (by simp [fne, Arith.feq, Arith.zero]), bind_ok ha]
  · unfold hypotDV
    rw [if_neg (by simp [fne, Arith.feq, Arith.zero])]
    rfl
  · rw [div_eq_iff (Real.exp_pos x).ne'] at k
    nlinarith [Real.add_one_le_exp x, Real.exp_pos x, sq_nonneg (Real.exp x - 1)]

/-- **C17 is false of the code**: with `x = 2` and `y = exp(x)`, `hypot(y, 0.0)` has derivative `2/exp(2)` instead of
`exp(2)`; and with `z = -x` (so `z = -2`), `hypot(0.0, z)` has value -2 instead of 2. -/
theorem C17_refuted : ∃ (c : Client W) (v : Var), Reach demo c ∧ v ∈ existing c.st ∧
    (v.val : M W ℝ) c.st = .ok (2, c.st) ∧
    (∃ r s', (do let r ← expV (R := ℝ) v; hypotVD r (0:ℝ) : M W Var) c.st = .ok (r, s') ∧
      rate s' r v = .ok (2 / Real.exp 2)) ∧ 2 / Real.exp 2 ≠ Real.exp 2 ∧
    ∃ r s', (do let r ← negV (R := ℝ) v; hypotDV (0:ℝ) r : M W Var) c.st = .ok (r, s') ∧
      (r.val : M W ℝ) s' = .ok (-2, s') := by
  obtain ⟨c, hr, hh, hex, h1, h2, h3, hb⟩ := demo_rates (W := W)
  have hroom : c.st.tape.head + 7 ≤ tapeLimit := by rw [hh]; simp [tapeLimit]
  obtain ⟨⟨r, s', e, g⟩, -, k⟩ := C17_exp hr (v := ⟨1⟩) (by simp [hex]) h1 hroom (by simp [hex]) hb
  refine ⟨c, ⟨1⟩, hr, by simp [hex], h1, ⟨r, s', e, by simpa [demoB] using g.deriv⟩, k, ?_⟩
  obtain ⟨r, s', e, g⟩ := unary_rechain hr (v := ⟨1⟩) (by simp [hex]) h1 (fun x => -x) .subDV .hypot
    (m := fun r => hypotDV (0:ℝ) r) (k := -1) rfl (by
      intro a
      simp only [contribPlain, List.map_cons, List.map_nil, Arith.mul, Arith.div, Option.some.injEq, List.cons.injEq,
        and_true]
      ring) hroom (by simp [hex]) hb fun r s' _ => by
        unfold hypotDV
        rw [if_neg (by simp [fne, Arith.feq, Arith.zero])]
        rfl
  exact ⟨r, s', e, g.value⟩

/-! ## concrete cases -/

/-- C15_value, C15_same_partial -/
example : ∃ c : Client ℝ, Reach demo c ∧ (⟨3⟩ : Var) ∈ existing c.st ∧ fne (0:ℝ) Arith.zero = false ∧
    fne (1:ℝ) Arith.one = false ∧ fne (5:ℝ) Arith.zero = true ∧ fne (5:ℝ) Arith.one = true ∧
    c.st.tape.head + 9 ≤ tapeLimit := by
  obtain ⟨c, hr, hh, hex, h1, h2, h3, hb⟩ := demo_rates (W := ℝ)
  refine ⟨c, hr, by simp [hex], real_fne_self 0, real_fne_self 1, ?_, ?_, by rw [hh]; simp [tapeLimit]⟩ <;>
    simp [fne, Arith.feq, Arith.zero, Arith.one]

/-- C15_leaf_partial, C15_product_refuted, C17_leaf_partial -/
example : ∃ (c : Client ℝ), Reach demo c ∧ (⟨1⟩ : Var) ∈ existing c.st ∧
    seen c.st ⟨1⟩ = .ok (⟨2, 3, [], []⟩ : View ℝ) ∧ Rates c.st ⟨1⟩ demoB := by
  obtain ⟨c, hr, hh, hex, h1, h2, h3, hb⟩ := demo_rates (W := ℝ)
  obtain ⟨c', hr', -, -, H⟩ := demo_here (W := ℝ)
  have : c' = c := Except.ok.inj (hr'.2.symm.trans hr.2)
  subst this
  refine ⟨c', hr, by simp [hex], ?_, hb⟩
  rw [H.inv.seen (nd := ⟨1, [], [], .dummy, .plain⟩) ⟨by simp, rfl⟩]
  simp [Node.view, demoV, demoA]

/-- C15_exp, C17_exp, C17_sign -/
example : ∃ c : Client ℝ, Reach demo c ∧ (⟨3⟩ : Var) ∈ existing c.st ∧ (⟨1⟩ : Var) ∈ existing c.st ∧
    ((⟨3⟩ : Var).val : M ℝ ℝ) c.st = .ok (6, c.st) ∧ c.st.tape.head + 7 ≤ tapeLimit ∧ Rates c.st ⟨1⟩ demoB := by
  obtain ⟨c, hr, hh, hex, h1, h2, h3, hb⟩ := demo_rates (W := ℝ)
  exact ⟨c, hr, by simp [hex], by simp [hex], h3, by rw [hh]; simp [tapeLimit], hb⟩

end real
end Props
