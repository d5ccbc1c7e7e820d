import Verif.Proof.Sweep
import Verif.Spec.Run
import Mathlib.Analysis.Calculus.FDeriv.Comp
import Mathlib.Analysis.Calculus.FDeriv.Add
import Mathlib.Analysis.Calculus.FDeriv.Mul
import Mathlib.Analysis.Calculus.Deriv.Comp

/-!
# Variables track functions

`Tracks x0 g val D v f`: the record of `v` holds the value of `f` at `x0` and the ghost tangent `D`
at its position is the derivative of `f` at `x0`.
-/

set_option linter.unusedSectionVars false

namespace Fz
open Arith

variable {W : Type} [Rep W ℝ] [LawfulRep W ℝ] {lf : Prop}
variable {E : Type} [NormedAddCommGroup E] [NormedSpace ℝ E]

/-- update of a family of functionals -/
def updV {V : Type} (f : Nat → V) (p : Nat) (x : V) : Nat → V := fun k => if k = p then x else f k

@[simp] theorem updV_self {V : Type} (f : Nat → V) (p : Nat) (x : V) : updV f p x p = x := by simp [updV]
theorem updV_ne {V : Type} (f : Nat → V) {p q : Nat} (x : V) (h : q ≠ p) : updV f p x q = f q := by
  simp [updV, h]

/-- the state represents a graph whose records obey the tangents `D`, up to the sources `ε` -/
structure Sim (s : St W) (g : Graph ℝ) (val adj : Nat → ℝ) (D ε : Nat → E →L[ℝ] ℝ) : Prop where
  inv : Inv s g val adj
  rules : ∀ nd ∈ g.nodes, Rule val D ε nd

/-- the variable `v` carries the function `f` near `x0` -/
structure Tracks (x0 : E) (g : Graph ℝ) (val : Nat → ℝ) (D : Nat → E →L[ℝ] ℝ) (v : Var) (f : E → ℝ) :
    Prop where
  has : g.Has v
  value : f x0 = val (g.pos v)
  deriv : HasFDerivAt f (D (g.pos v)) x0

/-- a record without operands, whose chain procedure is the one found in the table of `s` -/
def LeafOf (s : St W) (nd : Node ℝ) : Prop :=
  nd.ops = [] ∧ nd.dops = [] ∧ nd.kind = .plain ∧ ∃ k, s.vhead ≤ k ∧ nd.chain = (s.varis k).chain

/-- the state has grown from `s` to `s'` -/
structure Grows (lf : Prop) (s : St W) (g : Graph ℝ) (val adj : Nat → ℝ) (D ε : Nat → E →L[ℝ] ℝ)
    (s' : St W) (g' : Graph ℝ) (val' adj' : Nat → ℝ) (D' ε' : Nat → E →L[ℝ] ℝ) (words : Nat) : Prop where
  pre : g.Prefix g'
  val : ∀ p < s.tape.head, val' p = val p
  adj : ∀ p < s.tape.head, adj' p = adj p
  dd : ∀ p < s.tape.head, D' p = D p
  ee : ∀ p < s.tape.head, ε' p = ε p
  news : ∀ nd ∈ g'.nodes.drop g.nodes.length, s.tape.head ≤ nd.pos ∧ adj' nd.pos = 0 ∧ ε' nd.pos = 0 ∧
    (nd.Fits val' ∨ lf ∧ LeafOf s nd)
  keep : Keep s s'
  head : s'.tape.head = s.tape.head + words

variable {s s' s'' : St W} {g g' g'' : Graph ℝ} {val adj val' adj' val'' adj'' : Nat → ℝ}
  {D ε D' ε' D'' ε'' : Nat → E →L[ℝ] ℝ} {x0 : E}

theorem Inv.node_lt (h : Inv s g val adj) {nd : Node ℝ} (hn : nd ∈ g.nodes) : nd.pos < s.tape.head := by
  have := (h.wf.below nd hn).2
  simp only [Node.len] at this; omega

theorem Inv.has_lt (h : Inv s g val adj) {v : Var} (hv : g.Has v) : g.pos v < s.tape.head := by
  have := h.wf.pos_lt hv; omega

theorem Grows.refl (s : St W) (g : Graph ℝ) (val adj : Nat → ℝ) (D ε : Nat → E →L[ℝ] ℝ) :
    Grows lf s g val adj D ε s g val adj D ε 0 :=
  ⟨Graph.Prefix.refl g, fun _ _ => rfl, fun _ _ => rfl, fun _ _ => rfl, fun _ _ => rfl,
    fun nd hn => by simp at hn, Keep.refl s, rfl⟩

theorem Graph.Prefix.drop {g g' g'' : Graph ℝ} (h : g.Prefix g') (h' : g'.Prefix g'') :
    g''.nodes.drop g.nodes.length = g'.nodes.drop g.nodes.length ++ g''.nodes.drop g'.nodes.length := by
  obtain ⟨a, ha⟩ := h.nodes
  obtain ⟨b, hb⟩ := h'.nodes
  rw [← hb, ← ha, List.drop_left, List.append_assoc, List.drop_left, ← List.append_assoc,
    List.drop_left]

theorem Grows.trans {n m : Nat} (h : Grows lf s g val adj D ε s' g' val' adj' D' ε' n)
    (h' : Grows lf s' g' val' adj' D' ε' s'' g'' val'' adj'' D'' ε'' m) (i' : Inv s' g' val' adj') :
    Grows lf s g val adj D ε s'' g'' val'' adj'' D'' ε'' (n + m) := by
  have hh := h.head
  have hh' := h'.head
  refine ⟨h.pre.trans h'.pre, ?_, ?_, ?_, ?_, ?_, h.keep.trans h'.keep, by omega⟩
  · intro p hp; rw [h'.val p (by omega), h.val p hp]
  · intro p hp; rw [h'.adj p (by omega), h.adj p hp]
  · intro p hp; rw [h'.dd p (by omega), h.dd p hp]
  · intro p hp; rw [h'.ee p (by omega), h.ee p hp]
  · intro nd hn
    rw [h.pre.drop h'.pre] at hn
    rcases List.mem_append.mp hn with hn | hn
    · have hlt := i'.node_lt (List.mem_of_mem_drop hn)
      rw [h'.adj _ hlt, h'.ee _ hlt]
      obtain ⟨n1, n2, n3, n4⟩ := h.news nd hn
      refine ⟨n1, n2, n3, n4.imp_left fun f => Fits.congr f (h'.val _ hlt) fun p hp => h'.val _ ?_⟩
      have := (i'.wf.args nd (List.mem_of_mem_drop hn) p hp).1
      omega
    · obtain ⟨n1, n2, n3, n4⟩ := h'.news nd hn
      refine ⟨by omega, n2, n3, n4.imp_right fun ⟨l, a, b, c, k, hk, e⟩ => ⟨l, a, b, c, k, ?_, ?_⟩⟩
      · exact Nat.le_trans h.keep.vhead hk
      · rw [e, h.keep.slots k hk]

theorem Tracks.mono {n : Nat} (i : Inv s g val adj)
    (h : Grows lf s g val adj D ε s' g' val' adj' D' ε' n) {v : Var} {f : E → ℝ}
    (t : Tracks x0 g val D v f) : Tracks x0 g' val' D' v f := by
  have hlt := i.has_lt t.has
  have hp := h.pre.pos t.has
  exact ⟨h.pre.has t.has, by rw [hp, h.val _ hlt]; exact t.value, by rw [hp, h.dd _ hlt]; exact t.deriv⟩

/-- a record has been created, with tangent `d` and source `e` -/
theorem Sim.push (h : Sim s g val adj D ε) {nd : Node ℝ} {v : ℝ}
    (gr : Inv.Grown s g val adj nd v s') (hpos : nd.pos = s.tape.head) (d e : E →L[ℝ] ℝ)
    (hr : ∀ (adj' : Nat → ℝ) (l : List ℝ), nd.contrib (upd val nd.pos v) adj' = some l →
      adj' nd.pos • d = adj' nd.pos • e + zsum l nd.args D) :
    Sim s' (g.push nd) (upd val nd.pos v) (upd adj nd.pos 0) (updV D nd.pos d) (updV ε nd.pos e) := by
  have hargs : ∀ x ∈ g.nodes, ∀ p ∈ x.args, p ≠ nd.pos := by
    intro x hx p hp
    have h1 := (h.inv.wf.args x hx p hp).1
    have := h.inv.node_lt hx
    omega
  have hself : ∀ p ∈ nd.args, p ≠ nd.pos := by
    intro p hp
    have := (gr.inv.wf.args nd (by simp [Graph.push]) p hp).1
    omega
  refine ⟨gr.inv, ?_⟩
  intro x hx
  have hx' : x ∈ g.nodes ∨ x = nd := by simpa [Graph.push] using hx
  rcases hx' with hx' | rfl
  · have hne : x.pos ≠ nd.pos := by have := h.inv.node_lt hx'; omega
    exact (h.rules x hx').congr (upd_ne _ _ hne) (updV_ne _ _ hne) (updV_ne _ _ hne)
      (fun p hp => upd_ne _ _ (hargs x hx' p hp)) (fun p hp => updV_ne _ _ (hargs x hx' p hp))
  · intro adj' l e1
    have e2 := hr adj' l e1
    rw [updV_self, updV_self, zsum_congr l x.args (fun p hp => updV_ne D d (hself p hp))]
    exact e2

/-- growth by one record -/
theorem Sim.push_grows {nd : Node ℝ} {v : ℝ}
    (gr : Inv.Grown s g val adj nd v s') (hpos : nd.pos = s.tape.head) (d : E →L[ℝ] ℝ)
    (hfit : nd.Fits (upd val nd.pos v) ∨ lf ∧ LeafOf s nd) :
    Grows lf s g val adj D ε s' (g.push nd) (upd val nd.pos v) (upd adj nd.pos 0) (updV D nd.pos d)
      (updV ε nd.pos 0) nd.len := by
  refine ⟨(Graph.Prefix.refl g).push nd, ?_, ?_, ?_, ?_, ?_, gr.keep, gr.head⟩
  · intro p hp; exact upd_ne _ _ (by omega)
  · intro p hp; exact upd_ne _ _ (by omega)
  · intro p hp; exact updV_ne _ _ (by omega)
  · intro p hp; exact updV_ne _ _ (by omega)
  · intro x hx
    simp only [Graph.push, List.drop_left, List.mem_singleton] at hx
    subst hx
    exact ⟨by omega, by simp, by simp, hfit⟩

/-- the record passes on `a * cᵢ` to operand `i`, for every adjoint `a` -/
def Local (c : Chain) (v : ℝ) (xs ds : List ℝ) (coefs : List ℝ) : Prop :=
  ∀ a : ℝ, contribPlain c v a xs ds = some (coefs.map fun k => a * k)

theorem Local.rule {c : Chain} {v : ℝ} {ops : List Nat} {ds coefs : List ℝ} {p : Nat}
    (h : Local c v (ops.map val) ds coefs) (hne : ∀ o ∈ ops, o ≠ p) (D : Nat → E →L[ℝ] ℝ)
    (adj' : Nat → ℝ) :
    ∃ l, (⟨p, ops, ds, c, .plain⟩ : Node ℝ).contrib (upd val p v) adj' = some l ∧
      adj' p • zsum coefs ops D = adj' p • (0 : E →L[ℝ] ℝ) + zsum l ops D := by
  refine ⟨coefs.map fun k => adj' p * k, ?_, ?_⟩
  · show contribPlain c (upd val p v p) (adj' p) (ops.map (upd val p v)) ds = _
    rw [upd_self, List.map_congr_left (fun o ho => upd_ne val v (hne o ho))]
    exact h (adj' p)
  · rw [zsum_smul, smul_zero, zero_add]

/-- a plain operation on tracked variables: the result tracks `f` -/
theorem Sim.op (h : Sim s g val adj D ε) {vs : List Var} {ds : List ℝ} {c : Chain} {v : ℝ}
    {coefs : List ℝ} {f : E → ℝ} (hv : ∀ v ∈ vs, g.Has v)
    (gr : Inv.Grown s g val adj ⟨s.tape.head, vs.map g.pos, ds, c, .plain⟩ v s')
    (hl : Local c v (vs.map fun v => val (g.pos v)) ds coefs) (hf : f x0 = v)
    (hd : HasFDerivAt f (zsum coefs (vs.map g.pos) D) x0) :
    ∃ g' val' adj' D' ε', Sim s' g' val' adj' D' ε' ∧
      Grows lf s g val adj D ε s' g' val' adj' D' ε' (6 + vs.length + 2 * ds.length) ∧
      Tracks x0 g' val' D' ⟨s.vhead⟩ f := by
  have hne : ∀ o ∈ vs.map g.pos, o ≠ s.tape.head := by
    intro o ho
    obtain ⟨w, hw, rfl⟩ := List.mem_map.mp ho
    have := h.inv.has_lt (hv w hw); omega
  have hvh := h.inv.vhead
  have hr := Local.rule (c := c) (v := v) (ds := ds) (coefs := coefs) (val := val)
    (by rw [List.map_map]; exact hl) hne D
  have hg := Sim.push_grows (lf := lf) (D := D) (ε := ε) gr rfl (zsum coefs (vs.map g.pos) D)
    (Or.inl fun adj' => let ⟨l, e, _⟩ := hr adj'; ⟨l, e⟩)
  refine ⟨_, _, _, _, _, h.push gr rfl (zsum coefs (vs.map g.pos) D) 0 ?_, ?_, ?_, ?_, ?_⟩
  · intro adj' l e
    obtain ⟨l', e', h'⟩ := hr adj'
    have : l = l' := Option.some.inj (e.symm.trans e')
    rw [this]; exact h'
  · simpa [Node.len] using hg
  · rw [hvh]; exact Graph.has_last g _
  · rw [hvh, Graph.pos_last]; simp [hf]
  · rw [hvh, Graph.pos_last]; simpa using hd

end Fz
