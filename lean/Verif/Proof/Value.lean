import Verif.Proof.GradTop
import Verif.Proof.Rechain
import Verif.Spec.Value

/-!
# Values on the whole domain

Only the values of the records are followed here.  Where a step is differentiable the lemmas about
derivatives are used, with constant functions; the other cases are treated one by one.
-/

set_option linter.unusedSectionVars false

namespace Fz
open Arith Spec

variable {W : Type} [Rep W ℝ] [LawfulRep W ℝ]
variable {s s' s'' : St W} {g g' g'' : Graph ℝ} {val adj val' adj' val'' adj'' : Nat → ℝ}
  {env : List Var} {xs : List ℝ}

/-- the variables `env` have the values `xs` -/
structure VEnv (g : Graph ℝ) (val : Nat → ℝ) (env : List Var) (xs : List ℝ) : Prop where
  len : xs.length = env.length
  has : ∀ i < env.length, g.Has (lookV env i)
  value : ∀ i < env.length, val (g.pos (lookV env i)) = look xs i

/-- everything that existed in `g` still exists, with the same value -/
structure VKeep (g : Graph ℝ) (val : Nat → ℝ) (g' : Graph ℝ) (val' : Nat → ℝ) : Prop where
  has : ∀ v, g.Has v → g'.Has v
  value : ∀ v, g.Has v → val' (g'.pos v) = val (g.pos v)

theorem VEnv.mono (h : VEnv g val env xs) (k : VKeep g val g' val') : VEnv g' val' env xs :=
  ⟨h.len, fun i hi => k.has _ (h.has i hi), fun i hi => by rw [k.value _ (h.has i hi)]; exact h.value i hi⟩

theorem VEnv.snoc (h : VEnv g val env xs) {v : Var} {x : ℝ} (hv : g.Has v) (hx : val (g.pos v) = x) :
    VEnv g val (env ++ [v]) (xs ++ [x]) := by
  have hl := h.len
  have key : ∀ i < (env ++ [v]).length, g.Has (lookV (env ++ [v]) i) ∧
      val (g.pos (lookV (env ++ [v]) i)) = look (xs ++ [x]) i := by
    intro i hi
    by_cases hlt : i < env.length
    · rw [lookV_append_left hlt, look_append_left (by omega)]
      exact ⟨h.has i hlt, h.value i hlt⟩
    · have hi' : i = env.length := by simp only [List.length_append, List.length_singleton] at hi; omega
      subst hi'
      have e1 : lookV (env ++ [v]) env.length = v := by simp [lookV]
      have e2 : look (xs ++ [x]) env.length = x := by rw [← hl]; simp [look]
      rw [e1, e2]
      exact ⟨hv, hx⟩
  exact ⟨by simp [hl], fun i hi => (key i hi).1, fun i hi => (key i hi).2⟩

/-- the state `s'` has at most `n` more words, and `env` has the values `xs` in it -/
def VStep (s s' : St W) (n : Nat) (env : List Var) (xs : List ℝ) : Prop :=
  ∃ g' val' adj', Inv s' g' val' adj' ∧ VEnv g' val' env xs ∧ s'.tape.head ≤ s.tape.head + n

/-- the same for one variable -/
def VOne (s : St W) (g : Graph ℝ) (val : Nat → ℝ) (s' : St W) (n : Nat) (v : Var) (x : ℝ) : Prop :=
  ∃ g' val' adj', Inv s' g' val' adj' ∧ VKeep g val g' val' ∧ g'.Has v ∧ val' (g'.pos v) = x ∧
    s'.tape.head ≤ s.tape.head + n

theorem vstep_one (te : VEnv g val env xs) {m : M W Var} {n : Nat} {x : ℝ}
    (hm : ∃ v s', m s = .ok (v, s') ∧ VOne s g val s' n v x) :
    ∃ vs s', Spec.one m s = .ok (vs, s') ∧ VStep s s' n (env ++ vs) (xs ++ [x]) := by
  obtain ⟨v, s', e, g', val', adj', i, k, hv, hx, hh⟩ := hm
  refine ⟨[v], s', ?_, g', val', adj', i, (te.mono k).snoc hv hx, hh⟩
  unfold Spec.one
  rw [bind_ok e]; rfl

theorem vone_same (h : Inv s g val adj) {v : Var} (hv : g.Has v) {x : ℝ} (hx : val (g.pos v) = x) (n : Nat) :
    VOne s g val s n v x :=
  ⟨g, val, adj, h, ⟨fun _ h => h, fun _ _ => rfl⟩, hv, hx, by omega⟩

theorem vone_grown (h : Inv s g val adj) {nd : Node ℝ} {x : ℝ} (hpos : nd.pos = s.tape.head)
    (gr : Inv.Grown s g val adj nd x s') {n : Nat} (hn : nd.len ≤ n) : VOne s g val s' n ⟨s.vhead⟩ x := by
  have hvh := h.vhead
  refine ⟨_, _, _, gr.inv, ⟨fun v hv => ((Graph.Prefix.refl g).push nd).has hv, fun v hv => ?_⟩, ?_, ?_, ?_⟩
  · rw [((Graph.Prefix.refl g).push nd).pos hv]
    exact upd_ne _ _ (by have := h.has_lt hv; omega)
  · rw [hvh]; exact Graph.has_last g _
  · rw [hvh, Graph.pos_last]; simp
  · rw [gr.head]; omega

theorem vone_unary (h : Inv s g val adj) {v : Var} (hv : g.Has v) (f : ℝ → ℝ) (c : Chain) {n : Nat} (hn : 7 ≤ n)
    (hcap : s.tape.head + n ≤ cap) :
    ∃ w s', (unary f c v : M W Var) s = .ok (w, s') ∧ VOne s g val s' n w (f (val (g.pos v))) := by
  obtain ⟨s', e, gr⟩ := h.unary_ok hv f c (by omega)
  exact ⟨_, s', e, vone_grown h rfl gr (by simpa [Node.len] using hn)⟩

theorem vone_binary (h : Inv s g val adj) {v w : Var} (hv : g.Has v) (hw : g.Has w) (f : ℝ → ℝ → ℝ) (c : Chain)
    (hcap : s.tape.head + 8 ≤ cap) :
    ∃ r s', (binary f c v w : M W Var) s = .ok (r, s') ∧ VOne s g val s' 8 r (f (val (g.pos v)) (val (g.pos w))) := by
  obtain ⟨s', e, gr⟩ := h.binary_ok hv hw f c hcap
  exact ⟨_, s', e, vone_grown h rfl gr (by simp [Node.len])⟩

theorem vone_data (h : Inv s g val adj) {v : Var} (hv : g.Has v) (f : ℝ → ℝ) (d : ℝ) (c : Chain)
    (hcap : s.tape.head + 9 ≤ cap) :
    ∃ w s', (unaryData f d c v : M W Var) s = .ok (w, s') ∧ VOne s g val s' 9 w (f (val (g.pos v))) := by
  obtain ⟨s', e, gr⟩ := h.unaryData_ok hv f d c hcap
  exact ⟨_, s', e, vone_grown h rfl gr (by simp [Node.len])⟩

theorem VKeep.setChain (g : Graph ℝ) (val : Nat → ℝ) (i : Nat) (c : Chain) :
    VKeep g val (g.setChain i c) val := by
  have key : ∀ v, g.Has v → (g.setChain i c).Has v ∧ (g.setChain i c).pos v = g.pos v := by
    intro v hv
    have hh : (g.setChain i c).Has v := by
      obtain ⟨h1, h2⟩ := hv
      exact ⟨h1, by simpa [Graph.setChain] using h2⟩
    refine ⟨hh, ?_⟩
    obtain ⟨nd, h1, h2⟩ := hv.at
    have h3 := Graph.setChain_at (v := ⟨i + 1⟩) h1 c
    simp only [Nat.add_sub_cancel] at h3
    obtain ⟨nd', h4, h5⟩ := hh.at
    rw [← h2, ← h5]
    have := h4.2.symm.trans h3.2
    injection this with this
    rw [this]
    split <;> rfl
  exact ⟨fun v hv => (key v hv).1, fun v hv => by rw [(key v hv).2]⟩

theorem VKeep.trans (h : VKeep g val g' val') (h' : VKeep g' val' g'' val'') : VKeep g val g'' val'' :=
  ⟨fun v hv => h'.has v (h.has v hv), fun v hv => by rw [h'.value v (h.has v hv), h.value v hv]⟩

theorem vone_eq {m : M W Var} {n : Nat} {x y : ℝ} (hm : ∃ v s', m s = .ok (v, s') ∧ VOne s g val s' n v x) (he : x = y) :
    ∃ v s', m s = .ok (v, s') ∧ VOne s g val s' n v y := he ▸ hm

/-- the chain pointer of the result is replaced -/
theorem VOne.setChain {n : Nat} {v : Var} {x : ℝ} (h : VOne s g val s' n v x) (c : Chain) :
    ∃ s'', (v.setChain c : M W Unit) s' = .ok ((), s'') ∧ VOne s g val s'' n v x := by
  obtain ⟨g', val', adj', i, k, hv, hx, hh⟩ := h
  obtain ⟨nd, h1, h2⟩ := hv.at
  obtain ⟨s'', e, i', -, ht, -⟩ := i.setChain_ok h1 c
  have k' := VKeep.setChain g' val' (v.vi - 1) c
  exact ⟨s'', e, _, _, _, i', k.trans k', k'.has _ hv, by rw [k'.value _ hv]; exact hx, by rw [ht]; exact hh⟩

/-- the variable itself is returned, with a new chain pointer -/
theorem vone_rechain (h : Inv s g val adj) {v : Var} (hv : g.Has v) (c : Chain) (n : Nat) {x : ℝ}
    (hx : val (g.pos v) = x) :
    ∃ w s', (do v.setChain c; pure v : M W Var) s = .ok (w, s') ∧ VOne s g val s' n w x := by
  obtain ⟨s', e, st⟩ := (vone_same h hv hx n).setChain c
  exact ⟨v, s', by rw [bind_ok e]; rfl, st⟩

/-- a differentiable instruction -/
theorem instr_value_ok (h : Inv s g val adj) (te : VEnv g val env xs) (i : Instr) (hok : i.Ok xs)
    (hcap : s.tape.head + i.cost xs ≤ cap) :
    ∃ vs s', (i.run env : M W (List Var)) s = .ok (vs, s') ∧
      VStep s s' (i.cost xs) (env ++ vs) (xs ++ i.sem xs) := by
  have sim : Sim (E := ℝ) s g val adj (fun _ => 0) (fun _ => 0) :=
    ⟨h, fun nd _ adj' l _ => by simp [zsum_zero]⟩
  have et : EnvTracks (0:ℝ) g val (fun _ => (0 : ℝ →L[ℝ] ℝ)) env (fun _ => xs) :=
    ⟨fun _ => te.len, fun k hk => ⟨te.has k hk, (te.value k hk).symm, hasFDerivAt_const _ _⟩⟩
  obtain ⟨vs, s', e, g', val', adj', D', ε', sim', gr, te'⟩ :=
    instr_step (lf := True) sim et i hok hcap (fun _ => trivial)
  exact ⟨vs, s', e, g', val', adj', sim'.inv,
    ⟨te'.len 0, fun k hk => (te'.tr k hk).has, fun k hk => (te'.tr k hk).value.symm⟩, gr.head.le⟩

theorem value_abs (h : Inv s g val adj) {v : Var} (hv : g.Has v) {n : Nat} (hn : 0 < val (g.pos v) ∨ 7 ≤ n)
    (hcap : s.tape.head + n ≤ cap) :
    ∃ w s', (absV v : M W Var) s = .ok (w, s') ∧ VOne s g val s' n w |val (g.pos v)| := by
  have hval := h.varVal hv
  unfold absV
  rw [bind_ok hval]
  by_cases hp : 0 < val (g.pos v)
  · rw [if_pos (by simpa using hp)]
    exact ⟨v, s, rfl, vone_same h hv (abs_of_pos hp).symm _⟩
  rw [if_neg (by simpa using hp)]
  have hn7 : 7 ≤ n := hn.resolve_left hp
  by_cases hm : val (g.pos v) < 0
  · rw [if_pos (by simpa using hm), abs_of_neg hm]
    exact vone_unary h hv _ _ hn7 hcap
  · have h0 : val (g.pos v) = 0 := le_antisymm (not_lt.mp hp) (not_lt.mp hm)
    rw [if_neg (by simpa using hm), if_pos (by simpa using h0), h0, abs_zero]
    obtain ⟨s', e, gr⟩ := h.newVar0_ok (by omega)
    exact ⟨_, s', e, vone_grown h rfl gr (by simp [Node.len]; omega)⟩

theorem value_un (h : Inv s g val adj) {v : Var} (hv : g.Has v) (u : Un)
    (hd : u.vdom (val (g.pos v))) (hnd : ¬ u.dom (val (g.pos v))) (hcap : s.tape.head + u.cost (val (g.pos v)) ≤ cap) :
    ∃ w s', (u.api v : M W Var) s = .ok (w, s') ∧ VOne s g val s' (u.cost (val (g.pos v))) w (u.fn (val (g.pos v))) := by
  cases u
  case abs =>
    refine value_abs h hv ?_ hcap
    unfold Un.cost
    by_cases hp : 0 < val (g.pos v)
    · exact Or.inl hp
    · right; simp [hp]
  case asin => exact vone_unary h hv Arith.asin .asin (Nat.le_refl 7) hcap
  case acos => exact vone_unary h hv Arith.acos .acos (Nat.le_refl 7) hcap
  case sqrt => exact vone_unary h hv Arith.sqrt .sqrt (Nat.le_refl 7) hcap
  all_goals exact absurd hd hnd

theorem value_powVD (h : Inv s g val adj) {v : Var} (hv : g.Has v) (d : ℝ) (hd : powDom (val (g.pos v)) d) (h2 : d ≠ -2)
    (hcap : s.tape.head + Bin.pow.costVD d ≤ cap) :
    ∃ w s', (powVD v d : M W Var) s = .ok (w, s') ∧ VOne s g val s' (Bin.pow.costVD d) w (val (g.pos v) ^ d) := by
  have half : ∀ {r : ℝ}, 0 < r → r < 1 → ¬ ∃ n : ℤ, r = n := by
    rintro r h0 h1 ⟨n, rfl⟩
    have h0' : 0 < n := by exact_mod_cast h0
    have h1' : n < 1 := by exact_mod_cast h1
    omega
  unfold powVD
  unfold Bin.costVD at hcap ⊢
  simp only at hcap ⊢
  by_cases c1 : d = 1 / 2
  · subst c1
    rw [if_pos (by simp)]
    rw [if_neg (by norm_num), if_pos (Or.inl rfl)] at hcap ⊢
    exact vone_eq (vone_unary h hv Arith.sqrt .sqrt (Nat.le_refl 7) hcap) (Real.sqrt_eq_rpow _)
  rw [if_neg (by simpa using c1)]
  by_cases c2 : d = 1
  · subst c2
    rw [if_pos (by simp)]
    exact ⟨v, s, rfl, vone_same h hv (Real.rpow_one _).symm _⟩
  rw [if_neg (by simpa using c2)]
  rw [if_neg c2] at hcap ⊢
  by_cases c3 : d = 2
  · subst c3
    rw [if_pos (by simp)]
    rw [if_pos (by simp)] at hcap ⊢
    exact vone_eq (vone_unary h hv (fun x => x *. x) .sq (Nat.le_refl 7) hcap)
      (by rw [rMul, Real.rpow_two, pow_two])
  rw [if_neg (by simpa using c3), if_neg (by simpa using h2)]
  by_cases c4 : d = -1
  · subst c4
    rw [if_pos (by simp)]
    rw [if_pos (by simp)] at hcap ⊢
    exact vone_eq (vone_unary h hv (fun x => Arith.one /. x) .inv (Nat.le_refl 7) hcap)
      (by rw [rDiv, rOne, one_div, Real.rpow_neg_one])
  rw [if_neg (by simpa using c4)]
  by_cases c5 : d = -(1 / 2)
  · subst c5
    rw [if_pos (by simp)]
    rw [if_pos (by simp)] at hcap ⊢
    have hx : 0 < val (g.pos v) := by
      rcases hd with h | h | h
      · exact h
      · norm_num at h
      · obtain ⟨n, hn⟩ := h.2
        exact absurd ⟨-n, by push_cast; linarith⟩ (half (r := 1 / 2) (by norm_num) (by norm_num))
    exact vone_eq (vone_unary h hv (fun x => Arith.one /. Arith.sqrt x) .isqrt (Nat.le_refl 7) hcap)
      (by rw [rDiv, rOne, rSqrt, one_div, Real.sqrt_eq_rpow, ← Real.rpow_neg hx.le])
  rw [if_neg (by simpa using c5)]
  rw [if_neg (by tauto)] at hcap ⊢
  exact vone_data h hv (fun x => Arith.pow x d) d .powVD hcap

theorem value_binVD (h : Inv s g val adj) {v : Var} (hv : g.Has v) (b : Bin) (d : ℝ)
    (hd : b.vdomVD (val (g.pos v)) d) (hcap : s.tape.head + b.costVD d ≤ cap) :
    ∃ w s', (b.apiVD v d : M W Var) s = .ok (w, s') ∧ VOne s g val s' (b.costVD d) w (b.fn (val (g.pos v)) d) := by
  cases b with
  | add =>
    simp only [Bin.apiVD, addVD, Bin.fn]
    by_cases c : d = 0
    · rw [if_neg (by simpa using c)]
      exact vone_rechain h hv _ _ (by rw [c, add_zero])
    · rw [if_pos (by simpa using c)]
      exact vone_unary h hv _ _ (Nat.le_refl 7) hcap
  | sub =>
    simp only [Bin.apiVD, subVD, Bin.fn]
    by_cases c : d = 0
    · rw [if_neg (by simpa using c)]
      exact vone_rechain h hv _ _ (by rw [c, sub_zero])
    · rw [if_pos (by simpa using c)]
      exact vone_unary h hv _ _ (Nat.le_refl 7) hcap
  | mul =>
    simp only [Bin.apiVD, mulVD, Bin.fn]
    by_cases c : d = 1
    · rw [if_neg (by simpa using c)]
      exact vone_rechain h hv _ _ (by rw [c, mul_one])
    · rw [if_pos (by simpa using c)]
      exact vone_data h hv _ _ _ hcap
  | div =>
    simp only [Bin.apiVD, divVD, Bin.fn]
    by_cases c : d = 1
    · rw [if_neg (by simpa using c)]
      exact vone_rechain h hv _ _ (by rw [c, div_one])
    · rw [if_pos (by simpa using c)]
      exact vone_data h hv _ _ _ hcap
  | pow => exact value_powVD h hv d hd.1 hd.2 hcap
  | hypot =>
    simp only [Bin.apiVD, hypotVD, Bin.fn]
    have fin : ∀ {m : M W Var} {x : ℝ}, (∃ w s', m s = .ok (w, s') ∧ VOne s g val s' 7 w x) →
        ∃ w s', (do let s ← m; s.setChain .hypot; pure s : M W Var) s = .ok (w, s') ∧ VOne s g val s' 7 w x := by
      rintro m x ⟨w, s1, e1, st1⟩
      obtain ⟨s2, e2, st2⟩ := st1.setChain .hypot
      exact ⟨w, s2, by rw [bind_ok e1, bind_ok e2]; rfl, st2⟩
    by_cases c : d = 0
    · rw [if_neg (by simpa using c), c, zero_pow two_ne_zero, add_zero, Real.sqrt_sq_eq_abs]
      exact fin (value_abs h hv (Or.inr (Nat.le_refl 7)) hcap)
    · rw [if_pos (by simpa using c)]
      obtain ⟨s', e, gr⟩ := h.newOp (vs := [v]) (by simpa using hv) (Arith.hypot (val (g.pos v)) d) .hypot hcap
      refine ⟨_, s', ?_, vone_grown h rfl gr (by simp [Node.len, Bin.costVD])⟩
      rw [bind_ok (h.varVal hv)]
      exact e

theorem value_binDV (h : Inv s g val adj) {v : Var} (hv : g.Has v) (b : Bin) (d : ℝ)
    (hd : b.vdomDV d (val (g.pos v))) (hcap : s.tape.head + b.costDV ≤ cap) :
    ∃ w s', (b.apiDV d v : M W Var) s = .ok (w, s') ∧ VOne s g val s' b.costDV w (b.fn d (val (g.pos v))) := by
  cases b with
  | add =>
    simp only [Bin.apiDV, addDV, Bin.fn]
    by_cases c : d = 0
    · rw [if_neg (by simpa using c)]
      exact vone_rechain h hv _ _ (by rw [c, zero_add])
    · rw [if_pos (by simpa using c)]
      exact vone_unary h hv _ _ (Nat.le_refl 7) hcap
  | sub => exact vone_unary h hv _ _ (Nat.le_refl 7) hcap
  | mul =>
    simp only [Bin.apiDV, mulDV, Bin.fn]
    by_cases c : d = 1
    · rw [if_neg (by simpa using c)]
      exact vone_rechain h hv _ _ (by rw [c, one_mul])
    · rw [if_pos (by simpa using c)]
      exact vone_eq (vone_data h hv (fun x => x *. d) d .mulVD hcap) (by rw [rMul, mul_comm])
  | div => exact vone_data h hv (fun x => d /. x) d .divDV hcap
  | pow => exact vone_data h hv (fun x => Arith.pow d x) d .powDV hcap
  | hypot =>
    simp only [Bin.apiDV, hypotDV, Bin.fn]
    by_cases c : d = 0
    · rw [if_neg (by simpa using c), c, zero_pow two_ne_zero, zero_add]
      have hx : 0 ≤ val (g.pos v) := hd.resolve_left (by simpa using c)
      obtain ⟨s2, e2, st2⟩ := (vone_same h hv (Real.sqrt_sq hx).symm 7).setChain .hypot
      exact ⟨v, s2, by rw [bind_ok (rfl : (pure v : M W Var) s = .ok (v, s)), bind_ok e2]; rfl, st2⟩
    · rw [if_pos (by simpa using c)]
      obtain ⟨s', e, gr⟩ := h.newOp (vs := [v]) (by simpa using hv) (Arith.hypot (val (g.pos v)) d) .hypot hcap
      refine vone_eq ⟨⟨s.vhead⟩, s', ?_, vone_grown h rfl gr (n := 7) (by simp [Node.len])⟩
        (by simp only [rHypot]; rw [add_comm])
      rw [bind_ok (h.varVal hv)]
      exact e

/-- an instruction inside its domain -/
theorem instr_value (h : Inv s g val adj) (te : VEnv g val env xs) (i : Instr) (hok : i.VOk xs)
    (hcap : s.tape.head + i.cost xs ≤ cap) :
    ∃ vs s', (i.run env : M W (List Var)) s = .ok (vs, s') ∧
      VStep s s' (i.cost xs) (env ++ vs) (xs ++ i.sem xs) := by
  by_cases hO : i.Ok xs
  · exact instr_value_ok h te i hO hcap
  have hl := te.len
  cases i with
  | un f i =>
    have hi : i < env.length := by rw [← hl]; exact hok.1
    have e := te.value i hi
    refine vstep_one te ?_
    have hd := hok.2
    have hn : ¬ f.dom (look xs i) := fun hd' => hO ⟨hok.1, hd'⟩
    simp only [Instr.cost] at hcap ⊢
    rw [← e] at hd hn hcap ⊢
    exact value_un h (te.has i hi) f hd hn hcap
  | bin f i j =>
    have hi : i < env.length := by rw [← hl]; exact hok.1
    have hj : j < env.length := by rw [← hl]; exact hok.2.1
    refine vstep_one te ?_
    rw [← te.value i hi, ← te.value j hj]
    cases f <;> exact vone_binary h (te.has i hi) (te.has j hj) _ _ hcap
  | binVD f i d =>
    have hi : i < env.length := by rw [← hl]; exact hok.1
    have hd := hok.2
    refine vstep_one te ?_
    rw [← te.value i hi] at hd ⊢
    exact value_binVD h (te.has i hi) f d hd hcap
  | binDV f d i =>
    have hi : i < env.length := by rw [← hl]; exact hok.1
    have hd := hok.2
    refine vstep_one te ?_
    rw [← te.value i hi] at hd ⊢
    exact value_binDV h (te.has i hi) f d hd hcap
  | norm2 is =>
    have hi : ∀ v ∈ is.map (lookV env), g.Has v := by
      intro v hv
      obtain ⟨i, hm, rfl⟩ := List.mem_map.mp hv
      exact te.has i (by rw [← hl]; exact hok i hm)
    have hz : ∀ i ∈ is, look xs i = 0 := by
      intro i hm
      by_contra hne
      exact hO ⟨hok, i, hm, hne⟩
    refine vstep_one te ?_
    obtain ⟨s', e, gr⟩ := h.reduceV_ok hi fnorm2 .norm2 (by simpa [Instr.cost] using hcap)
    refine vone_eq ⟨_, s', e, vone_grown h rfl gr (n := 6 + is.length) (by simp [Node.len])⟩ ?_
    rw [fnorm2_real, List.map_map, List.map_map]
    congr 2
    exact List.map_congr_left fun i hm => by
      simp only [Function.comp_apply]
      rw [te.value i (by rw [← hl]; exact hok i hm)]
  | partials φ dφ is =>
    have hi : ∀ v ∈ is.map (lookV env), g.Has v := by
      intro v hv
      obtain ⟨i, hm, rfl⟩ := List.mem_map.mp hv
      exact te.has i (by rw [← hl]; exact hok.1 i hm)
    have ev := h.varVals hi
    have e1 : ((is.map (lookV env)).map fun v => val (g.pos v)) = is.map (look xs) := by
      rw [List.map_map]; exact List.map_congr_left fun i hm => te.value i (by rw [← hl]; exact hok.1 i hm)
    rw [e1] at ev
    refine vstep_one te ?_
    obtain ⟨s', e, gr⟩ := h.varWithPartials_ok (φ (is.map (look xs))) hi (dφ (is.map (look xs)))
      (by rw [hok.2]; simp) (by simp only [Instr.cost] at hcap; simp; omega)
    refine ⟨_, s', by rw [bind_ok ev]; exact e, ?_⟩
    exact vone_grown h rfl gr (by have := hok.2; simp [Node.len, this, Instr.cost]; omega)
  | user φ r is ds =>
    have hi : ∀ v ∈ is.map (lookV env), g.Has v := by
      intro v hv
      obtain ⟨i, hm, rfl⟩ := List.mem_map.mp hv
      exact te.has i (by rw [← hl]; exact hok i hm)
    have ev := h.varVals hi
    have e1 : ((is.map (lookV env)).map fun v => val (g.pos v)) = is.map (look xs) := by
      rw [List.map_map]; exact List.map_congr_left fun i hm => te.value i (by rw [← hl]; exact hok i hm)
    rw [e1] at ev
    refine vstep_one te ?_
    obtain ⟨s', e, gr⟩ := h.userOp_ok (φ (is.map (look xs))) r hi ds
      (by simp only [Instr.cost] at hcap; simpa using hcap)
    refine ⟨_, s', by rw [bind_ok ev]; exact e, ?_⟩
    exact vone_grown h rfl gr (by simp [Node.len, Instr.cost])
  | _ => exact absurd hok hO

theorem prog_value : ∀ (p : Prog) {s : St W} {g : Graph ℝ} {val adj : Nat → ℝ} {env : List Var} {xs : List ℝ},
    Inv s g val adj → VEnv g val env xs → p.VOk xs → s.tape.head + p.cost xs ≤ cap →
    ∃ outs s' g' val' adj', (p.run env : M W (List Var)) s = .ok (outs, s') ∧ Inv s' g' val' adj' ∧
      (∀ v ∈ outs, g'.Has v) ∧ outs.map (fun v => val' (g'.pos v)) = p.sem xs ∧
      s'.tape.head ≤ s.tape.head + p.cost xs := by
  intro p
  induction p with
  | ret outs =>
    intro s g val adj env xs h te hok _
    have hm : ∀ i ∈ outs, i < env.length := fun i hi => by rw [← te.len]; exact hok i hi
    refine ⟨outs.map (lookV env), s, g, val, adj, rfl, h, ?_, ?_, by simp [Prog.cost]⟩
    · intro v hv
      obtain ⟨i, hi, rfl⟩ := List.mem_map.mp hv
      exact te.has i (hm i hi)
    · rw [List.map_map]
      exact List.map_congr_left fun i hi => te.value i (hm i hi)
  | op i k ih =>
    intro s g val adj env xs h te hok hcap
    simp only [Prog.cost] at hcap ⊢
    obtain ⟨vs, s1, e1, g1, val1, adj1, i1, te1, hh1⟩ := instr_value h te i hok.1 (by omega)
    obtain ⟨outs, s2, g2, val2, adj2, e2, i2, hv2, ho2, hh2⟩ := ih i1 te1 hok.2 (by omega)
    refine ⟨outs, s2, g2, val2, adj2, ?_, i2, hv2, ho2, by omega⟩
    simp only [Prog.run]
    rw [bind_ok e1]; exact e2
  | ifVV o i j p q ihp ihq =>
    intro s g val adj env xs h te hok hcap
    obtain ⟨h1, h2, hp, hq⟩ := hok
    have hi : i < env.length := by rw [← te.len]; exact h1
    have hj : j < env.length := by rw [← te.len]; exact h2
    have er := relVV_ok h (te.has i hi) (te.has j hj) o.op
    rw [te.value i hi, te.value j hj] at er
    simp only [Prog.cost] at hcap ⊢
    simp only [Prog.run, Prog.sem]
    rw [bind_ok er]
    by_cases hc : o.holds (look xs i) (look xs j)
    · rw [if_pos hc] at hcap ⊢
      rw [if_pos ((Rel.op_cmp _ _ _).mpr hc), if_pos hc]
      exact ihp h te (hp hc) hcap
    · rw [if_neg hc] at hcap ⊢
      rw [if_neg (fun hh => hc ((Rel.op_cmp _ _ _).mp hh)), if_neg hc]
      exact ihq h te (hq hc) hcap
  | ifVD o i d p q ihp ihq =>
    intro s g val adj env xs h te hok hcap
    obtain ⟨h1, hp, hq⟩ := hok
    have hi : i < env.length := by rw [← te.len]; exact h1
    have er := relVD_ok h (te.has i hi) o.op d
    rw [te.value i hi] at er
    simp only [Prog.cost] at hcap ⊢
    simp only [Prog.run, Prog.sem]
    rw [bind_ok er]
    by_cases hc : o.holds (look xs i) d
    · rw [if_pos hc] at hcap ⊢
      rw [if_pos ((Rel.op_cmp _ _ _).mpr hc), if_pos hc]
      exact ihp h te (hp hc) hcap
    · rw [if_neg hc] at hcap ⊢
      rw [if_neg (fun hh => hc ((Rel.op_cmp _ _ _).mp hh)), if_neg hc]
      exact ihq h te (hq hc) hcap

/-- new variables on top of existing ones -/
theorem newVars_value : ∀ (x : List ℝ) {s : St W} {g : Graph ℝ} {val adj : Nat → ℝ} {ps : List Var} {zs : List ℝ},
    Inv s g val adj → VEnv g val ps zs → s.tape.head + 6 * x.length ≤ cap →
    ∃ xv s' g' val' adj', (newVars x : M W (List Var)) s = .ok (xv, s') ∧ Inv s' g' val' adj' ∧
      VKeep g val g' val' ∧ VEnv g' val' (ps ++ xv) (zs ++ x) ∧ s'.tape.head ≤ s.tape.head + 6 * x.length := by
  intro x
  induction x with
  | nil =>
    intro s g val adj ps zs h te _
    exact ⟨[], s, g, val, adj, rfl, h, ⟨fun _ h => h, fun _ _ => rfl⟩, by simpa using te, by simp⟩
  | cons a x ih =>
    intro s g val adj ps zs h te hcap
    simp only [List.length_cons] at hcap ⊢
    obtain ⟨s1, e1, gr⟩ := h.newVar_ok a (by omega)
    obtain ⟨g1, val1, adj1, i1, k1, hv1, hx1, hh1⟩ := vone_grown h rfl gr (n := 6) (by simp [Node.len])
    obtain ⟨xv, s2, g2, val2, adj2, e2, i2, k2, te2, hh2⟩ := ih i1 ((te.mono k1).snoc hv1 hx1) (by omega)
    refine ⟨⟨s.vhead⟩ :: xv, s2, g2, val2, adj2, ?_, i2, k1.trans k2, by simpa using te2, by omega⟩
    unfold newVars at e2 ⊢
    rw [List.mapM_cons, bind_ok e1, bind_ok e2]
    rfl

theorem VEnv.ofList (h : ∀ v ∈ env, g.Has v) : VEnv g val env (env.map fun v => val (g.pos v)) := by
  refine ⟨by simp, fun i hi => ?_, fun i hi => ?_⟩
  · have : lookV env i = env[i] := by simp [lookV, List.getD_eq_getElem?_getD, hi]
    rw [this]; exact h _ (List.getElem_mem hi)
  · simp [lookV, look, List.getD_eq_getElem?_getD, hi]

theorem VEnv.append {env' : List Var} {xs' : List ℝ} (h : VEnv g val env xs) (h' : VEnv g val env' xs') :
    VEnv g val (env ++ env') (xs ++ xs') := by
  have hl := h.len
  have hl' := h'.len
  have key : ∀ i < (env ++ env').length, g.Has (lookV (env ++ env') i) ∧
      val (g.pos (lookV (env ++ env') i)) = look (xs ++ xs') i := by
    intro i hi
    by_cases hlt : i < env.length
    · rw [lookV_append_left hlt, look_append_left (by omega)]
      exact ⟨h.has i hlt, h.value i hlt⟩
    · obtain ⟨k, rfl⟩ := Nat.exists_eq_add_of_le (not_lt.mp hlt)
      have hk : k < env'.length := by simp only [List.length_append] at hi; omega
      have e1 : lookV (env ++ env') (env.length + k) = lookV env' k := by
        simp [lookV, List.getD_eq_getElem?_getD, List.getElem?_append_right]
      have e2 : look (xs ++ xs') (env.length + k) = look xs' k := by
        rw [← hl]; simp [look, List.getD_eq_getElem?_getD, List.getElem?_append_right]
      rw [e1, e2]
      exact ⟨h'.has k hk, h'.value k hk⟩
  exact ⟨by simp [hl, hl'], fun i hi => (key i hi).1, fun i hi => (key i hi).2⟩

/-- inputs, program, outputs -/
theorem program_value (h : Inv s g val adj) (he : ∀ v ∈ env, g.Has v) {ys : List ℝ}
    (hy : ys = env.map fun v => val (g.pos v)) {p : Prog} {x : List ℝ} (hok : p.VOk (x ++ ys)) (hroom : Room s p x ys) :
    ∃ s', (do let xv ← newVars x
              let outs ← p.run (xv ++ env)
              vals outs : M W (List ℝ)) s = .ok (p.sem (x ++ ys), s') := by
  subst hy
  unfold Room at hroom
  have hcap : tapeLimit = cap := rfl
  obtain ⟨xv, s1, g1, val1, adj1, e1, i1, k1, te1, hh1⟩ :=
    newVars_value x h (ps := []) (zs := []) ⟨rfl, by simp, by simp⟩ (by omega)
  have te := te1.append ((VEnv.ofList (val := val) he).mono k1)
  simp only [List.nil_append] at te
  obtain ⟨outs, s2, g2, val2, adj2, e2, i2, hv2, ho2, -⟩ := prog_value p i1 te hok (by omega)
  refine ⟨s2, ?_⟩
  rw [bind_ok e1, bind_ok e2, i2.varVals hv2, ho2]

end Fz
