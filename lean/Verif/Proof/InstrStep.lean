import Verif.Proof.Lpdf
import Verif.Proof.MatStep
import Verif.Proof.UserStep

/-!
# One instruction of a user program
-/

set_option linter.unusedSectionVars false

namespace Fz
open Arith Spec

variable {W : Type} [Rep W ℝ] [LawfulRep W ℝ] {lf : Prop}
variable {E : Type} [NormedAddCommGroup E] [NormedSpace ℝ E]
variable {s s' s'' : St W} {g g' g'' : Graph ℝ} {val adj val' adj' val'' adj'' : Nat → ℝ}
  {D ε D' ε' D'' ε'' : Nat → E →L[ℝ] ℝ} {x0 : E} {env : List Var} {σ : E → List ℝ}

/-- the handles track the results computed so far -/
structure EnvTracks (x0 : E) (g : Graph ℝ) (val : Nat → ℝ) (D : Nat → E →L[ℝ] ℝ) (env : List Var)
    (σ : E → List ℝ) : Prop where
  len : ∀ x, (σ x).length = env.length
  tr : ∀ i < env.length, Tracks x0 g val D (lookV env i) (fun x => look (σ x) i)

theorem EnvTracks.mono {n : Nat} (i : Inv s g val adj)
    (h : Grows lf s g val adj D ε s' g' val' adj' D' ε' n) (t : EnvTracks x0 g val D env σ) :
    EnvTracks x0 g' val' D' env σ := ⟨t.len, fun k hk => (t.tr k hk).mono i h⟩

theorem lookV_append_left {env vs : List Var} {i : Nat} (h : i < env.length) :
    lookV (env ++ vs) i = lookV env i := by
  unfold lookV
  rw [List.getD_eq_getElem?_getD, List.getD_eq_getElem?_getD, List.getElem?_append_left h]

theorem lookV_append_right {env vs : List Var} {k : Nat} (h : k < vs.length) :
    lookV (env ++ vs) (env.length + k) = vs[k] := by
  unfold lookV
  rw [List.getD_eq_getElem?_getD, List.getElem?_append_right (by omega)]
  simp [h]

theorem look_append_left {env vs : List ℝ} {i : Nat} (h : i < env.length) :
    look (env ++ vs) i = look env i := by
  unfold look
  rw [List.getD_eq_getElem?_getD, List.getD_eq_getElem?_getD, List.getElem?_append_left h]

theorem look_append_right {env vs : List ℝ} {k : Nat} :
    look (env ++ vs) (env.length + k) = vs.getD k 0 := by
  unfold look
  rw [List.getD_eq_getElem?_getD, List.getElem?_append_right (by omega)]
  simp

/-- results appended -/
theorem EnvTracks.extend (t : EnvTracks x0 g val D env σ) {vs : List Var} {τ : E → List ℝ}
    (hl : ∀ x, (τ x).length = vs.length)
    (ht : ∀ k (h : k < vs.length), Tracks x0 g val D vs[k] (fun x => (τ x).getD k 0)) :
    EnvTracks x0 g val D (env ++ vs) (fun x => σ x ++ τ x) := by
  refine ⟨fun x => by simp [t.len, hl], ?_⟩
  intro i hi
  by_cases h : i < env.length
  · rw [lookV_append_left h]
    have e : (fun x => look (σ x ++ τ x) i) = fun x => look (σ x) i := by
      funext x; exact look_append_left (by rw [t.len]; exact h)
    rw [e]; exact t.tr i h
  · obtain ⟨k, rfl⟩ : ∃ k, i = env.length + k := ⟨i - env.length, by omega⟩
    have hk : k < vs.length := by simp at hi; omega
    rw [lookV_append_right hk]
    have e : (fun x => look (σ x ++ τ x) (env.length + k)) = fun x => (τ x).getD k 0 := by
      funext x; rw [← t.len x]; exact look_append_right
    rw [e]; exact ht k hk

/-- outcome of running an instruction -/
def StepEnv (lf : Prop) (x0 : E) (s : St W) (g : Graph ℝ) (val adj : Nat → ℝ) (D ε : Nat → E →L[ℝ] ℝ) (s' : St W)
    (words : Nat) (env : List Var) (σ : E → List ℝ) : Prop :=
  ∃ g' val' adj' D' ε', Sim s' g' val' adj' D' ε' ∧
    Grows lf s g val adj D ε s' g' val' adj' D' ε' words ∧ EnvTracks x0 g' val' D' env σ

theorem stepEnv_one (h : Sim s g val adj D ε) (te : EnvTracks x0 g val D env σ) {m : M W Var} {v : Var}
    {n : Nat} {f : E → ℝ} (hm : ∃ s', m s = .ok (v, s') ∧ StepOne lf x0 s g val adj D ε s' n v f) :
    ∃ vs s', Spec.one m s = .ok (vs, s') ∧
      StepEnv lf x0 s g val adj D ε s' n (env ++ vs) (fun x => σ x ++ [f x]) := by
  obtain ⟨s', e, g', val', adj', D', ε', sim, gr, tr⟩ := hm
  refine ⟨[v], s', ?_, g', val', adj', D', ε', sim, gr, ?_⟩
  · unfold Spec.one; rw [bind_ok e]; rfl
  · refine (te.mono h.inv gr).extend (by simp) ?_
    intro k hk
    have : k = 0 := by simpa using hk
    subst this
    simpa using tr

theorem stepEnv_many (h : Sim s g val adj D ε) (te : EnvTracks x0 g val D env σ) {m : M W (List Var)}
    {n l : Nat} {φ : (k : Nat) → k < l → E → ℝ} {τ : E → List ℝ}
    (hm : ∃ vs s', m s = .ok (vs, s') ∧ StepMany lf x0 s g val adj D ε s' n vs l φ)
    (hl : ∀ x, (τ x).length = l) (hφ : ∀ k (hk : k < l) x, (τ x).getD k 0 = φ k hk x) :
    ∃ vs s', m s = .ok (vs, s') ∧
      StepEnv lf x0 s g val adj D ε s' n (env ++ vs) (fun x => σ x ++ τ x) := by
  obtain ⟨vs, s', e, hlen, g', val', adj', D', ε', sim, gr, tr⟩ := hm
  refine ⟨vs, s', e, g', val', adj', D', ε', sim, gr, ?_⟩
  refine (te.mono h.inv gr).extend (fun x => by rw [hl, hlen]) ?_
  intro k hk
  have e : (fun x => (τ x).getD k 0) = φ k (by omega) := by funext x; exact hφ k _ x
  rw [e]; exact tr k hk (by omega)

/-- a chain procedure that does nothing on a record without operands -/
def LeafSafe (c : Chain) : Prop := ∀ v a : ℝ, ∃ l, contribPlain c v a [] [] = some l

theorem leafSafe_dummy : LeafSafe .dummy := fun _ _ => ⟨[], rfl⟩

theorem step_const (h : Sim s g val adj D ε) (d : ℝ) (hlf : lf)
    (hcap : s.tape.head + 6 ≤ cap) :
    ∃ s', (newVar d : M W Var) s = .ok (⟨s.vhead⟩, s') ∧
      StepOne lf x0 s g val adj D ε s' 6 ⟨s.vhead⟩ (fun _ => d) := by
  obtain ⟨s', e, gr⟩ := h.inv.newVar_ok d hcap
  refine ⟨s', e, ?_⟩
  have hvh := h.inv.vhead
  have hg := Sim.push_grows (lf := lf) (D := D) (ε := ε) gr rfl (0 : E →L[ℝ] ℝ)
    (Or.inr ⟨hlf, rfl, rfl, rfl, s.vhead, Nat.le_refl _, rfl⟩)
  refine ⟨_, _, _, _, _, h.push gr rfl 0 0 ?_, hg, ?_, ?_, ?_⟩
  · intro adj' l _
    show _ = _ + zsum l [] D
    rw [zsum_nil']; simp
  · rw [hvh]; exact Graph.has_last g _
  · rw [hvh, Graph.pos_last]; simp
  · rw [hvh, Graph.pos_last]; simpa using hasFDerivAt_const d x0

theorem step_abs (h : Sim s g val adj D ε) {v : Var} {f : E → ℝ} (t : Tracks x0 g val D v f)
    (h0 : f x0 ≠ 0) (hcap : s.tape.head + Un.abs.cost (f x0) ≤ cap) :
    ∃ w s', (absV v : M W Var) s = .ok (w, s') ∧
      StepOne lf x0 s g val adj D ε s' (Un.abs.cost (f x0)) w (fun x => |f x|) := by
  have hv := h.inv.varVal t.has
  rw [← t.value] at hv
  simp only [Un.cost] at hcap ⊢
  by_cases hp : 0 < f x0
  · refine ⟨v, s, ?_, ?_⟩
    · unfold absV
      rw [bind_ok hv, if_pos (by simpa using hp)]
      rfl
    · rw [if_pos hp]
      refine step_same h (t.congr ?_)
      filter_upwards [t.deriv.continuousAt.eventually (lt_mem_nhds hp)] with x hx
      exact abs_of_pos hx
  · have hn : f x0 < 0 := lt_of_le_of_ne (not_lt.mp hp) h0
    rw [if_neg hp] at hcap ⊢
    obtain ⟨s', e, g', val', adj', D', ε', sim, gr, tr⟩ := step_unary h t (un_neg (f x0)) hcap
    refine ⟨⟨s.vhead⟩, s', ?_, g', val', adj', D', ε', sim, gr, tr.congr ?_⟩
    · unfold absV
      rw [bind_ok hv, if_neg (by simpa using hp), if_pos (by simpa using hn)]
      exact e
    · filter_upwards [t.deriv.continuousAt.eventually (gt_mem_nhds hn)] with x hx
      exact abs_of_neg hx

theorem isNanV_ok (h : Inv s g val adj) {v : Var} (hv : g.Has v) :
    (isNanV v : M W Bool) s = .ok (false, s) := by
  unfold isNanV
  rw [bind_ok (h.varVal hv)]
  have : isNanD (val (g.pos v)) = false := by simp [isNanD, fne]
  rw [this]; rfl

theorem relVD_ok (h : Inv s g val adj) {v : Var} (hv : g.Has v) (o : RelOp) (d : ℝ) :
    (relVD o v d : M W Bool) s = .ok (o.cmp (val (g.pos v)) d, s) := by
  unfold relVD
  rw [bind_ok (h.varVal hv)]
  rfl

theorem relVV_ok (h : Inv s g val adj) {v w : Var} (hv : g.Has v) (hw : g.Has w) (o : RelOp) :
    (relVV (R := ℝ) o v w : M W Bool) s = .ok (o.cmp (val (g.pos v)) (val (g.pos w)), s) := by
  unfold relVV
  rw [bind_ok (h.varVal hv), bind_ok (h.varVal hw)]
  rfl

theorem step_acosh (h : Sim s g val adj D ε) {v : Var} {f : E → ℝ} (t : Tracks x0 g val D v f)
    (hd : Un.acosh.dom (f x0)) (hcap : s.tape.head + 7 ≤ cap) :
    ∃ s', (acoshV v : M W Var) s = .ok (⟨s.vhead⟩, s') ∧
      StepOne lf x0 s g val adj D ε s' 7 ⟨s.vhead⟩ (fun x => Real.arcosh (f x)) := by
  obtain ⟨s', e, st⟩ := step_unary h t (un_acosh hd) hcap
  refine ⟨s', ?_, st⟩
  unfold acoshV
  have hd' : 1 < f x0 := hd
  rw [bind_ok (isNanV_ok h.inv t.has), if_neg (by simp), bind_ok (relVD_ok h.inv t.has _ _), if_neg]
  · exact e
  · rw [← t.value]
    show ¬ fle (f x0) Arith.one = true
    rw [rFle, rOne]; linarith

theorem step_atanh (h : Sim s g val adj D ε) {v : Var} {f : E → ℝ} (t : Tracks x0 g val D v f)
    (hd : Un.atanh.dom (f x0)) (hcap : s.tape.head + 7 ≤ cap) :
    ∃ s', (atanhV v : M W Var) s = .ok (⟨s.vhead⟩, s') ∧
      StepOne lf x0 s g val adj D ε s' 7 ⟨s.vhead⟩ (fun x => Real.artanh (f x)) := by
  obtain ⟨s', e, st⟩ := step_unary h t (un_atanh hd) hcap
  refine ⟨s', ?_, st⟩
  unfold atanhV
  have hd' : -1 < f x0 ∧ f x0 < 1 := hd
  rw [bind_ok (isNanV_ok h.inv t.has), if_neg (by simp), bind_ok (relVD_ok h.inv t.has _ _),
    bind_ok (relVD_ok h.inv t.has _ _), if_neg]
  · exact e
  · rw [← t.value, Bool.or_eq_true]
    show ¬ (fle (f x0) (Arith.neg Arith.one) = true ∨ fle Arith.one (f x0) = true)
    rw [rFle, rFle, rNeg, rOne]
    rintro (h1 | h1) <;> linarith

theorem step_un (h : Sim s g val adj D ε) {v : Var} {f : E → ℝ} (t : Tracks x0 g val D v f) (u : Un)
    (hd : u.dom (f x0)) (hcap : s.tape.head + u.cost (f x0) ≤ cap) :
    ∃ w s', (u.api v : M W Var) s = .ok (w, s') ∧
      StepOne lf x0 s g val adj D ε s' (u.cost (f x0)) w (fun x => u.fn (f x)) := by
  have key : ∀ {mf φ : ℝ → ℝ} {c : Chain} {k : ℝ}, UnSpec mf c φ (f x0) k → s.tape.head + 7 ≤ cap →
      ∃ w s', (unary mf c v : M W Var) s = .ok (w, s') ∧
      StepOne lf x0 s g val adj D ε s' 7 w (fun x => φ (f x)) := by
    intro mf φ c k hu hc
    obtain ⟨s', e, st⟩ := step_unary h t hu hc
    exact ⟨_, s', e, st⟩
  cases u with
  | pos => exact ⟨v, s, rfl, step_same h t⟩
  | neg => exact key (un_neg _) hcap
  | abs => exact step_abs h t hd hcap
  | sin => exact key (un_sin _) hcap
  | cos => exact key (un_cos _) hcap
  | tan => exact key (un_tan hd) hcap
  | asin => exact key (un_asin hd) hcap
  | acos => exact key (un_acos hd) hcap
  | atan => exact key (un_atan _) hcap
  | sinh => exact key (un_sinh _) hcap
  | cosh => exact key (un_cosh _) hcap
  | tanh => exact key (un_tanh _) hcap
  | asinh => exact key (un_asinh _) hcap
  | acosh => obtain ⟨s', e, st⟩ := step_acosh h t hd hcap; exact ⟨_, s', e, st⟩
  | atanh => obtain ⟨s', e, st⟩ := step_atanh h t hd hcap; exact ⟨_, s', e, st⟩
  | sqrt => exact key (un_sqrt hd) hcap
  | inv => exact key (un_inv hd) hcap
  | square => exact key (un_square _) hcap
  | invSqrt => exact key (un_invSqrt hd) hcap
  | exp => exact key (un_exp _) hcap
  | log => exact key (un_log hd) hcap
  | logit => exact key (un_logit hd) hcap
  | invLogit => exact key (un_invLogit hd) hcap
  | erf => exact key (un_erf _) hcap
  | erfc => exact key (un_erfc _) hcap

theorem step_bin (h : Sim s g val adj D ε) {v1 v2 : Var} {f1 f2 : E → ℝ}
    (t1 : Tracks x0 g val D v1 f1) (t2 : Tracks x0 g val D v2 f2) (b : Bin)
    (hd : b.domVV (f1 x0) (f2 x0)) (hcap : s.tape.head + 8 ≤ cap) :
    ∃ w s', (b.apiVV v1 v2 : M W Var) s = .ok (w, s') ∧
      StepOne lf x0 s g val adj D ε s' 8 w (fun x => b.fn (f1 x) (f2 x)) := by
  have key : ∀ {mf φ : ℝ → ℝ → ℝ} {c : Chain} {k1 k2 : ℝ}, BinSpec mf c φ (f1 x0) (f2 x0) k1 k2 →
      ∃ w s', (binary mf c v1 v2 : M W Var) s = .ok (w, s') ∧
      StepOne lf x0 s g val adj D ε s' 8 w (fun x => φ (f1 x) (f2 x)) := by
    intro mf φ c k1 k2 hu
    obtain ⟨s', e, st⟩ := step_binary h t1 t2 hu hcap
    exact ⟨_, s', e, st⟩
  cases b with
  | add => exact key (bin_add _ _)
  | sub => exact key (bin_sub _ _)
  | mul => exact key (bin_mul _ _)
  | div => exact key (bin_div hd)
  | pow => exact key (bin_pow hd)
  | hypot => exact key (bin_hypot hd)

theorem step_binVD (h : Sim s g val adj D ε) {v : Var} {f : E → ℝ} (t : Tracks x0 g val D v f) (b : Bin)
    (d : ℝ) (hd : b.domVD (f x0) d) (hx : ¬ b.defectVD d) (hcap : s.tape.head + b.costVD d ≤ cap) :
    ∃ w s', (b.apiVD v d : M W Var) s = .ok (w, s') ∧
      StepOne lf x0 s g val adj D ε s' (b.costVD d) w (fun x => b.fn (f x) d) := by
  have key : ∀ {mf φ : ℝ → ℝ} {c : Chain} {k : ℝ}, UnSpec mf c φ (f x0) k → s.tape.head + 7 ≤ cap →
      ∃ w s', (unary mf c v : M W Var) s = .ok (w, s') ∧
      StepOne lf x0 s g val adj D ε s' 7 w (fun x => φ (f x)) := by
    intro mf φ c k hu hc
    obtain ⟨s', e, st⟩ := step_unary h t hu hc
    exact ⟨_, s', e, st⟩
  have keyD : ∀ {mf φ : ℝ → ℝ} {d : ℝ} {c : Chain} {k : ℝ}, DatSpec mf d c φ (f x0) k →
      s.tape.head + 9 ≤ cap → ∃ w s', (unaryData mf d c v : M W Var) s = .ok (w, s') ∧
      StepOne lf x0 s g val adj D ε s' 9 w (fun x => φ (f x)) := by
    intro mf φ d c k hu hc
    obtain ⟨s', e, st⟩ := step_data h t hu hc
    exact ⟨_, s', e, st⟩
  cases b with
  | add =>
    have hx' : d ≠ 0 := hx
    simp only [Bin.apiVD, addVD]
    rw [if_pos (by simpa using hx')]
    exact key (vd_add _ d) hcap
  | sub =>
    have hx' : d ≠ 0 := hx
    simp only [Bin.apiVD, subVD]
    rw [if_pos (by simpa using hx')]
    exact key (vd_sub _ d) hcap
  | mul =>
    have hx' : d ≠ 1 := hx
    simp only [Bin.apiVD, mulVD]
    rw [if_pos (by simpa using hx')]
    exact keyD (vd_mul _ d) hcap
  | div =>
    have hx' : d ≠ 1 := hx
    simp only [Bin.apiVD, divVD]
    rw [if_pos (by simpa using hx')]
    exact keyD (vd_div _ d) hcap
  | pow =>
    have hx' : d ≠ -2 := hx
    have hd' : 0 < f x0 ∨ d = 1 ∨ d = 2 ∨ (f x0 ≠ 0 ∧ ∃ n : ℤ, d = n) ∨
        (f x0 = 0 ∧ (d = 0 ∨ 1 < d)) := hd
    have half : ∀ {r : ℝ}, 0 < r → r < 1 → ¬ ∃ n : ℤ, r = n := by
      rintro r h0 h1 ⟨n, rfl⟩
      have h0' : 0 < n := by exact_mod_cast h0
      have h1' : n < 1 := by exact_mod_cast h1
      omega
    simp only [Bin.apiVD, powVD]
    unfold Bin.costVD at hcap ⊢
    simp only at hcap ⊢
    by_cases c1 : d = 1 / 2
    · subst c1
      rw [if_pos (by simp)]
      rw [if_neg (by norm_num), if_pos (Or.inl rfl)] at hcap ⊢
      refine key (vd_pow_half ?_) hcap
      rcases hd' with h | h | h | h | h
      · exact h
      · norm_num at h
      · norm_num at h
      · exact absurd h.2 (half (by norm_num) (by norm_num))
      · norm_num at h
    rw [if_neg (by simpa using c1)]
    by_cases c2 : d = 1
    · subst c2
      rw [if_pos (by simp)]
      rw [if_pos rfl] at hcap ⊢
      refine ⟨v, s, rfl, step_same h (t.congr (Filter.Eventually.of_forall fun x => ?_))⟩
      exact Real.rpow_one _
    rw [if_neg (by simpa using c2)]
    rw [if_neg c2] at hcap ⊢
    by_cases c3 : d = 2
    · subst c3
      rw [if_pos (by simp)]
      rw [if_pos (by simp)] at hcap ⊢
      exact key (vd_pow_two _) hcap
    rw [if_neg (by simpa using c3)]
    rw [if_neg (by simpa using hx')]
    by_cases c4 : d = -1
    · subst c4
      rw [if_pos (by simp)]
      rw [if_pos (by simp)] at hcap ⊢
      refine key (vd_pow_neg_one ?_) hcap
      rcases hd' with h | h | h | h | h
      · exact h.ne'
      · exact absurd h c2
      · exact absurd h c3
      · exact h.1
      · norm_num at h
    rw [if_neg (by simpa using c4)]
    by_cases c5 : d = -(1 / 2)
    · subst c5
      rw [if_pos (by simp)]
      rw [if_pos (by simp)] at hcap ⊢
      refine key (vd_pow_neg_half ?_) hcap
      rcases hd' with h | h | h | h | h
      · exact h
      · exact absurd h c2
      · exact absurd h c3
      · obtain ⟨n, hn⟩ := h.2
        exact absurd ⟨-n, by push_cast; linarith⟩ (half (r := 1 / 2) (by norm_num) (by norm_num))
      · norm_num at h
    rw [if_neg (by simpa using c5)]
    rw [if_neg (by tauto)] at hcap ⊢
    refine keyD (vd_pow ?_) hcap
    rcases hd' with h | h | h | h | h
    · exact Or.inl h.ne'
    · exact absurd h c2
    · exact absurd h c3
    · exact Or.inl h.1
    · exact Or.inr h
  | hypot =>
    have hx' : d ≠ 0 := hx
    obtain ⟨s', e, gr⟩ := h.inv.newOp (vs := [v]) (by simpa using t.has)
      (Arith.hypot (val (g.pos v)) d) .hypot hcap
    refine ⟨_, s', ?_, step_unary_gr h t (vd_hypot hx') gr⟩
    simp only [Bin.apiVD, hypotVD]
    rw [if_pos (by simpa using hx')]
    rw [bind_ok (h.inv.varVal t.has)]
    exact e

theorem step_binDV (h : Sim s g val adj D ε) {v : Var} {f : E → ℝ} (t : Tracks x0 g val D v f) (b : Bin)
    (d : ℝ) (hd : b.domDV d (f x0)) (hx : ¬ b.defectDV d) (hcap : s.tape.head + b.costDV ≤ cap) :
    ∃ w s', (b.apiDV d v : M W Var) s = .ok (w, s') ∧
      StepOne lf x0 s g val adj D ε s' b.costDV w (fun x => b.fn d (f x)) := by
  have key : ∀ {mf φ : ℝ → ℝ} {c : Chain} {k : ℝ}, UnSpec mf c φ (f x0) k → s.tape.head + 7 ≤ cap →
      ∃ w s', (unary mf c v : M W Var) s = .ok (w, s') ∧
      StepOne lf x0 s g val adj D ε s' 7 w (fun x => φ (f x)) := by
    intro mf φ c k hu hc
    obtain ⟨s', e, st⟩ := step_unary h t hu hc
    exact ⟨_, s', e, st⟩
  have keyD : ∀ {mf φ : ℝ → ℝ} {d : ℝ} {c : Chain} {k : ℝ}, DatSpec mf d c φ (f x0) k →
      s.tape.head + 9 ≤ cap → ∃ w s', (unaryData mf d c v : M W Var) s = .ok (w, s') ∧
      StepOne lf x0 s g val adj D ε s' 9 w (fun x => φ (f x)) := by
    intro mf φ d c k hu hc
    obtain ⟨s', e, st⟩ := step_data h t hu hc
    exact ⟨_, s', e, st⟩
  cases b with
  | add =>
    have hx' : d ≠ 0 := hx
    simp only [Bin.apiDV, addDV]
    rw [if_pos (by simpa using hx')]
    exact key (dv_add _ d) hcap
  | sub => exact key (dv_sub _ d) hcap
  | mul =>
    have hx' : d ≠ 1 := hx
    simp only [Bin.apiDV, mulDV]
    rw [if_pos (by simpa using hx')]
    exact keyD (dv_mul _ d) hcap
  | div => exact keyD (dv_div hd) hcap
  | pow => exact keyD (dv_pow hd) hcap
  | hypot =>
    have hx' : d ≠ 0 := hx
    obtain ⟨s', e, gr⟩ := h.inv.newOp (vs := [v]) (by simpa using t.has)
      (Arith.hypot (val (g.pos v)) d) .hypot hcap
    refine ⟨_, s', ?_, step_unary_gr h t (dv_hypot hx') gr⟩
    simp only [Bin.apiDV, hypotDV]
    rw [if_pos (by simpa using hx')]
    rw [bind_ok (h.inv.varVal t.has)]
    exact e

/-! ## log densities -/

theorem step_lpdfVV (h : Sim s g val adj D ε) {m sg : Var} {f1 f2 : E → ℝ}
    (t1 : Tracks x0 g val D m f1) (t2 : Tracks x0 g val D sg f2) (d : Dist) (ys : List ℝ)
    (h0 : 0 < f2 x0) (hy : ∀ y ∈ ys, d.supp y) (hcap : s.tape.head + 12 ≤ cap) :
    ∃ w s', (d.apiVV ys m sg : M W Var) s = .ok (w, s') ∧
      StepOne lf x0 s g val adj D ε s' 12 w (fun x => (ys.map (d.logpdf (f1 x) (f2 x))).sum) := by
  obtain ⟨s', e, st⟩ := step_partials h (ι := Fin 2) [0, 1] (us := ![m, sg]) (F := ![f1, f2])
    (by
      intro i hi
      fin_cases i
      · exact t1
      · exact t2)
    (φ := fun x => (ys.map (d.logpdf (f1 x) (f2 x))).sum)
    (v := fsum (ys.map (lpM d (f1 x0) (f2 x0))))
    (ds := [fsum (ys.map (gmM d (f1 x0) (f2 x0))), fsum (ys.map (gsM d (f1 x0) (f2 x0)))])
    (lpdf_sum_value d h0 ys hy).symm rfl
    (by
      have := lpdf_sum_deriv d t1.deriv t2.deriv h0 ys hy
      simpa [zsum, fsum_real] using this)
    hcap
  refine ⟨_, s', ?_, st⟩
  have e1 := h.inv.varVal t1.has
  have e2 := h.inv.varVal t2.has
  rw [← t1.value] at e1
  rw [← t2.value] at e2
  have : (lpdfVV (lpM d) (gmM d) (gsM d) ys m sg : M W Var) s = .ok (⟨s.vhead⟩, s') := by
    unfold lpdfVV
    rw [bind_ok e1, bind_ok e2]
    exact e
  cases d <;> exact this

theorem step_lpdfVD (h : Sim s g val adj D ε) {m : Var} {f1 : E → ℝ} (sg : ℝ)
    (t1 : Tracks x0 g val D m f1) (d : Dist) (ys : List ℝ)
    (h0 : 0 < sg) (hy : ∀ y ∈ ys, d.supp y) (hcap : s.tape.head + 9 ≤ cap) :
    ∃ w s', (d.apiVD ys m sg : M W Var) s = .ok (w, s') ∧
      StepOne lf x0 s g val adj D ε s' 9 w (fun x => (ys.map (d.logpdf (f1 x) sg)).sum) := by
  obtain ⟨s', e, st⟩ := step_partials h (ι := Fin 1) [0] (us := ![m]) (F := ![f1])
    (by
      intro i hi
      fin_cases i
      exact t1)
    (φ := fun x => (ys.map (d.logpdf (f1 x) sg)).sum)
    (v := fsum (ys.map (lpM d (f1 x0) sg)))
    (ds := [fsum (ys.map (gmM d (f1 x0) sg))])
    (lpdf_sum_value d h0 ys hy).symm rfl
    (by
      have := lpdf_sum_deriv d t1.deriv (hasFDerivAt_const sg x0) h0 ys hy
      simpa [zsum, fsum_real] using this)
    hcap
  refine ⟨_, s', ?_, st⟩
  have e1 := h.inv.varVal t1.has
  rw [← t1.value] at e1
  have : (lpdfVD (lpM d) (gmM d) ys m sg : M W Var) s = .ok (⟨s.vhead⟩, s') := by
    unfold lpdfVD
    rw [bind_ok e1]
    exact e
  cases d <;> exact this

theorem step_lpdfDV (h : Sim s g val adj D ε) {sg : Var} {f2 : E → ℝ} (m : ℝ)
    (t2 : Tracks x0 g val D sg f2) (d : Dist) (ys : List ℝ)
    (h0 : 0 < f2 x0) (hy : ∀ y ∈ ys, d.supp y) (hcap : s.tape.head + 9 ≤ cap) :
    ∃ w s', (d.apiDV ys m sg : M W Var) s = .ok (w, s') ∧
      StepOne lf x0 s g val adj D ε s' 9 w (fun x => (ys.map (d.logpdf m (f2 x))).sum) := by
  obtain ⟨s', e, st⟩ := step_partials h (ι := Fin 1) [0] (us := ![sg]) (F := ![f2])
    (by
      intro i hi
      fin_cases i
      exact t2)
    (φ := fun x => (ys.map (d.logpdf m (f2 x))).sum)
    (v := fsum (ys.map (lpM d m (f2 x0))))
    (ds := [fsum (ys.map (gsM d m (f2 x0)))])
    (lpdf_sum_value d h0 ys hy).symm rfl
    (by
      have := lpdf_sum_deriv d (hasFDerivAt_const m x0) t2.deriv h0 ys hy
      simpa [zsum, fsum_real] using this)
    hcap
  refine ⟨_, s', ?_, st⟩
  have e2 := h.inv.varVal t2.has
  rw [← t2.value] at e2
  have : (lpdfDV (lpM d) (gsM d) ys m sg : M W Var) s = .ok (⟨s.vhead⟩, s') := by
    unfold lpdfDV
    rw [bind_ok e2]
    exact e
  cases d <;> exact this

/-! ## user-supplied partial derivatives -/

theorem zsum_map_sum {ι : Type} (c : List ℝ) (P : ι → Nat) (z : E) : ∀ (l : List ι),
    zsum c (l.map P) D z = (List.zipWith (· * ·) c (l.map fun i => D (P i) z)).sum := by
  induction c with
  | nil => intro l; simp [zsum]
  | cons a c ih =>
    intro l
    cases l with
    | nil => simp [zsum]
    | cons i l => simp [zsum, ih l]

theorem partials_deriv {φ : List ℝ → ℝ} {dφ : List ℝ → List ℝ} (is : List Nat)
    (t : ∀ i ∈ is, Tracks x0 g val D (lookV env i) (fun x => look (σ x) i))
    (hp : PartialsAt φ dφ (is.map (look (σ x0)))) :
    HasFDerivAt (fun x => φ (is.map (look (σ x))))
      (zsum (dφ (is.map (look (σ x0)))) (is.map fun i => g.pos (lookV env i)) D) x0 := by
  obtain ⟨-, L, hL, hLy⟩ := hp
  generalize hv : is.map (look (σ x0)) = v at *
  have hlen : v.length = is.length := by rw [← hv]; simp
  have hY : HasFDerivAt (fun x => fun k : Fin v.length => look (σ x) (is[k.1]'(by omega)))
      (ContinuousLinearMap.pi fun k : Fin v.length => D (g.pos (lookV env (is[k.1]'(by omega))))) x0 :=
    hasFDerivAt_pi.mpr fun k => (t _ (List.getElem_mem _)).deriv
  have hof : ∀ (F : Nat → ℝ), List.ofFn (fun k : Fin v.length => F (is[k.1]'(by omega))) = is.map F := by
    intro F
    apply List.ext_getElem
    · simp [hlen]
    · intro n h1 h2; simp
  have hx0 : (fun k : Fin v.length => look (σ x0) (is[k.1]'(by omega))) = fun i : Fin v.length => v[i] := by
    funext k
    subst hv
    simp
  rw [← hx0] at hL
  have hc := hL.comp x0 hY
  refine (hc.congr_of_eventuallyEq (f₁ := fun x => φ (is.map (look (σ x))))
    (Filter.Eventually.of_forall fun x => ?_)).congr_fderiv ?_
  · show _ = φ (List.ofFn _)
    rw [hof]
  · ext z
    show L _ = _
    rw [hLy, zsum_map_sum]
    congr 2
    exact hof fun i => D (g.pos (lookV env i)) z

theorem step_partialsInstr (h : Sim s g val adj D ε) {φ : List ℝ → ℝ} {dφ : List ℝ → List ℝ} (is : List Nat)
    (t : ∀ i ∈ is, Tracks x0 g val D (lookV env i) (fun x => look (σ x) i))
    (hp : PartialsAt φ dφ (is.map (look (σ x0)))) (hcap : s.tape.head + (6 + 3 * is.length) ≤ cap) :
    ∃ w s', (do
      let xs ← vals (is.map (lookV env))
      varWithPartials (φ xs) (is.map (lookV env)) (dφ xs) : M W Var) s = .ok (w, s') ∧
      StepOne lf x0 s g val adj D ε s' (6 + 3 * is.length) w (fun x => φ (is.map (look (σ x)))) := by
  obtain ⟨s', e, st⟩ := step_partials h is (us := lookV env) (F := fun i x => look (σ x) i) t
    (φ := fun x => φ (is.map (look (σ x)))) (v := φ (is.map (look (σ x0))))
    (ds := dφ (is.map (look (σ x0)))) rfl (by simpa using hp.1) (partials_deriv is t hp) hcap
  refine ⟨_, s', ?_, st⟩
  have hv : ∀ v ∈ is.map (lookV env), g.Has v := by
    intro v hv; obtain ⟨i, hi, rfl⟩ := List.mem_map.mp hv; exact (t i hi).has
  have ev := h.inv.varVals hv
  have e1 : ((is.map (lookV env)).map fun v => val (g.pos v)) = is.map (look (σ x0)) := by
    rw [List.map_map]; exact List.map_congr_left fun i hi => ((t i hi).value).symm
  rw [e1] at ev
  rw [bind_ok ev]
  exact e

theorem step_userInstr (h : Sim s g val adj D ε) {φ : List ℝ → ℝ} {r : URule} {ds : List ℝ} (is : List Nat)
    (t : ∀ i ∈ is, Tracks x0 g val D (lookV env i) (fun x => look (σ x) i))
    (hf : RuleFits (φ (is.map (look (σ x0)))) (is.map (look (σ x0))) ds r)
    (hp : PartialsAt φ (fun v => factors (φ v) v ds r) (is.map (look (σ x0))))
    (hcap : s.tape.head + (6 + is.length + 2 * ds.length) ≤ cap) :
    ∃ w s', (do
      let xs ← vals (is.map (lookV env))
      userOp (φ xs) r (is.map (lookV env)) ds : M W Var) s = .ok (w, s') ∧
      StepOne lf x0 s g val adj D ε s' (6 + is.length + 2 * ds.length) w (fun x => φ (is.map (look (σ x)))) := by
  have hv : ∀ v ∈ is.map (lookV env), g.Has v := by
    intro v hv; obtain ⟨i, hi, rfl⟩ := List.mem_map.mp hv; exact (t i hi).has
  have ev := h.inv.varVals hv
  have e1 : ((is.map (lookV env)).map fun v => val (g.pos v)) = is.map (look (σ x0)) := by
    rw [List.map_map]; exact List.map_congr_left fun i hi => ((t i hi).value).symm
  obtain ⟨s', e, gr⟩ := h.inv.userOp_ok (φ (is.map (look (σ x0)))) r hv ds (by simpa using hcap)
  have := h.op (lf := lf) (vs := is.map (lookV env)) (ds := ds)
    (coefs := factors (φ (is.map (look (σ x0)))) (is.map (look (σ x0))) ds r)
    (f := fun x => φ (is.map (look (σ x)))) (x0 := x0) hv gr
    (by rw [e1]; exact local_user hf) rfl (by rw [List.map_map]; exact partials_deriv is t hp)
  rw [e1] at ev
  refine ⟨_, s', by rw [bind_ok ev]; exact e, ?_⟩
  simpa [StepOne] using this

/-! ## all instructions -/

/-- the instruction creates a constant -/
def isConst : Instr → Prop
  | .const _ => True
  | _ => False

theorem entries_eq (m n : Nat) : entries m n = matPairs m n := rfl

theorem instr_step (h : Sim s g val adj D ε) (te : EnvTracks x0 g val D env σ) (i : Instr)
    (hok : i.Ok (σ x0)) (hcap : s.tape.head + i.cost (σ x0) ≤ cap)
    (hlf : isConst i → lf) :
    ∃ vs s', (i.run env : M W (List Var)) s = .ok (vs, s') ∧
      StepEnv lf x0 s g val adj D ε s' (i.cost (σ x0)) (env ++ vs) (fun x => σ x ++ i.sem (σ x)) := by
  have hlen := te.len x0
  have pack : ∀ {m : M W Var} {n : Nat} {f : E → ℝ},
      (∃ v s', m s = .ok (v, s') ∧ StepOne lf x0 s g val adj D ε s' n v f) →
      ∃ vs s', Spec.one m s = .ok (vs, s') ∧
        StepEnv lf x0 s g val adj D ε s' n (env ++ vs) (fun x => σ x ++ [f x]) := by
    rintro m n f ⟨v, s', e, st⟩
    exact stepEnv_one h te ⟨s', e, st⟩
  have tl : ∀ {is : List Nat}, (∀ i ∈ is, i < (σ x0).length) →
      ∀ i ∈ is, Tracks x0 g val D (lookV env i) (fun x => look (σ x) i) :=
    fun hi i hm => te.tr i (by rw [← hlen]; exact hi i hm)
  have ex : ∀ {α : Type} {P : α → Prop} {a : α}, P a → ∃ a, P a := fun h => ⟨_, h⟩
  have tm : ∀ {a : Matrix' Nat}, (∀ i < a.nrow, ∀ j < a.ncol, a.get i j < (σ x0).length) →
      MatTracks x0 g val D (a.vars env) (fun i j x => look (σ x) (a.get i j)) := by
    intro a ha i hi j hj
    exact te.tr _ (by rw [← hlen]; exact ha i hi j hj)
  cases i with
  | const d => exact pack (ex (step_const h d (hlf trivial) hcap))
  | un f i => exact pack (step_un h (te.tr i (by rw [← hlen]; exact hok.1)) f hok.2 hcap)
  | bin f i j =>
    exact pack (step_bin h (te.tr i (by rw [← hlen]; exact hok.1)) (te.tr j (by rw [← hlen]; exact hok.2.1))
      f hok.2.2 hcap)
  | binVD f i d =>
    exact pack (step_binVD h (te.tr i (by rw [← hlen]; exact hok.1)) f d hok.2.1 hok.2.2 hcap)
  | binDV f d i =>
    exact pack (step_binDV h (te.tr i (by rw [← hlen]; exact hok.1)) f d hok.2.1 hok.2.2 hcap)
  | sum is => exact pack (ex (step_sum h is (vs := lookV env) (tl hok) hcap))
  | norm2 is => exact pack (ex (step_norm2 h is (vs := lookV env) (tl hok.1) hok.2 hcap))
  | logSumExp is =>
    exact pack (ex (step_logSumExp h is (vs := lookV env) (tl fun i hi => (hok.1 i hi).1) hok.2
      (fun i hi => (hok.1 i hi).2) hcap))
  | dotVV is js =>
    obtain ⟨h1, h2, h3⟩ := hok
    have e1 : (is.zip js).map (fun p => lookV env p.1) = is.map (lookV env) := by
      exact (List.map_map (g := lookV env) (f := Prod.fst)).symm.trans (by rw [List.map_fst_zip (by omega)])
    have e2 : (is.zip js).map (fun p => lookV env p.2) = js.map (lookV env) := by
      exact (List.map_map (g := lookV env) (f := Prod.snd)).symm.trans (by rw [List.map_snd_zip (by omega)])
    have hl : (is.zip js).length + (is.zip js).length = is.length + js.length := by simp; omega
    have := step_dotVV (lf := lf) h (is.zip js) (us := fun p => lookV env p.1) (vs := fun p => lookV env p.2)
      (F := fun p x => look (σ x) p.1) (G := fun p x => look (σ x) p.2)
      (fun p hp => tl h1 p.1 (List.of_mem_zip hp).1) (fun p hp => tl h2 p.2 (List.of_mem_zip hp).2)
      (by rw [hl]; exact hcap)
    rw [e1, e2, hl] at this
    exact pack (ex this)
  | dotVD is ds =>
    obtain ⟨h1, h3⟩ := hok
    have e1 : (is.zip ds).map (fun p => lookV env p.1) = is.map (lookV env) := by
      exact (List.map_map (g := lookV env) (f := Prod.fst)).symm.trans (by rw [List.map_fst_zip (by omega)])
    have e2 : (is.zip ds).map (fun p => p.2) = ds := List.map_snd_zip (by omega)
    have hl : (is.zip ds).length = is.length := by simp; omega
    have := step_dotVD (lf := lf) h (is.zip ds) (us := fun p => lookV env p.1) (fun p => p.2)
      (F := fun p x => look (σ x) p.1) (fun p hp => tl h1 p.1 (List.of_mem_zip hp).1)
      (by rw [hl]; have := hcap; simp only [Instr.cost] at this; omega)
    rw [e1, e2, hl] at this
    show ∃ vs s', Spec.one (Fz.dotVD (is.map (lookV env)) ds) s = .ok (vs, s') ∧
      StepEnv lf x0 s g val adj D ε s' (6 + is.length + 2 * ds.length) _ _
    rw [← h3]
    exact pack (ex this)
  | dotDV ds is =>
    obtain ⟨h1, h3⟩ := hok
    have e1 : (ds.zip is).map (fun p => lookV env p.2) = is.map (lookV env) := by
      exact (List.map_map (g := lookV env) (f := Prod.snd)).symm.trans (by rw [List.map_snd_zip (by omega)])
    have e2 : (ds.zip is).map (fun p => p.1) = ds := List.map_fst_zip (by omega)
    have hl : (ds.zip is).length = is.length := by simp; omega
    have := step_dotDV (lf := lf) h (ds.zip is) (us := fun p => lookV env p.2) (fun p => p.1)
      (F := fun p x => look (σ x) p.2) (fun p hp => tl h1 p.2 (List.of_mem_zip hp).2)
      (by rw [hl]; have := hcap; simp only [Instr.cost] at this; omega)
    rw [e1, e2, hl] at this
    show ∃ vs s', Spec.one (Fz.dotDV ds (is.map (lookV env))) s = .ok (vs, s') ∧
      StepEnv lf x0 s g val adj D ε s' (6 + is.length + 2 * ds.length) _ _
    rw [h3]
    exact pack (ex this)
  | matmulVV a b =>
    obtain ⟨h1, h2, h3, h4, h5, h6⟩ := hok
    refine stepEnv_many h te (step_matmulVV h (tm h2) (tm h3) h1 ?_ ?_ ?_ hcap) ?_ ?_
    · simp only [Matrix'.vars, int32Max]; omega
    · simp only [Matrix'.vars, int32Max]; omega
    · simp only [Matrix'.vars, int32Max]; omega
    · intro x; simp only [Instr.sem, List.length_map]; rfl
    · intro k hk x
      simp only [Instr.sem, entries_eq, List.getD_eq_getElem?_getD, List.getElem?_map]
      have hk' : k < (matPairs a.nrow b.ncol).length := hk
      rw [List.getElem?_eq_getElem hk']
      rfl
  | matmulVD a b =>
    obtain ⟨h1, h2, h4, h5, h6⟩ := hok
    refine stepEnv_many h te (step_matmulVD h (b := b.data) (tm h2) h1 ?_ ?_ ?_ hcap) ?_ ?_
    · simp only [Matrix'.vars, int32Max]; omega
    · simp only [Matrix'.vars, int32Max]; omega
    · simp only [Matrix'.data, int32Max]; omega
    · intro x; simp only [Instr.sem, List.length_map]; rfl
    · intro k hk x
      simp only [Instr.sem, entries_eq, List.getD_eq_getElem?_getD, List.getElem?_map]
      have hk' : k < (matPairs a.nrow b.ncol).length := hk
      rw [List.getElem?_eq_getElem hk']
      rfl
  | matmulDV a b =>
    obtain ⟨h1, h2, h4, h5, h6⟩ := hok
    refine stepEnv_many h te (step_matmulDV h (a := a.data) (tm h2) h1 ?_ ?_ ?_ hcap) ?_ ?_
    · simp only [Matrix'.data, int32Max]; omega
    · simp only [Matrix'.data, int32Max]; omega
    · simp only [Matrix'.vars, int32Max]; omega
    · intro x; simp only [Instr.sem, List.length_map]; rfl
    · intro k hk x
      simp only [Instr.sem, entries_eq, List.getD_eq_getElem?_getD, List.getElem?_map]
      have hk' : k < (matPairs a.nrow b.ncol).length := hk
      rw [List.getElem?_eq_getElem hk']
      rfl
  | lpdfVV d ys m sg =>
    obtain ⟨h1, h2, h3, h4⟩ := hok
    exact pack (step_lpdfVV h (te.tr m (by rw [← hlen]; exact h1)) (te.tr sg (by rw [← hlen]; exact h2))
      d ys h3 h4 hcap)
  | lpdfVD d ys m sg =>
    obtain ⟨h1, h3, h4⟩ := hok
    exact pack (step_lpdfVD h sg (te.tr m (by rw [← hlen]; exact h1)) d ys h3 h4 hcap)
  | lpdfDV d ys m sg =>
    obtain ⟨h1, h3, h4⟩ := hok
    exact pack (step_lpdfDV h m (te.tr sg (by rw [← hlen]; exact h1)) d ys h3 h4 hcap)
  | partials φ dφ is =>
    exact pack (step_partialsInstr h is (tl hok.1) hok.2 hcap)
  | user φ r is ds =>
    exact pack (step_userInstr h is (tl hok.1) hok.2.1 hok.2.2 hcap)

end Fz
