import Verif.Proof.Derivs2

/-!
# Library calls on tracked variables
-/

set_option linter.unusedSectionVars false

namespace Fz
open Arith

variable {W : Type} [Rep W ℝ] [LawfulRep W ℝ] {lf : Prop}
variable {E : Type} [NormedAddCommGroup E] [NormedSpace ℝ E]
variable {s s' s'' : St W} {g g' g'' : Graph ℝ} {val adj val' adj' val'' adj'' : Nat → ℝ}
  {D ε D' ε' D'' ε'' : Nat → E →L[ℝ] ℝ} {x0 : E}

/-- `s'` is a grown state in which `v` tracks `f` -/
def StepOne (lf : Prop) (x0 : E) (s : St W) (g : Graph ℝ) (val adj : Nat → ℝ) (D ε : Nat → E →L[ℝ] ℝ) (s' : St W)
    (words : Nat) (v : Var) (f : E → ℝ) : Prop :=
  ∃ g' val' adj' D' ε', Sim s' g' val' adj' D' ε' ∧
    Grows lf s g val adj D ε s' g' val' adj' D' ε' words ∧ Tracks x0 g' val' D' v f

theorem Tracks.congr {v : Var} {f f' : E → ℝ} (t : Tracks x0 g val D v f) (h : f' =ᶠ[nhds x0] f) :
    Tracks x0 g val D v f' :=
  ⟨t.has, by rw [h.eq_of_nhds]; exact t.value, t.deriv.congr_of_eventuallyEq h⟩

theorem step_same (h : Sim s g val adj D ε) {v : Var} {f : E → ℝ} (t : Tracks x0 g val D v f) :
    StepOne lf x0 s g val adj D ε s 0 v f :=
  ⟨_, _, _, _, _, h, Grows.refl _ _ _ _ _ _, t⟩

theorem step_unary_gr (h : Sim s g val adj D ε) {v : Var} {f : E → ℝ} (t : Tracks x0 g val D v f)
    {mf φ : ℝ → ℝ} {c : Chain} {k : ℝ} (hu : UnSpec mf c φ (f x0) k)
    (gr : Inv.Grown s g val adj ⟨s.tape.head, [g.pos v], [], c, .plain⟩ (mf (val (g.pos v))) s') :
    StepOne lf x0 s g val adj D ε s' 7 ⟨s.vhead⟩ (fun x => φ (f x)) := by
  have hv : mf (val (g.pos v)) = φ (f x0) := by rw [← t.value]; exact hu.value
  have := h.op (lf := lf) (vs := [v]) (ds := []) (c := c) (v := φ (f x0)) (coefs := [k])
    (f := fun x => φ (f x)) (x0 := x0) (by simpa using t.has) (by rw [← hv]; exact gr)
    (by simp only [List.map_cons, List.map_nil]; rw [← t.value]; exact hu.loc) rfl
    (by
      simp only [List.map_cons, List.map_nil, zsum, add_zero]
      exact hu.deriv.comp_hasFDerivAt x0 t.deriv)
  simpa [StepOne] using this

theorem step_unary (h : Sim s g val adj D ε) {v : Var} {f : E → ℝ} (t : Tracks x0 g val D v f)
    {mf φ : ℝ → ℝ} {c : Chain} {k : ℝ} (hu : UnSpec mf c φ (f x0) k)
    (hcap : s.tape.head + 7 ≤ cap) :
    ∃ s', (unary mf c v : M W Var) s = .ok (⟨s.vhead⟩, s') ∧
      StepOne lf x0 s g val adj D ε s' 7 ⟨s.vhead⟩ (fun x => φ (f x)) := by
  obtain ⟨s', e, gr⟩ := h.inv.unary_ok t.has mf c hcap
  exact ⟨s', e, step_unary_gr h t hu gr⟩

theorem step_binary (h : Sim s g val adj D ε) {v1 v2 : Var} {f1 f2 : E → ℝ}
    (t1 : Tracks x0 g val D v1 f1) (t2 : Tracks x0 g val D v2 f2)
    {mf φ : ℝ → ℝ → ℝ} {c : Chain} {k1 k2 : ℝ} (hb : BinSpec mf c φ (f1 x0) (f2 x0) k1 k2)
    (hcap : s.tape.head + 8 ≤ cap) :
    ∃ s', (binary mf c v1 v2 : M W Var) s = .ok (⟨s.vhead⟩, s') ∧
      StepOne lf x0 s g val adj D ε s' 8 ⟨s.vhead⟩ (fun x => φ (f1 x) (f2 x)) := by
  obtain ⟨s', e, gr⟩ := h.inv.binary_ok t1.has t2.has mf c hcap
  refine ⟨s', e, ?_⟩
  have hv : mf (val (g.pos v1)) (val (g.pos v2)) = φ (f1 x0) (f2 x0) := by
    rw [← t1.value, ← t2.value]; exact hb.value
  obtain ⟨coefs, hl, hk⟩ := hb.loc
  have hz : zsum coefs ([v1, v2].map g.pos) D = k1 • D (g.pos v1) + k2 • D (g.pos v2) := by
    rcases hk with rfl | ⟨rfl, rfl, rfl⟩ <;> simp [zsum]
  have := h.op (lf := lf) (vs := [v1, v2]) (ds := []) (c := c) (v := φ (f1 x0) (f2 x0)) (coefs := coefs)
    (f := fun x => φ (f1 x) (f2 x)) (x0 := x0) (by simp [t1.has, t2.has]) (by rw [← hv]; exact gr)
    (by simp only [List.map_cons, List.map_nil]; rw [← t1.value, ← t2.value]; exact hl) rfl
    (by
      rw [hz]
      have hd := hb.deriv.comp x0 (t1.deriv.prodMk t2.deriv)
      refine HasFDerivAt.congr_fderiv (f := fun x => φ (f1 x) (f2 x)) hd ?_
      ext z
      simp)
  simpa [StepOne] using this

theorem step_data (h : Sim s g val adj D ε) {v : Var} {f : E → ℝ} (t : Tracks x0 g val D v f)
    {mf φ : ℝ → ℝ} {d : ℝ} {c : Chain} {k : ℝ} (hu : DatSpec mf d c φ (f x0) k)
    (hcap : s.tape.head + 9 ≤ cap) :
    ∃ s', (unaryData mf d c v : M W Var) s = .ok (⟨s.vhead⟩, s') ∧
      StepOne lf x0 s g val adj D ε s' 9 ⟨s.vhead⟩ (fun x => φ (f x)) := by
  obtain ⟨s', e, gr⟩ := h.inv.unaryData_ok t.has mf d c hcap
  refine ⟨s', e, ?_⟩
  obtain ⟨coefs, hl, hk⟩ := hu.loc
  have hv : mf (val (g.pos v)) = φ (f x0) := by rw [← t.value]; exact hu.value
  have hd := hu.deriv.comp_hasFDerivAt x0 t.deriv
  have hz : zsum coefs ([v].map g.pos) D = k • D (g.pos v) := by
    rcases hk with rfl | ⟨rfl, rfl⟩ <;> simp [zsum]
  have := h.op (lf := lf) (vs := [v]) (ds := [d]) (c := c) (v := φ (f x0)) (coefs := coefs)
    (f := fun x => φ (f x)) (x0 := x0) (by simpa using t.has) (by rw [← hv]; exact gr)
    (by simp only [List.map_cons, List.map_nil]; rw [← t.value]; exact hl) rfl
    (by rw [hz]; exact hd)
  simpa [StepOne] using this

/-! ## sums -/

theorem fsum_real (l : List ℝ) : fsum l = l.sum := rfl

theorem hasFDerivAt_zsum {ι : Type} (G : ι → E → ℝ) (P : ι → Nat) (c : ι → ℝ) : ∀ (l : List ι),
    (∀ i ∈ l, HasFDerivAt (G i) (c i • D (P i)) x0) →
    HasFDerivAt (fun x => (l.map fun i => G i x).sum) (zsum (l.map c) (l.map P) D) x0 := by
  intro l
  induction l with
  | nil => intro _; simpa [zsum] using hasFDerivAt_const (0:ℝ) x0
  | cons i l ih =>
    intro h
    simp only [List.map_cons, List.sum_cons, zsum]
    exact (h i (by simp)).add (ih fun j hj => h j (by simp [hj]))

theorem hasFDerivAt_dot {ι : Type} (F G : ι → E → ℝ) (P Q : ι → Nat) : ∀ (l : List ι),
    (∀ i ∈ l, HasFDerivAt (F i) (D (P i)) x0) → (∀ i ∈ l, HasFDerivAt (G i) (D (Q i)) x0) →
    HasFDerivAt (fun x => (l.map fun i => F i x * G i x).sum)
      (zsum (l.map fun i => G i x0) (l.map P) D + zsum (l.map fun i => F i x0) (l.map Q) D) x0 := by
  intro l
  induction l with
  | nil => intro _ _; simpa [zsum] using hasFDerivAt_const (0:ℝ) x0
  | cons i l ih =>
    intro h h'
    simp only [List.map_cons, List.sum_cons, zsum]
    refine (((h i (by simp)).fun_mul (h' i (by simp))).add
      (ih (fun j hj => h j (by simp [hj])) (fun j hj => h' j (by simp [hj])))).congr_fderiv ?_
    abel

/-- a reduction of a list of tracked variables -/
theorem step_reduce (h : Sim s g val adj D ε) {ι : Type} (l : List ι) {vs : ι → Var} {F : ι → E → ℝ}
    (t : ∀ i ∈ l, Tracks x0 g val D (vs i) (F i)) {mf : List ℝ → ℝ} {φ : E → ℝ} {c : Chain}
    {coefs : ι → ℝ} (hval : mf (l.map fun i => F i x0) = φ x0)
    (hl : Local c (φ x0) (l.map fun i => F i x0) [] (l.map coefs))
    (hd : HasFDerivAt φ (zsum (l.map coefs) (l.map fun i => g.pos (vs i)) D) x0)
    (hcap : s.tape.head + (6 + l.length) ≤ cap) :
    ∃ s', (reduceV mf c (l.map vs) : M W Var) s = .ok (⟨s.vhead⟩, s') ∧
      StepOne lf x0 s g val adj D ε s' (6 + l.length) ⟨s.vhead⟩ φ := by
  have hv : ∀ v ∈ l.map vs, g.Has v := by
    intro v hv
    obtain ⟨i, hi, rfl⟩ := List.mem_map.mp hv
    exact (t i hi).has
  have hvals : ((l.map vs).map fun v => val (g.pos v)) = l.map fun i => F i x0 := by
    rw [List.map_map]
    exact List.map_congr_left fun i hi => ((t i hi).value).symm
  obtain ⟨s', e, gr⟩ := h.inv.reduceV_ok hv mf c (by simpa using hcap)
  refine ⟨s', e, ?_⟩
  rw [hvals, hval] at gr
  have := h.op (lf := lf) (vs := l.map vs) (ds := []) (coefs := l.map coefs) (f := φ) (x0 := x0) hv gr
    (by rw [hvals]; exact hl) rfl (by rw [List.map_map]; exact hd)
  simpa [StepOne] using this

theorem step_sum (h : Sim s g val adj D ε) {ι : Type} (l : List ι) {vs : ι → Var} {F : ι → E → ℝ}
    (t : ∀ i ∈ l, Tracks x0 g val D (vs i) (F i)) (hcap : s.tape.head + (6 + l.length) ≤ cap) :
    ∃ s', (sumV (l.map vs) : M W Var) s = .ok (⟨s.vhead⟩, s') ∧
      StepOne lf x0 s g val adj D ε s' (6 + l.length) ⟨s.vhead⟩ (fun x => (l.map fun i => F i x).sum) := by
  refine step_reduce h l t (coefs := fun _ => 1) (fsum_real _) ?_ ?_ hcap
  · intro a; simp [contribPlain]
  · exact hasFDerivAt_zsum F _ _ l fun i hi => by rw [one_smul]; exact (t i hi).deriv

theorem fnorm2_real (l : List ℝ) : fnorm2 l = √(l.map fun x => x ^ 2).sum := rfl

theorem step_norm2 (h : Sim s g val adj D ε) {ι : Type} (l : List ι) {vs : ι → Var} {F : ι → E → ℝ}
    (t : ∀ i ∈ l, Tracks x0 g val D (vs i) (F i)) (hne : ∃ i ∈ l, F i x0 ≠ 0)
    (hcap : s.tape.head + (6 + l.length) ≤ cap) :
    ∃ s', (norm2V (l.map vs) : M W Var) s = .ok (⟨s.vhead⟩, s') ∧
      StepOne lf x0 s g val adj D ε s' (6 + l.length) ⟨s.vhead⟩ (fun x => √(l.map fun i => F i x ^ 2).sum) := by
  have hp : 0 < (l.map fun i => F i x0 ^ 2).sum := by
    obtain ⟨i, hi, hne⟩ := hne
    have h1 : F i x0 ^ 2 ≤ (l.map fun i => F i x0 ^ 2).sum :=
      List.single_le_sum (by simp only [List.mem_map]; rintro x ⟨j, _, rfl⟩; positivity) _
        (List.mem_map.mpr ⟨i, hi, rfl⟩)
    have : 0 < F i x0 ^ 2 := by positivity
    linarith
  refine step_reduce h l t (coefs := fun i => (1 / (2 * √(l.map fun i => F i x0 ^ 2).sum)) * (2 * F i x0))
    ?_ ?_ ?_ hcap
  · rw [fnorm2_real, List.map_map]; rfl
  · intro a
    simp only [contribPlain, List.map_map, rMul, rDiv]
    congr 1
    refine List.map_congr_left fun i _ => ?_
    simp only [Function.comp_apply]
    field_simp
  · have h1 := hasFDerivAt_zsum (D := D) (x0 := x0) (fun i x => F i x ^ 2) (fun i => g.pos (vs i))
      (fun i => 2 * F i x0) l fun i hi => by
        have := ((hasDerivAt_pow 2 (F i x0)).comp_hasFDerivAt x0 (t i hi).deriv)
        refine HasFDerivAt.congr_fderiv (f := fun x => F i x ^ 2) this ?_
        simp
    have h2 := HasFDerivAt.sqrt h1 hp.ne'
    refine h2.congr_fderiv ?_
    rw [← zsum_smul, List.map_map]
    rfl

theorem fmaxval_mem : ∀ (l : List ℝ), l ≠ [] → fmaxval l ∈ l := by
  intro l h
  cases l with
  | nil => exact absurd rfl h
  | cons x xs =>
    show xs.foldl _ x ∈ x :: xs
    clear h
    induction xs generalizing x with
    | nil => simp
    | cons y ys ih =>
      simp only [List.foldl_cons]
      by_cases hc : flt x y = true
      · rw [if_pos hc]; exact List.mem_cons_of_mem _ (ih y)
      · rw [if_neg hc]
        rcases List.mem_cons.mp (ih x) with h | h
        · rw [h]; simp
        · exact List.mem_cons_of_mem _ (List.mem_cons_of_mem _ h)

theorem logSumExpD_real {l : List ℝ} (hne : l ≠ []) (hb : ∀ x ∈ l, x ≤ Spec.hugeDouble) :
    logSumExpD l = Real.log (l.map Real.exp).sum := by
  unfold logSumExpD
  simp only
  have hm := hb _ (fmaxval_mem l hne)
  have hinf : ¬ isInf (fmaxval l) = true := by
    unfold isInf
    rw [rFgt]
    show ¬ (fmaxval l > Spec.hugeDouble)
    exact not_lt.mpr hm
  rw [if_neg hinf, fsum_real, rAdd, rLog]
  generalize fmaxval l = m
  have e : ∀ l : List ℝ, (l.map fun x => Arith.exp (x -. m)).sum = Real.exp (-m) * (l.map Real.exp).sum := by
    intro l
    induction l with
    | nil => simp
    | cons x l ih =>
      simp only [List.map_cons, List.sum_cons]
      rw [ih, rExp, rSub, mul_add, ← Real.exp_add]
      congr 2; ring
  have hpos : 0 < (l.map Real.exp).sum := by
    cases l with
    | nil => exact absurd rfl hne
    | cons x l =>
      simp only [List.map_cons, List.sum_cons]
      have h1 := Real.exp_pos x
      have h2 : 0 ≤ (l.map Real.exp).sum := by
        apply List.sum_nonneg
        intro y hy
        obtain ⟨z, _, rfl⟩ := List.mem_map.mp hy
        exact (Real.exp_pos z).le
      linarith
  rw [e, Real.log_mul (Real.exp_pos _).ne' hpos.ne', Real.log_exp]
  ring

theorem step_logSumExp (h : Sim s g val adj D ε) {ι : Type} (l : List ι) {vs : ι → Var} {F : ι → E → ℝ}
    (t : ∀ i ∈ l, Tracks x0 g val D (vs i) (F i)) (hne : l ≠ [])
    (hb : ∀ i ∈ l, F i x0 ≤ Spec.hugeDouble) (hcap : s.tape.head + (6 + l.length) ≤ cap) :
    ∃ s', (logSumExpV (l.map vs) : M W Var) s = .ok (⟨s.vhead⟩, s') ∧
      StepOne lf x0 s g val adj D ε s' (6 + l.length) ⟨s.vhead⟩
        (fun x => Real.log (l.map fun i => Real.exp (F i x)).sum) := by
  have hp : 0 < (l.map fun i => Real.exp (F i x0)).sum := by
    obtain ⟨i, hi⟩ := List.exists_mem_of_ne_nil l hne
    have h1 : Real.exp (F i x0) ≤ (l.map fun i => Real.exp (F i x0)).sum :=
      List.single_le_sum (by simp only [List.mem_map]; rintro x ⟨j, _, rfl⟩; positivity) _
        (List.mem_map.mpr ⟨i, hi, rfl⟩)
    have := Real.exp_pos (F i x0)
    linarith
  refine step_reduce h l t
    (coefs := fun i => ((l.map fun i => Real.exp (F i x0)).sum)⁻¹ * Real.exp (F i x0)) ?_ ?_ ?_ hcap
  · rw [logSumExpD_real (by simpa using hne)
      (by intro x hx; obtain ⟨i, hi, rfl⟩ := List.mem_map.mp hx; exact hb i hi), List.map_map]
    rfl
  · intro a
    simp only [contribPlain, List.map_map, rMul, rExp, rSub]
    congr 1
    refine List.map_congr_left fun i _ => ?_
    simp only [Function.comp_apply]
    rw [Real.exp_sub, Real.exp_log hp]
    field_simp
  · have h1 := hasFDerivAt_zsum (D := D) (x0 := x0) (fun i x => Real.exp (F i x)) (fun i => g.pos (vs i))
      (fun i => Real.exp (F i x0)) l fun i hi => (t i hi).deriv.exp
    have h2 := HasFDerivAt.log h1 hp.ne'
    refine h2.congr_fderiv ?_
    rw [← zsum_smul, List.map_map]
    rfl

/-! ## dot products -/

theorem fdot_real {ι : Type} (l : List ι) (f g : ι → ℝ) :
    fdot (l.map f) (l.map g) = (l.map fun i => f i * g i).sum := by
  show (List.zipWith (· * ·) (l.map f) (l.map g)).sum = _
  congr 1
  induction l with
  | nil => rfl
  | cons x l ih => simp only [List.map_cons, List.zipWith_cons_cons, ih]

theorem fmul_real {ι : Type} (l : List ι) (f g : ι → ℝ) :
    fmul (l.map f) (l.map g) = (l.map fun i => f i * g i).sum := fdot_real l f g

theorem step_dotVV (h : Sim s g val adj D ε) {ι : Type} (l : List ι) {us vs : ι → Var} {F G : ι → E → ℝ}
    (t : ∀ i ∈ l, Tracks x0 g val D (us i) (F i)) (t' : ∀ i ∈ l, Tracks x0 g val D (vs i) (G i))
    (hcap : s.tape.head + (6 + (l.length + l.length)) ≤ cap) :
    ∃ s', (dotVV (l.map us) (l.map vs) : M W Var) s = .ok (⟨s.vhead⟩, s') ∧
      StepOne lf x0 s g val adj D ε s' (6 + (l.length + l.length)) ⟨s.vhead⟩
        (fun x => (l.map fun i => F i x * G i x).sum) := by
  have hu : ∀ v ∈ l.map us, g.Has v := by
    intro v hv; obtain ⟨i, hi, rfl⟩ := List.mem_map.mp hv; exact (t i hi).has
  have hv : ∀ v ∈ l.map vs, g.Has v := by
    intro v hv; obtain ⟨i, hi, rfl⟩ := List.mem_map.mp hv; exact (t' i hi).has
  have e1 : ((l.map us).map fun v => val (g.pos v)) = l.map fun i => F i x0 := by
    rw [List.map_map]; exact List.map_congr_left fun i hi => ((t i hi).value).symm
  have e2 : ((l.map vs).map fun v => val (g.pos v)) = l.map fun i => G i x0 := by
    rw [List.map_map]; exact List.map_congr_left fun i hi => ((t' i hi).value).symm
  obtain ⟨s', e, gr⟩ := h.inv.dotVV_ok hu hv (by simp) (by simpa using hcap)
  refine ⟨s', e, ?_⟩
  rw [e1, e2, fdot_real] at gr
  have := h.op (lf := lf) (vs := l.map us ++ l.map vs) (ds := [])
    (coefs := (l.map fun i => G i x0) ++ l.map fun i => F i x0)
    (f := fun x => (l.map fun i => F i x * G i x).sum) (x0 := x0)
    (by intro v hm; rcases List.mem_append.mp hm with hm | hm; exacts [hu v hm, hv v hm]) gr
    (by
      rw [List.map_append, e1, e2]
      intro a
      simp only [contribPlain, cDot, List.length_append, List.length_map]
      have : (l.length + l.length) / 2 = l.length := by omega
      rw [this, List.drop_left' (by simp), List.take_left' (by simp), List.take_of_length_le (by simp)]
      simp)
    rfl
    (by
      rw [List.map_append, zsum_append _ _ _ _ _ (by simp), List.map_map, List.map_map]
      exact hasFDerivAt_dot F G (fun i => g.pos (us i)) (fun i => g.pos (vs i)) l
        (fun i hi => (t i hi).deriv) (fun i hi => (t' i hi).deriv))
  simpa [StepOne] using this

theorem step_dotVD (h : Sim s g val adj D ε) {ι : Type} (l : List ι) {us : ι → Var} {F : ι → E → ℝ}
    (d : ι → ℝ) (t : ∀ i ∈ l, Tracks x0 g val D (us i) (F i))
    (hcap : s.tape.head + (6 + l.length + 2 * l.length) ≤ cap) :
    ∃ s', (dotVD (l.map us) (l.map d) : M W Var) s = .ok (⟨s.vhead⟩, s') ∧
      StepOne lf x0 s g val adj D ε s' (6 + l.length + 2 * l.length) ⟨s.vhead⟩
        (fun x => (l.map fun i => F i x * d i).sum) := by
  have hu : ∀ v ∈ l.map us, g.Has v := by
    intro v hv; obtain ⟨i, hi, rfl⟩ := List.mem_map.mp hv; exact (t i hi).has
  have e1 : ((l.map us).map fun v => val (g.pos v)) = l.map fun i => F i x0 := by
    rw [List.map_map]; exact List.map_congr_left fun i hi => ((t i hi).value).symm
  obtain ⟨s', e, gr⟩ := h.inv.dotVD_ok hu (l.map d) (by simp) (by simpa using hcap)
  refine ⟨s', e, ?_⟩
  rw [e1, fdot_real] at gr
  have := h.op (lf := lf) (vs := l.map us) (ds := l.map d) (coefs := l.map d)
    (f := fun x => (l.map fun i => F i x * d i).sum) (x0 := x0) hu gr
    (by intro a; simp [contribPlain, cAll])
    rfl
    (by
      rw [List.map_map]
      exact hasFDerivAt_zsum _ _ _ l fun i hi => (t i hi).deriv.mul_const (d i))
  simpa [StepOne] using this

theorem step_dotDV (h : Sim s g val adj D ε) {ι : Type} (l : List ι) {us : ι → Var} {F : ι → E → ℝ}
    (d : ι → ℝ) (t : ∀ i ∈ l, Tracks x0 g val D (us i) (F i))
    (hcap : s.tape.head + (6 + l.length + 2 * l.length) ≤ cap) :
    ∃ s', (dotDV (l.map d) (l.map us) : M W Var) s = .ok (⟨s.vhead⟩, s') ∧
      StepOne lf x0 s g val adj D ε s' (6 + l.length + 2 * l.length) ⟨s.vhead⟩
        (fun x => (l.map fun i => d i * F i x).sum) := by
  have hu : ∀ v ∈ l.map us, g.Has v := by
    intro v hv; obtain ⟨i, hi, rfl⟩ := List.mem_map.mp hv; exact (t i hi).has
  have e1 : ((l.map us).map fun v => val (g.pos v)) = l.map fun i => F i x0 := by
    rw [List.map_map]; exact List.map_congr_left fun i hi => ((t i hi).value).symm
  obtain ⟨s', e, gr⟩ := h.inv.dotDV_ok (l.map d) hu (by simp) (by simpa using hcap)
  refine ⟨s', e, ?_⟩
  rw [e1, fdot_real] at gr
  have := h.op (lf := lf) (vs := l.map us) (ds := l.map d) (coefs := l.map d)
    (f := fun x => (l.map fun i => d i * F i x).sum) (x0 := x0) hu gr
    (by intro a; simp [contribPlain, cAll])
    rfl
    (by
      rw [List.map_map]
      exact hasFDerivAt_zsum _ _ _ l fun i hi => (t i hi).deriv.const_mul (d i))
  simpa [StepOne] using this

/-- `var_with_partials` on tracked variables with the right partial derivatives -/
theorem step_partials (h : Sim s g val adj D ε) {ι : Type} (l : List ι) {us : ι → Var} {F : ι → E → ℝ}
    (t : ∀ i ∈ l, Tracks x0 g val D (us i) (F i)) {φ : E → ℝ} {v : ℝ} {ds : List ℝ} (hv : φ x0 = v)
    (hl : ds.length = l.length)
    (hd : HasFDerivAt φ (zsum ds (l.map fun i => g.pos (us i)) D) x0)
    (hcap : s.tape.head + (6 + 3 * l.length) ≤ cap) :
    ∃ s', (varWithPartials v (l.map us) ds : M W Var) s = .ok (⟨s.vhead⟩, s') ∧
      StepOne lf x0 s g val adj D ε s' (6 + 3 * l.length) ⟨s.vhead⟩ φ := by
  have hu : ∀ v ∈ l.map us, g.Has v := by
    intro v hv; obtain ⟨i, hi, rfl⟩ := List.mem_map.mp hv; exact (t i hi).has
  obtain ⟨s', e, gr⟩ := h.inv.varWithPartials_ok v hu ds (by simp [hl]) (by simp; omega)
  refine ⟨s', e, ?_⟩
  rw [List.take_of_length_le (by simp [hl])] at gr
  have := h.op (lf := lf) (vs := l.map us) (ds := ds) (coefs := ds) (f := φ) (x0 := x0) hu gr
    (by intro a; simp [contribPlain, hl]) hv (by rw [List.map_map]; exact hd)
  have e2 : 6 + (l.map us).length + 2 * ds.length = 6 + 3 * l.length := by simp [hl]; omega
  rw [e2] at this
  exact this

end Fz
