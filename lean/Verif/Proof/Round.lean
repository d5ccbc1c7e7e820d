import Verif.Proof.Sums
import Mathlib.Data.List.Perm.Basic
import Verif.Spec.Round
import Verif.Proof.BookOne
import Mathlib.Tactic.FieldSimp
import Mathlib.Tactic.Positivity

/-! # Rounding errors of the reverse sweep -/

set_option linter.unusedSectionVars false

namespace Fz
open Spec

/-! ## relative errors -/

variable {F : Floats}

/-- one rounding -/
noncomputable def rho (F : Floats) : ℝ := 1 / (1 - F.u)

theorem rho_ge : 1 ≤ rho F := by
  unfold rho
  have := F.u_nonneg
  have := F.u_lt
  rw [le_div_iff₀ (by linarith)]
  linarith

theorem rho_pos : 0 < rho F := lt_of_lt_of_le one_pos rho_ge

theorem rho_u : F.u ≤ rho F - 1 := by
  unfold rho
  have h1 := F.u_nonneg
  have h2 := F.u_lt
  rw [le_sub_iff_add_le, le_div_iff₀ (by linarith)]
  nlinarith

theorem rho_pow (m : Nat) : 1 ≤ rho F ^ m := one_le_pow₀ rho_ge

/-- `c` is `e` up to `m` roundings -/
def Near (F : Floats) (m : Nat) (c e : ℝ) : Prop := ∃ t, (rho F ^ m)⁻¹ ≤ t ∧ t ≤ rho F ^ m ∧ c = e * t

theorem Near.rfl {e : ℝ} : Near F 0 e e := ⟨1, by simp, by simp, by simp⟩

theorem Near.mono {m n : Nat} (h : m ≤ n) {c e : ℝ} : Near F m c e → Near F n c e := by
  rintro ⟨t, h1, h2, h3⟩
  have hp : rho F ^ m ≤ rho F ^ n := pow_le_pow_right₀ rho_ge h
  exact ⟨t, (inv_anti₀ (pow_pos rho_pos _) hp).trans h1, h2.trans hp, h3⟩

theorem Near.neg {m : Nat} {c e : ℝ} : Near F m c e → Near F m (-c) (-e) := by
  rintro ⟨t, h1, h2, h3⟩
  exact ⟨t, h1, h2, by rw [h3]; ring⟩

theorem Near.pos_t {m : Nat} {t : ℝ} (h : (rho F ^ m)⁻¹ ≤ t) : 0 < t := (inv_pos.mpr (pow_pos rho_pos _)).trans_le h

theorem near_of_within {c e : ℝ} (h : Within F.u c e) : Near F 1 c e := by
  unfold Within at h
  have h1 := F.u_nonneg
  have h2 := F.u_lt
  by_cases he : e = 0
  · subst he
    simp only [sub_zero, abs_zero, mul_zero] at h
    have : c = 0 := abs_nonpos_iff.mp h
    exact ⟨1, inv_le_one_of_one_le₀ (rho_pow 1), rho_pow 1, by rw [this]; simp⟩
  · refine ⟨c / e, ?_, ?_, by field_simp⟩
    all_goals
      have h3 : |c / e - 1| ≤ F.u := by
        rw [show c / e - 1 = (c - e) / e by field_simp, abs_div, div_le_iff₀ (abs_pos.mpr he)]
        exact h
      obtain ⟨h4, h5⟩ := abs_le.mp h3
    · rw [pow_one, rho, one_div, inv_inv]
      linarith
    · have := rho_u (F := F)
      rw [pow_one]
      linarith

theorem Near.trans {m n : Nat} {c d e : ℝ} : Near F m c d → Near F n d e → Near F (m + n) c e := by
  rintro ⟨t, h1, h2, h3⟩ ⟨t', k1, k2, k3⟩
  have p := Near.pos_t h1
  have p' := Near.pos_t k1
  refine ⟨t' * t, ?_, ?_, by rw [h3, k3]; ring⟩
  · rw [pow_add, mul_inv, mul_comm t']
    exact mul_le_mul h1 k1 (inv_nonneg.mpr (pow_nonneg rho_pos.le _)) p.le
  · rw [pow_add, mul_comm t']
    exact mul_le_mul h2 k2 p'.le (pow_nonneg rho_pos.le _)

theorem Near.times {m n : Nat} {c e c' e' : ℝ} (h : Near F m c e) (h' : Near F n c' e') : Near F (m + n) (c * c') (e * e') := by
  obtain ⟨t, h1, h2, h3⟩ := h
  obtain ⟨t', k1, k2, k3⟩ := h'
  have p := Near.pos_t h1
  have p' := Near.pos_t k1
  refine ⟨t * t', ?_, ?_, by rw [h3, k3]; ring⟩
  · rw [pow_add, mul_inv]
    exact mul_le_mul h1 k1 (inv_nonneg.mpr (pow_nonneg rho_pos.le _)) p.le
  · rw [pow_add]
    exact mul_le_mul h2 k2 p'.le (pow_nonneg rho_pos.le _)

theorem Near.inv {m : Nat} {c e : ℝ} (h : Near F m c e) : Near F m c⁻¹ e⁻¹ := by
  obtain ⟨t, h1, h2, h3⟩ := h
  have p := Near.pos_t h1
  refine ⟨t⁻¹, inv_anti₀ p h2, ?_, by rw [h3, mul_inv]⟩
  rw [inv_le_comm₀ p (pow_pos rho_pos _)]
  exact h1

theorem Near.ne {m : Nat} {c e : ℝ} (h : Near F m c e) (he : e ≠ 0) : c ≠ 0 := by
  obtain ⟨t, h1, h2, h3⟩ := h
  rw [h3]
  exact mul_ne_zero he (Near.pos_t h1).ne'

theorem Near.nonneg {m : Nat} {c e : ℝ} (h : Near F m c e) (he : 0 ≤ e) : 0 ≤ c := by
  obtain ⟨t, h1, h2, h3⟩ := h
  rw [h3]
  exact mul_nonneg he (Near.pos_t h1).le

/-- sums of numbers that are not negative -/
theorem Near.plus {m : Nat} {c e c' e' : ℝ} (h : Near F m c e) (h' : Near F m c' e') (he : 0 ≤ e) (he' : 0 ≤ e') :
    Near F m (c + c') (e + e') := by
  obtain ⟨t, h1, h2, h3⟩ := h
  obtain ⟨t', k1, k2, k3⟩ := h'
  by_cases h0 : e + e' = 0
  · have z : e = 0 := by linarith
    have z' : e' = 0 := by linarith
    subst z z'
    exact ⟨t, h1, h2, by rw [h3, k3]; ring⟩
  · have hp : 0 < e + e' := lt_of_le_of_ne (by linarith) (Ne.symm h0)
    refine ⟨(c + c') / (e + e'), ?_, ?_, by field_simp⟩
    · rw [le_div_iff₀ hp, h3, k3]
      nlinarith [mul_le_mul_of_nonneg_left h1 he, mul_le_mul_of_nonneg_left k1 he']
    · rw [div_le_iff₀ hp, h3, k3]
      nlinarith [mul_le_mul_of_nonneg_left h2 he, mul_le_mul_of_nonneg_left k2 he']

theorem Near.root {m : Nat} {c e : ℝ} (h : Near F m c e) (he : 0 ≤ e) : Near F m (√c) (√e) := by
  obtain ⟨t, h1, h2, h3⟩ := h
  have p := Near.pos_t h1
  refine ⟨√t, ?_, ?_, by rw [h3, Real.sqrt_mul he]⟩
  · refine Real.le_sqrt_of_sq_le (le_trans ?_ h1)
    have k1 : (rho F ^ m)⁻¹ ≤ 1 := inv_le_one_of_one_le₀ (rho_pow m)
    have k2 : 0 ≤ (rho F ^ m)⁻¹ := inv_nonneg.mpr (pow_nonneg rho_pos.le _)
    nlinarith
  · refine Real.sqrt_le_iff.mpr ⟨pow_nonneg rho_pos.le _, h2.trans ?_⟩
    have := rho_pow (F := F) m
    nlinarith

theorem Near.err {m : Nat} {c e : ℝ} (h : Near F m c e) : |c - e| ≤ (rho F ^ m - 1) * |e| := by
  obtain ⟨t, h1, h2, h3⟩ := h
  have p := Near.pos_t h1
  rw [h3, show e * t - e = (t - 1) * e by ring, abs_mul]
  refine mul_le_mul_of_nonneg_right (abs_le.mpr ⟨?_, by linarith⟩) (abs_nonneg e)
  have hr := rho_pow (F := F) m
  have h4 : (1:ℝ) = (rho F ^ m)⁻¹ * rho F ^ m := (inv_mul_cancel₀ (by linarith)).symm
  nlinarith [inv_nonneg.mpr (by linarith : 0 ≤ rho F ^ m)]

/-! ## the operations -/

local notation x " ∔ " y => (Arith.add (R := Flo F) x y)

theorem near_add (x y : Flo F) : Near F 1 (Arith.add x y : Flo F) (x.real + y.real) := near_of_within (F.add x y)
theorem near_mul (x y : Flo F) : Near F 1 (Arith.mul x y : Flo F) (x.real * y.real) := near_of_within (F.mul x y)
theorem near_div (x y : Flo F) (h : y.real ≠ 0) : Near F 1 (Arith.div x y : Flo F) (x.real / y.real) :=
  near_of_within (F.div x y h)

theorem mul_near {m n : Nat} {x y : Flo F} {e e' : ℝ} (h : Near F m x.real e) (h' : Near F n y.real e') :
    Near F (m + n + 1) (Arith.mul x y : Flo F).real (e * e') := by
  rw [show m + n + 1 = 1 + (m + n) by omega]
  exact (near_mul x y).trans (h.times h')

theorem div_near {m n : Nat} {x y : Flo F} {e e' : ℝ} (h : Near F m x.real e) (h' : Near F n y.real e') (he : e' ≠ 0) :
    Near F (m + n + 1) (Arith.div x y : Flo F).real (e / e') := by
  rw [show m + n + 1 = 1 + (m + n) by omega, div_eq_mul_inv]
  refine (near_div x y (h'.ne he)).trans ?_
  rw [div_eq_mul_inv]
  exact h.times h'.inv

theorem add_near {m : Nat} {x y : Flo F} {e e' : ℝ} (h : Near F m x.real e) (h' : Near F m y.real e') (he : 0 ≤ e)
    (he' : 0 ≤ e') : Near F (m + 1) (Arith.add x y : Flo F).real (e + e') := by
  rw [show m + 1 = 1 + m by omega]
  exact (near_add x y).trans (h.plus h' he he')

theorem sqrt_near {m : Nat} {x : Flo F} {e : ℝ} (h : Near F m x.real e) (he : 0 ≤ e) :
    Near F (m + 1) (Arith.sqrt x : Flo F).real (√e) := by
  rw [show m + 1 = 1 + m by omega]
  exact (near_of_within (F.sqrt x (h.nonneg he))).trans (h.root he)

theorem neg_near {m : Nat} {x : Flo F} {e : ℝ} (h : Near F m x.real e) : Near F m (Arith.neg x : Flo F).real (-e) := by
  rw [show (Arith.neg x : Flo F).real = -x.real from F.neg x]
  exact h.neg

/-! ## the sweep -/

/-- rounded rule and exact rule of a step -/
structure Pair (F : Floats) (s : Step (Flo F)) (e : Step ℝ) : Prop where
  src : s.src = e.src
  slopes : ∃ p : List ℝ, (∀ a, e.pass a = p.map (· * a)) ∧
    ∀ a : Flo F, List.Forall₂ (fun c q => Near F (8 + 2 * e.src.length) (Flo.real c) (q * a.real)) (s.pass a) p

/-- rounded, exact and absolute adjoints -/
def Err3 (F : Floats) (N : Nat) (c : Nat → Flo F) (e A : Nat → ℝ) : Prop :=
  ∀ j, |(c j).real - e j| ≤ (rho F ^ N - 1) * A j ∧ |e j| ≤ A j

theorem Err3.A_nonneg {N : Nat} {c : Nat → Flo F} {e A : Nat → ℝ} (h : Err3 F N c e A) (j : Nat) : 0 ≤ A j :=
  (abs_nonneg _).trans (h j).2

theorem Err3.mono {M N : Nat} (hMN : M ≤ N) {c : Nat → Flo F} {e A : Nat → ℝ} (h : Err3 F M c e A) : Err3 F N c e A := by
  intro j
  refine ⟨(h j).1.trans (mul_le_mul_of_nonneg_right ?_ (h.A_nonneg j)), (h j).2⟩
  have : rho F ^ M ≤ rho F ^ N := pow_le_pow_right₀ rho_ge hMN
  linarith

/-- a rounded sum -/
theorem add_err {M N : Nat} (hM : N ≤ M) {c d : Flo F} {e A e1 a1 : ℝ} (h : |c.real - e| ≤ (rho F ^ M - 1) * A ∧ |e| ≤ A)
    (h1 : |d.real - e1| ≤ (rho F ^ N - 1) * a1 ∧ |e1| ≤ a1) :
    |(Arith.add c d : Flo F).real - (e + e1)| ≤ (rho F ^ (M + 1) - 1) * (A + a1) ∧ |e + e1| ≤ A + a1 := by
  obtain ⟨hc, he⟩ := h
  obtain ⟨h1c, h1e⟩ := h1
  have hA : 0 ≤ A := (abs_nonneg _).trans he
  have ha1 : 0 ≤ a1 := (abs_nonneg _).trans h1e
  have hG := rho_pow (F := F) M
  have hNM : rho F ^ N ≤ rho F ^ M := pow_le_pow_right₀ rho_ge hM
  have hz := (near_add c d).err
  rw [pow_one] at hz
  have hs : |c.real + d.real - (e + e1)| ≤ (rho F ^ M - 1) * (A + a1) := by
    have t1 : (rho F ^ N - 1) * a1 ≤ (rho F ^ M - 1) * a1 := mul_le_mul_of_nonneg_right (by linarith) ha1
    rw [show c.real + d.real - (e + e1) = (c.real - e) + (d.real - e1) by ring]
    refine (abs_add_le _ _).trans ?_
    rw [mul_add]
    linarith
  have hsum : |e + e1| ≤ A + a1 := (abs_add_le _ _).trans (add_le_add he h1e)
  refine ⟨?_, hsum⟩
  have hz2 : |c.real + d.real| ≤ rho F ^ M * (A + a1) := by
    have t2 := abs_sub_abs_le_abs_sub (c.real + d.real) (e + e1)
    rw [show rho F ^ M * (A + a1) = (rho F ^ M - 1) * (A + a1) + (A + a1) by ring]
    linarith
  have hr : 0 ≤ rho F - 1 := by linarith [rho_ge (F := F)]
  have hz' : |(Arith.add c d : Flo F).real - (c.real + d.real)| ≤ (rho F - 1) * (rho F ^ M * (A + a1)) :=
    le_trans hz (mul_le_mul_of_nonneg_left hz2 hr)
  have t3 := abs_sub_le (Arith.add c d : Flo F).real (c.real + d.real) (e + e1)
  rw [pow_succ]
  nlinarith

/-- a rounded sum of an array, in any order -/
theorem sums_err {N : Nat} {l : List ℝ} {k : Nat} {s : ℝ} (h : Sums 0 F.arith.add l k s) : ∀ {es : List ℝ},
    List.Forall₂ (fun d q => |d - q| ≤ (rho F ^ N - 1) * |q|) l es →
    |s - es.sum| ≤ (rho F ^ (N + k) - 1) * (es.map abs).sum ∧ |es.sum| ≤ (es.map abs).sum := by
  induction h with
  | none =>
    rintro _ ⟨⟩
    simp
  | one x =>
    rintro _ (_ | ⟨h, ⟨⟩⟩)
    simpa using h
  | @join l₁ l₂ l k₁ k₂ a b _ _ hp ih₁ ih₂ =>
    intro es hes
    obtain ⟨vs, hv, hvp⟩ := List.perm_comp_forall₂ hp hes
    obtain ⟨v₁, v₂, rfl, h1, h2⟩ := forall2_split hv
    have e1 := ih₁ h1
    have e2 := ih₂ h2
    have up : ∀ {k}, k ≤ k₁ + k₂ → ∀ {A : ℝ}, 0 ≤ A → (rho F ^ (N + k) - 1) * A ≤ (rho F ^ (N + (k₁ + k₂)) - 1) * A :=
      fun hk _ hA => mul_le_mul_of_nonneg_right
        (by linarith [pow_le_pow_right₀ (rho_ge (F := F)) (Nat.add_le_add_left hk N)]) hA
    have p : ∀ v : List ℝ, 0 ≤ (v.map abs).sum := fun v => List.sum_nonneg fun y hy => by
      obtain ⟨z, -, rfl⟩ := List.mem_map.mp hy
      exact abs_nonneg z
    have := add_err (F := F) (le_refl (N + (k₁ + k₂))) (c := a) (d := b)
      ⟨e1.1.trans (up (by omega) (p v₁)), e1.2⟩ ⟨e2.1.trans (up (by omega) (p v₂)), e2.2⟩
    rw [← hvp.sum_eq, ← (hvp.map abs).sum_eq, List.sum_append, List.map_append, List.sum_append]
    exact this

theorem receive_err {N : Nat} (src : List (Option Nat)) : ∀ {ds : List (Flo F)} {es as : List ℝ} {c : Nat → Flo F}
    {e A : Nat → ℝ} {M : Nat}, N ≤ M → Err3 F M c e A →
    List.Forall₂ (fun d (q : ℝ × ℝ) => |Flo.real d - q.1| ≤ (rho F ^ N - 1) * q.2 ∧ |q.1| ≤ q.2) ds (es.zip as) →
    es.length = as.length →
    Err3 F (M + src.length) (receive c src ds) (receive e src es) (receive A src as) := by
  induction src with
  | nil =>
    intro ds es as c e A M _ h _ _
    simpa [receive] using h
  | cons r src ih =>
    intro ds es as c e A M hM h hd hl
    cases es with
    | nil =>
      cases as with
      | cons _ _ => simp at hl
      | nil =>
        cases hd
        cases r <;> simpa [receive] using h.mono (Nat.le_add_right _ _)
    | cons e1 es =>
      cases as with
      | nil => simp at hl
      | cons a1 as =>
        simp only [List.zip_cons_cons] at hd
        cases hd with
        | @cons d1 _ ds _ h1 hd =>
          have hl' : es.length = as.length := by simpa using hl
          cases r with
          | none =>
            simp only [receive, List.length_cons]
            exact (ih hM h hd hl').mono (by omega)
          | some k =>
            simp only [receive, List.length_cons]
            rw [show M + (src.length + 1) = (M + 1) + src.length by omega]
            refine ih (by omega) ?_ hd hl'
            intro j
            dsimp only
            split
            · rename_i hj
              subst hj
              exact add_err hM (h j) h1
            · exact h.mono (by omega) j

/-- the cost of a step -/
def cost (e : Step ℝ) : Nat := 8 + 3 * e.src.length

theorem back_err {T : List (Step (Flo F))} {E : List (Step ℝ)} (h : List.Forall₂ (Pair F) T E) (k : Nat)
    {c : Nat → Flo F} {e A : Nat → ℝ} {N : Nat} (h0 : Err3 F N c e A) :
    Err3 F (N + (E.map cost).sum) (backFrom k T c) (backFrom k E e) (backFrom k (E.map Step.absolute) A) := by
  induction h generalizing k with
  | nil => simpa [backFrom] using h0
  | @cons s t T E hp _ ih =>
    have hi := ih (k + 1)
    simp only [List.map_cons, List.sum_cons, backFrom]
    generalize backFrom (k + 1) T c = c' at *
    generalize backFrom (k + 1) E e = e' at *
    generalize backFrom (k + 1) (E.map Step.absolute) A = A' at *
    generalize (E.map cost).sum = S at *
    obtain ⟨hsrc, p, hlin, hnear⟩ := hp
    obtain ⟨hc, he⟩ := hi k
    have hA := hi.A_nonneg k
    have hG := rho_pow (F := F) (N + S)
    set m := 8 + 2 * t.src.length with hm
    have hd : List.Forall₂ (fun d (q : ℝ × ℝ) => |Flo.real d - q.1| ≤ (rho F ^ (N + S + m) - 1) * q.2 ∧ |q.1| ≤ q.2)
        (s.pass (c' k)) ((p.map (· * e' k)).zip (p.map fun q => |q| * A' k)) := by
      have := hnear (c' k)
      generalize s.pass (c' k) = ds at this
      clear hlin hnear
      induction this with
      | nil => simp
      | @cons d q ds p hq _ ih2 =>
        simp only [List.map_cons, List.zip_cons_cons]
        refine .cons ⟨?_, ?_⟩ ih2
        · dsimp only
          have h1 := hq.err
          rw [abs_mul] at h1
          have h2 : |(c' k).real| ≤ rho F ^ (N + S) * A' k := by
            have t2 := abs_sub_abs_le_abs_sub (c' k).real (e' k)
            rw [show rho F ^ (N + S) * A' k = (rho F ^ (N + S) - 1) * A' k + A' k by ring]
            linarith
          have h3 := abs_sub_le (Flo.real d) (q * (c' k).real) (q * e' k)
          rw [show q * (c' k).real - q * e' k = q * ((c' k).real - e' k) by ring, abs_mul] at h3
          have hM := rho_pow (F := F) m
          have h4 : (rho F ^ m - 1) * (|q| * |(c' k).real|) ≤ (rho F ^ m - 1) * (|q| * (rho F ^ (N + S) * A' k)) :=
            mul_le_mul_of_nonneg_left (mul_le_mul_of_nonneg_left h2 (abs_nonneg q)) (by linarith)
          have h5 : |q| * |(c' k).real - e' k| ≤ |q| * ((rho F ^ (N + S) - 1) * A' k) :=
            mul_le_mul_of_nonneg_left hc (abs_nonneg q)
          rw [pow_add]
          nlinarith
        · dsimp only
          rw [abs_mul]
          exact mul_le_mul_of_nonneg_left he (abs_nonneg q)
    have hr := receive_err (N := N + S + m) t.src (Nat.le_refl _) (hi.mono (Nat.le_add_right _ m)) hd (by simp)
    have e1 : N + (cost t + S) = N + S + m + t.src.length := by rw [hm]; unfold cost; omega
    rw [e1, hsrc, hlin]
    have e2 : (t.absolute.pass (A' k)) = p.map fun q => |q| * A' k := by
      simp only [Step.absolute, hlin, List.map_map]
      congr 1
      funext q
      simp
    rw [e2]
    exact hr

end Fz
