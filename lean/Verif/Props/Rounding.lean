import Verif.Proof.RoundRun
import Mathlib.Data.Int.Log

/-!
# C54: rounding errors of derivatives

In every arithmetic whose operations have relative error at most `u` (`Spec/Round.lean`), `gradient` returns the exact
derivative of the steps taken - local derivatives, products and sums in exact arithmetic - up to the error of the
rounded products and sums themselves.  The library adds no other error, such as that of a difference quotient.
-/

set_option linter.unusedSectionVars false

namespace Props
open Fz Spec

theorem each_val {R α : Type} [Arith R] {f : α → Log R (Num R)} {g : α → R} {l : List α}
    (h : ∀ x ∈ l, ∀ T, (f x T).1.val = g x) (T : List (Step R)) : (Log.each f l T).1.map Num.val = l.map g := by
  induction l generalizing T with
  | nil => rfl
  | cons x l ih =>
    simp only [Log.each, Log.next, Log.ret, List.map_cons]
    rw [h x (by simp), ih fun y hy => h y (by simp [hy])]

variable {F : Floats}

theorem vals_opds (env : List (Num (Flo F))) (is : List Nat) :
    (is.map (opd env)).map Num.val = is.map (num (env.map Num.val)) := by
  rw [List.map_map]
  exact List.map_congr_left fun i _ => (num_val env i).symm

/-- the numbers of the steps are those of plain reals -/
theorem write_plain {m : Make (Flo F)} {env : List (Num (Flo F))} (h : m.Tame (env.map Num.val)) (T : List (Step (Flo F))) :
    (m.write env T).1.map Num.val = m.plain (env.map Num.val) := by
  have hfn : ∀ (f : Fn) (x : Num (Flo F)) T, f.Tame x.val.real → (f.write x T).1.val = f.plain x.val := by
    intro f x T hx
    cases f <;> first | rfl | exact hx.elim | skip
    simp only [Fn.write, Fn.plain]
    split
    · rfl
    · split
      · rfl
      · split <;> rfl
  cases m with
  | new0 => rfl
  | new d => rfl
  | newVals ds => exact (each_val (g := id) (fun _ _ _ => rfl) T).trans (List.map_id _)
  | newArr n => exact (each_val (g := id) (fun _ _ _ => rfl) T).trans (List.map_id _)
  | fn f i =>
    simp only [Make.Tame, num_val] at h
    refine (each_val (g := fun x => f.plain x.val) (fun x hx T => ?_) T).trans ?_
    · simp only [List.mem_cons, List.not_mem_nil, or_false] at hx
      subst hx
      exact hfn f _ T h
    · simp only [List.map_cons, List.map_nil, Make.plain, num_val]
  | fnArr f is =>
    simp only [Make.Tame, num_val] at h
    refine (each_val (g := fun x => f.plain x.val) (fun x hx T => ?_) T).trans ?_
    · obtain ⟨i, hi, rfl⟩ := List.mem_map.mp hx
      exact hfn f _ T (h i hi)
    · simp only [List.map_map, Make.plain, num_val]
      rfl
  | bin f i j =>
    refine (each_val (g := fun p => f.plain p.1.val p.2.val) (fun _ _ _ => rfl) T).trans ?_
    simp only [List.map_cons, List.map_nil, Make.plain, num_val]
  | binArr f is js =>
    refine (each_val (g := fun p => f.plain p.1.val p.2.val) (fun _ _ _ => rfl) T).trans ?_
    rw [List.zip_map, List.map_map, Make.plain, List.zip_eq_zipWith, List.map_zipWith]
    simp only [num_val, Function.comp, Prod.map]
  | binVD f i d =>
    refine (each_val (g := fun x => f.plainVD x.val d) (fun x _ T => ?_) T).trans ?_
    · cases f <;> first | rfl | skip
      simp only [Bin.writeVD, Bin.plainVD, feq_flo, neg_flo, one_flo, two_flo, half_flo]
      by_cases c1 : d.real = 1 / 2
      · rw [if_pos c1, if_pos c1]; rfl
      by_cases c2 : d.real = 1
      · rw [if_neg c1, if_neg c1, if_pos c2, if_pos c2]; rfl
      by_cases c3 : d.real = 2
      · rw [if_neg c1, if_neg c1, if_neg c2, if_neg c2, if_pos c3, if_pos c3]; rfl
      rw [if_neg c1, if_neg c1, if_neg c2, if_neg c2, if_neg c3, if_neg c3]
      by_cases c4 : d.real = -1
      · rw [if_pos c4, if_neg (by rw [c4]; norm_num), if_pos c4]; rfl
      by_cases c5 : d.real = -(1 / 2)
      · rw [if_neg c4, if_pos c5, if_neg (by rw [c5]; norm_num), if_neg c4, if_pos c5]; rfl
      rw [if_neg c4, if_neg c5]
      rfl
    · simp only [List.map_cons, List.map_nil, Make.plain, num_val]
  | binDV f d i =>
    refine (each_val (g := fun x => f.plainDV d x.val) (fun _ _ _ => rfl) T).trans ?_
    simp only [List.map_cons, List.map_nil, Make.plain, num_val]
  | sum is =>
    show [fsum ((is.map (opd env)).map Num.val)] = _
    rw [vals_opds]
    rfl
  | norm2 is =>
    show [fnorm2 ((is.map (opd env)).map Num.val)] = _
    rw [vals_opds]
    rfl
  | dotVV is js =>
    show [fdot ((is.map (opd env)).map Num.val) ((js.map (opd env)).map Num.val)] = _
    rw [vals_opds, vals_opds]
    rfl
  | dotVD is ds =>
    show [fdot ((is.map (opd env)).map Num.val) ds] = _
    rw [vals_opds]
    rfl
  | dotDV ds is =>
    show [fdot ds ((is.map (opd env)).map Num.val)] = _
    rw [vals_opds]
    rfl
  | matmulVV a b =>
    refine (each_val (g := fun p => mulEntry a.ncol (fun i k => (opd env (a.get i k)).val)
      (fun k j => (opd env (b.get k j)).val) p.1 p.2) (fun _ _ _ => rfl) T).trans ?_
    simp only [Make.plain, num_val]
  | matmulVD a b =>
    refine (each_val (g := fun p => mulEntry a.ncol (fun i k => (opd env (a.get i k)).val) b.get p.1 p.2)
      (fun _ _ _ => rfl) T).trans ?_
    simp only [Make.plain, num_val]
  | matmulDV a b =>
    refine (each_val (g := fun p => mulEntry a.ncol a.get (fun k j => (opd env (b.get k j)).val) p.1 p.2)
      (fun _ _ _ => rfl) T).trans ?_
    simp only [Make.plain, num_val]
  | partials x is ds => rfl
  | logSumExp is => exact h.elim
  | lpdfVV d xs m s => exact h.elim
  | lpdfVD d xs m s => exact h.elim
  | lpdfDV d xs m s => exact h.elim
  | user x r is ds => exact h.elim

/-- the steps of a program and the exact ones -/
theorem both_pair (f : Code (Flo F)) : ∀ {env : List (Num (Flo F))} {T : List (Step (Flo F))} {E : List (Step ℝ)},
    f.Tame (env.map Num.val) → List.Forall₂ (Pair F) T E →
    (f.bothWrite env T E).1 = (f.write env T).1 ∧ List.Forall₂ (Pair F) (f.write env T).2 (f.bothWrite env T E).2 := by
  induction f with
  | ret is =>
    intro env T E _ hT
    exact ⟨rfl, hT⟩
  | make m k ih =>
    intro env T E h hT
    obtain ⟨hm, hk⟩ := h
    simp only [Code.bothWrite, Code.write, Log.next]
    refine ih ?_ (make_pair hm T E hT)
    rw [List.map_append, write_plain hm]
    exact hk
  | look i k ih =>
    intro env T E h hT
    simp only [Code.Tame, num_val] at h
    simp only [Code.bothWrite, Code.write]
    exact ih _ h hT

/-- the book's rows, exact rows and absolute rows -/
theorem book_errs {f : Code (Flo F)} {ys x : List (Flo F)} (ht : f.Tame (x ++ ys)) :
    (f.bookJacobian ys x).2.length = (f.exactRows ys x).length ∧ ∀ i < (f.exactRows ys x).length, ∀ k < x.length,
    |(num ((f.bookJacobian ys x).2.getD i []) k).real - at2 (f.exactRows ys x) i k| ≤
      (rho F ^ f.roundings ys x - 1) * at2 (f.absRows ys x) i k := by
  have hx : List.Forall₂ (Pair F) (Log.each input x []).2 (Log.each input (x.map Flo.real) []).2 :=
    lpair_inputs x (x.map Flo.real) (by simp) [] [] .nil
  have hv : ((Log.each input x []).1 ++ ys.map fun y => (⟨none, y⟩ : Num (Flo F))).map Num.val = x ++ ys := by
    rw [List.map_append, each_input, operands_val, List.map_map]
    congr 1
    exact List.map_id _
  have hb := both_pair f (env := (Log.each input x []).1 ++ ys.map fun y => (⟨none, y⟩ : Num (Flo F)))
    (by rw [hv]; exact ht) hx
  have e1 : f.bothSteps ys x = f.bothWrite ((Log.each input x []).1 ++ ys.map fun y => (⟨none, y⟩ : Num (Flo F)))
      (Log.each input x []).2 (Log.each input (x.map Flo.real) []).2 := rfl
  unfold Code.exactRows Code.absRows Code.roundings Code.bookJacobian Code.steps
  simp only [Log.next]
  rw [e1]
  generalize f.bothWrite _ _ _ = b at hb
  generalize f.write _ _ = w at hb
  obtain ⟨bo, E⟩ := b
  obtain ⟨wo, T⟩ := w
  obtain ⟨h1, h2⟩ := hb
  dsimp only at h1 h2 ⊢
  subst h1
  refine ⟨by simp, fun i hi k hk => ?_⟩
  have hi' : i < bo.length := by simpa using hi
  have hs : Err3 F 0 (seed bo[i].ref) (seed bo[i].ref) (seed bo[i].ref) := by
    intro j
    have e : Flo.real (F := F) (seed bo[i].ref j) = seed bo[i].ref j := by
      unfold seed
      split
      · exact F.one
      · exact F.zero
    rw [e, sub_self, abs_zero, pow_zero, sub_self, zero_mul]
    refine ⟨le_rfl, ?_⟩
    unfold seed
    split
    · show |(1:ℝ)| ≤ 1
      simp
    · show |(0:ℝ)| ≤ 0
      simp
  have hr := (back_err h2 0 hs k).1
  rw [Nat.zero_add] at hr
  have g1 : num ((bo.map (rowOf T x.length)).getD i []) k = backFrom 0 T (seed bo[i].ref) k := by
    simp [num, rowOf, hk, hi']
  have g2 : ∀ E : List (Step ℝ), at2 (bo.map fun o => rowOf E x.length o.real) i k = backFrom 0 E (seed bo[i].ref) k := by
    intro E
    simp [at2, rowOf, hk, hi', Num.real]
  rw [g1, g2, g2]
  exact hr

theorem book_row {f : Code (Flo F)} {ys x : List (Flo F)} {y : Flo F} {df : List (Flo F)}
    (h : f.bookGradient ys x = some (y, df)) : df.length = x.length ∧ ∃ l, (f.bookJacobian ys x).2 = df :: l := by
  unfold Code.bookGradient at h
  unfold Code.bookJacobian
  generalize f.steps ys x [] = w at *
  obtain ⟨os, T⟩ := w
  cases os with
  | nil => simp at h
  | cons o os =>
    simp only [Option.some.injEq, Prod.mk.injEq] at h
    obtain ⟨-, rfl⟩ := h
    exact ⟨by simp [rowOf], _, rfl⟩

section main
variable {W : Type} [Rep W (Flo F)] [LawfulRep W (Flo F)] {c : Client W} {h : List (Call (Flo F))}

theorem commutes_flo : Commutes (Flo F) := ⟨F.mul_comm, F.hypot_comm⟩

/-- **C54**: the gradient of a program, after any history.  `exactRows` are the derivatives of the steps taken, with exact
local derivatives, products and sums; `absRows` the same with absolute values of the local derivatives. -/
theorem C54_gradient (hr : Reach h c) {e : List Var} (he : ∀ v ∈ e, v ∈ c.env) {f : Code (Flo F)} (hs : f.Sane)
    (hp : f.Plain) (hb : f.Regular) {ys x : List (Flo F)} (hy : (vals e : M W (List (Flo F))) c.st = .ok (ys, c.st))
    (ht : f.Tame (x ++ ys)) {y : Flo F} {df : List (Flo F)} {s' : St W}
    (hg : (gradient (f.scalar e) x : M W (Flo F × List (Flo F))) c.st = .ok ((y, df), s')) :
    df.length = x.length ∧ ∀ k < x.length, |(num df k).real - at2 (f.exactRows ys x) 0 k| ≤
      ((1 / (1 - F.u)) ^ f.roundings ys x - 1) * at2 (f.absRows ys x) 0 k := by
  obtain ⟨hl, l, hj⟩ := book_row (C49_gradient commutes_flo hr he hs hp hb hy hg)
  obtain ⟨h1, h2⟩ := book_errs ht
  refine ⟨hl, fun k hk => ?_⟩
  rw [hj] at h1 h2
  exact h2 0 (by rw [← h1]; simp) k hk

/-- **C54**: likewise every row of a jacobian. -/
theorem C54_jacobian (hr : Reach h c) {e : List Var} (he : ∀ v ∈ e, v ∈ c.env) {f : Code (Flo F)} (hs : f.Sane)
    (hp : f.Plain) (hb : f.Regular) {ys x : List (Flo F)} (hy : (vals e : M W (List (Flo F))) c.st = .ok (ys, c.st))
    (ht : f.Tame (x ++ ys)) {n : Nat} {fx : List (Flo F)} {J : List (List (Flo F))} {s' : St W}
    (hg : (jacobian (f.vector e) n x : M W (List (Flo F) × List (List (Flo F)))) c.st = .ok ((fx, J), s')) :
    J.length = (f.exactRows ys x).length ∧ ∀ i < J.length, ∀ k < x.length, |(num (J.getD i []) k).real - at2 (f.exactRows ys x) i k| ≤
      ((1 / (1 - F.u)) ^ f.roundings ys x - 1) * at2 (f.absRows ys x) i k := by
  have hj := C49_jacobian commutes_flo hr he hs hp hb hy hg
  obtain ⟨h1, h2⟩ := book_errs ht
  rw [hj] at h1 h2
  exact ⟨h1, fun i hi => h2 i (h1 ▸ hi)⟩

/-- **C54**: a dot product of variables and reals: value and derivatives, up to `n + 1` and 2 roundings.  (`n` products, up
to `n` additions in any order.) -/
theorem C54_dot (ho : Orderly (R := Flo F) false c) (hl : c.marks.length < 10) {x d : List (Flo F)}
    (hd : x.length = d.length) (room : c.st.tape.head + (9 * x.length + 6) ≤ tapeLimit)
    (full : ∀ j, c.st.tape.head + (9 * x.length + 6) ≠ 12288 * 2 ^ j + 1) :
    ∃ y df s', (gradient (fun v => dotVD v d) x : M W (Flo F × List (Flo F))) c.st = .ok ((y, df), s') ∧
      |y.real - (List.zipWith (fun a b => a.real * b.real) x d).sum| ≤
        ((1 / (1 - F.u)) ^ (x.length + 1) - 1) * (List.zipWith (fun a b => |a.real * b.real|) x d).sum ∧
      List.Forall₂ (fun g b => |Flo.real g - Flo.real b| ≤ ((1 / (1 - F.u)) ^ 2 - 1) * |b.real|) df d := by
  have hw : 6 * x.length + (Code.make (.dotVD (List.range x.length) d) (.ret [x.length])).words (x ++ []) =
      9 * x.length + 6 := by
    simp only [Code.words, Make.words, List.length_range]
    omega
  obtain ⟨y, df, s', e, hb⟩ := gradient_by_code (W := W) (x := x) (f := fun v => dotVD v d)
    (k := .make (.dotVD (List.range x.length) d) (.ret [x.length])) commutes_flo ho hl
    (fun xv s hx => one_scalar (m := .dotVD (List.range x.length) d) (g := fun v => dotVD v d) (n := x.length)
      (by simp [Make.args]) xv hx (by simp only [Make.call, map_nth xv hx]) s)
    ⟨⟨trivial, trivial⟩, ⟨trivial, trivial⟩, ⟨trivial, trivial⟩, by
      simp [Code.Meets, Make.args, Make.Meets, Make.plain, hd], by simp [Code.plain],
      by rw [hw]; exact room, by rw [hw]; exact full⟩
  have h1 := book_one (m := .dotVD (List.range x.length) d) (x := x) (v := fdot x d)
    (pass := fun a => d.map fun d => Arith.mul a d) (by
      intro T
      simp only [Make.write, Log.each, Log.next, step, Log.ret, map_opd _ (operands_length x 0), operands_val]) (by simp [hd])
  rw [h1] at hb
  simp only [Option.some.injEq, Prod.mk.injEq] at hb
  obtain ⟨rfl, rfl⟩ := hb
  refine ⟨_, _, s', e, ?_, ?_⟩
  · have z : Flo.real (F := F) Arith.zero = 0 := F.zero
    have hl : List.Forall₂ (fun (p : Flo F) q => |p.real - q| ≤ (rho F ^ 1 - 1) * |q|) (List.zipWith Arith.mul x d)
        (List.zipWith (fun a b => a.real * b.real) x d) := by
      clear e h1 room full hw
      induction x generalizing d with
      | nil => simp
      | cons a x ih =>
        cases d with
        | nil => simp
        | cons b d => exact .cons (near_mul a b).err (ih (by simpa using hd))
    obtain ⟨k, hk, hs⟩ := F.dot x d
    replace hk : k ≤ x.length := hk
    have h2 := (sums_err (F := F) hs hl).1
    rw [List.map_zipWith] at h2
    refine h2.trans (mul_le_mul_of_nonneg_right ?_ ?_)
    · have := pow_le_pow_right₀ (rho_ge (F := F)) (show 1 + k ≤ x.length + 1 by omega)
      unfold rho at this ⊢
      linarith
    · refine List.sum_nonneg fun y hy => ?_
      rw [← List.map_zipWith (f := abs)] at hy
      obtain ⟨z, -, rfl⟩ := List.mem_map.mp hy
      exact abs_nonneg z
  · rw [List.map_map]
    clear e h1 room full hw hd
    induction d with
    | nil => exact .nil
    | cons b d ih =>
      refine .cons ?_ ih
      have z : Flo.real (F := F) Arith.zero = 0 := F.zero
      have o : Flo.real (F := F) Arith.one = 1 := F.one
      have h1 : Near F 1 (Arith.mul (Arith.one : Flo F) b).real b.real :=
        (near_mul (Arith.one : Flo F) b).cast (by rw [o, one_mul])
      have h3 := near_add Arith.zero (Arith.mul (Arith.one : Flo F) b)
      rw [z, zero_add] at h3
      have h2 := (h3.trans h1).err
      exact h2

end main

/-! The hypotheses are met by 53-bit arithmetic with rounding to nearest (binary64 without limits of the exponent). -/

/-- the distance of numbers with 53 binary digits around `x` -/
noncomputable def ulp (x : ℝ) : ℝ := (2:ℝ) ^ (Int.log 2 |x| - 52)

/-- a nearest number with 53 binary digits -/
noncomputable def nearest (x : ℝ) : ℝ := round (x / ulp x) * ulp x

theorem nearest_within (x : ℝ) : Within ((2:ℝ) ^ (-53 : ℤ)) (nearest x) x := by
  unfold Within
  rcases eq_or_ne x 0 with rfl | hx
  · simp [nearest]
  have hu : 0 < ulp x := zpow_pos (by norm_num) _
  have h1 := abs_sub_round (x / ulp x)
  have h2 : nearest x - x = -((x / ulp x - round (x / ulp x)) * ulp x) := by
    unfold nearest
    field_simp
    ring
  rw [h2, abs_neg, abs_mul, abs_of_pos hu]
  have h3 : ulp x * (1 / 2) ≤ (2:ℝ) ^ (-53 : ℤ) * |x| := by
    have := Int.zpow_log_le_self (b := 2) (by norm_num) (abs_pos.mpr hx)
    have e : ulp x * (1 / 2) = (2:ℝ) ^ (-53 : ℤ) * ((2:ℕ):ℝ) ^ Int.log 2 |x| := by
      unfold ulp
      push_cast
      rw [← zpow_add₀ (by norm_num), show (1:ℝ) / 2 = (2:ℝ) ^ (-1 : ℤ) by norm_num, ← zpow_add₀ (by norm_num)]
      congr 1
      ring
    rw [e]
    exact mul_le_mul_of_nonneg_left this (by positivity)
  calc _ ≤ 1 / 2 * ulp x := mul_le_mul_of_nonneg_right h1 hu.le
    _ = ulp x * (1 / 2) := mul_comm _ _
    _ ≤ _ := h3

theorem within_roundings {u c e : ℝ} {m : Nat} (hu : 0 ≤ u) (h1 : u < 1) (h : Within u c e) (he : 0 ≤ e) (hm : 2 ≤ m) :
    ∃ t, (1 - u) ^ m ≤ t ∧ t * (1 - u) ^ m ≤ 1 ∧ c = e * t := by
  have hp : (1 - u) ^ m ≤ (1 - u) ^ 2 := pow_le_pow_of_le_one (by linarith) (by linarith) hm
  have hp1 : (1 - u) ^ 2 ≤ 1 - u := by nlinarith
  have hp0 : 0 ≤ (1 - u) ^ m := pow_nonneg (by linarith) m
  rcases he.eq_or_lt with rfl | he
  · refine ⟨1, by linarith, by linarith, ?_⟩
    simpa [Within] using h
  · rw [Within, abs_of_pos he, abs_le] at h
    have e1 : c / e * e = c := div_mul_cancel₀ c he.ne'
    have l1 : 1 - u ≤ c / e := by rw [le_div_iff₀ he]; linarith [h.1]
    have l2 : c / e ≤ 1 + u := by rw [div_le_iff₀ he]; linarith [h.2]
    refine ⟨c / e, by linarith, ?_, by rw [mul_comm, e1]⟩
    nlinarith

open Classical in
/-- exact operations and functions, rounded to nearest -/
noncomputable def rounded : Floats :=
  let r := nearest
  { arith := { instArithReal with
      feq := fun x y => decide (x = y)
      flt := fun x y => decide (x < y)
      add := fun x y => r (x + y)
      sub := fun x y => r (x - y)
      mul := fun x y => r (x * y)
      div := fun x y => r (x / y)
      sqrt := fun x => r (√x)
      sin := fun x => r (Real.sin x)
      cos := fun x => r (Real.cos x)
      tan := fun x => r (Real.tan x)
      sinh := fun x => r (Real.sinh x)
      cosh := fun x => r (Real.cosh x)
      exp := fun x => r (Real.exp x)
      log := fun x => r (Real.log x)
      pow := fun x y => r (x ^ y)
      hypot := fun x y => r (√(x ^ 2 + y ^ 2))
      sumOf := fun l => l.foldl (fun x y => r (x + y)) 0
      dotOf := fun a b => (List.zipWith (fun x y => r (x * y)) a b).foldl (fun x y => r (x + y)) 0
      norm2Of := fun l => r (√(l.map fun x => x ^ 2).sum)
      mulOf := fun a b => (List.zipWith (fun x y => r (x * y)) a b).foldl (fun x y => r (x + y)) 0 }
    u := (2:ℝ) ^ (-53 : ℤ)
    u_nonneg := by positivity
    u_lt := zpow_lt_one_of_neg₀ (by norm_num) (by norm_num)
    zero := rfl
    one := rfl
    two := rfl
    half := rfl
    neg := fun _ => rfl
    feq := fun x y => decide_eq_true_iff
    flt := fun x y => decide_eq_true_iff
    add := fun _ _ => nearest_within _
    sub := fun _ _ => nearest_within _
    mul := fun _ _ => nearest_within _
    div := fun _ _ _ => nearest_within _
    sqrt := fun _ _ => nearest_within _
    sin := fun _ => nearest_within _
    cos := fun _ => nearest_within _
    tan := fun _ => nearest_within _
    sinh := fun _ => nearest_within _
    cosh := fun _ => nearest_within _
    exp := fun _ => nearest_within _
    log := fun _ _ => nearest_within _
    pow := fun _ _ _ => nearest_within _
    hypot := fun _ _ => nearest_within _
    sum := fun l => sums_fold l
    dot := fun a b => by
      obtain ⟨k, hk, h⟩ := sums_fold (add := fun x y => r (x + y)) (List.zipWith (fun x y => r (x * y)) a b)
      exact ⟨k, hk.trans (by simp), h⟩
    norm2 := fun l => within_roundings (by positivity) (zpow_lt_one_of_neg₀ (by norm_num) (by norm_num)) (nearest_within _)
      (by positivity) (by omega)
    mul_comm := fun x y => by show r (x * y) = r (y * x); rw [mul_comm]
    hypot_comm := fun x y => by show r (√(x ^ 2 + y ^ 2)) = r (√(y ^ 2 + x ^ 2)); rw [add_comm] }

/-- words that hold such a number each -/
noncomputable instance : Rep (Flo rounded) (Flo rounded) := show Rep ℝ ℝ from instRepReal

instance : LawfulRep (Flo rounded) (Flo rounded) where
  join_lo_hi _ := rfl
  toNat_ofNat n _ := Nat.floor_natCast n
  lo_zero := by show (0:ℝ) = ((0:ℕ):ℝ); simp
  hi_zero := by show (0:ℝ) = ((0:ℕ):ℝ); simp

/-- `exp(x) * y / x` -/
def quotCode {F : Floats} : Code (Flo F) :=
  .make (.fn .exp 0) (.make (.bin .mul 2 1) (.make (.bin .div 3 0) (.ret [4])))

/-- the exact derivatives of its steps: with `E` the rounded exponential and `P` the rounded product, `x`: `P` is not the
exact product, but the local derivatives `y`, `E`, `1/x` and `-P/x²` are exact -/
example {F : Floats} (x y : Flo F) : (quotCode (F := F)).exactRows [] [x, y] =
    let E := (Arith.exp x : Flo F)
    let P := (Arith.mul E y : Flo F)
    [[-(P.real / x.real / x.real) + 1 / x.real * y.real * Real.exp x.real, E.real * (1 / x.real)]] := by
  simp only [Code.exactRows, Code.bothSteps, quotCode, Code.bothWrite, Log.each, Log.next, Log.ret, input, step, Make.write,
    Fn.write, Bin.write]
  simp [opd, rowOf, Make.real, Make.write, Log.each, Log.next, Log.ret, step, Fn.write, Bin.write, opd, backFrom, receive,
    seed, List.range_succ, Num.real, Fn.pass, Bin.pass, Fn.plain, Bin.plain, input]
  exact mul_comm _ _

/-- `x**y` with its exact derivatives; it is within the statement where `x > 0` -/
example {F : Floats} (x y : Flo F) (hx : 0 < x.real) :
    (Code.make (.bin .pow 0 1) (.ret [2]) : Code (Flo F)).Tame [x, y] ∧
    (Code.make (.bin .pow 0 1) (.ret [2]) : Code (Flo F)).exactRows [] [x, y] =
      [[y.real * x.real ^ y.real / x.real, x.real ^ y.real * Real.log x.real]] := by
  refine ⟨⟨hx, trivial⟩, ?_⟩
  simp only [Code.exactRows, Code.bothSteps, Code.bothWrite, Log.each, Log.next, Log.ret, input, step, Make.write, Bin.write]
  simp [opd, rowOf, Make.real, Log.each, Log.next, Log.ret, step, backFrom, receive, seed, List.range_succ, Num.real,
    Bin.pass, Bin.plain, input, hx.ne']

example (x y : Flo rounded) (hx : x.real ≠ 0) : ∃ r df s', (gradient (quotCode.scalar []) [x, y] : M (Flo rounded) (Flo rounded × List (Flo rounded))) St.init =
    .ok ((r, df), s') ∧ df.length = 2 ∧ ∀ k < 2, |(num df k).real - at2 (quotCode.exactRows (F := rounded) [] [x, y]) 0 k| ≤
      ((1 / (1 - (2:ℝ) ^ (-53 : ℤ))) ^ quotCode.roundings (F := rounded) [] [x, y] - 1) *
        at2 (quotCode.absRows (F := rounded) [] [x, y]) 0 k := by
  have hs : (quotCode (F := rounded)).Sane := ⟨trivial, trivial, trivial, trivial⟩
  have hp : (quotCode (F := rounded)).Plain := ⟨by simp [Make.Plain], trivial, trivial, trivial⟩
  have hb : (quotCode (F := rounded)).Regular := ⟨trivial, trivial, trivial, trivial⟩
  obtain ⟨r, df, s', e, -⟩ := gradient_by_code (W := Flo rounded) (c := Client.init) (k := quotCode) (x := [x, y])
    (f := quotCode.scalar []) commutes_flo .start (by simp [Client.init]) (fun _ _ _ => rfl) ⟨hs, hp, hb, by
      simp [quotCode, Code.Meets, Make.args, Make.Meets, Make.plain, Fn.Meets], by simp [quotCode, Code.plain],
      by simp [quotCode, Code.words, Make.words, Fn.words, Client.init, St.init, Tape.init, tapeLimit], by
      intro j
      have := Nat.one_le_two_pow (n := j)
      simp [quotCode, Code.words, Make.words, Fn.words, Client.init, St.init, Tape.init]
      omega⟩
  have hr : Reach (W := Flo rounded) (R := Flo rounded) [] Client.init := ⟨by simp, rfl⟩
  obtain ⟨h1, h2⟩ := C54_gradient (F := rounded) (W := Flo rounded) hr (e := []) (by simp) hs hp hb (ys := []) rfl
    (x := [x, y]) (by
      refine ⟨trivial, trivial, ?_, trivial⟩
      exact hx) e
  exact ⟨r, df, s', e, h1, h2⟩

end Props
