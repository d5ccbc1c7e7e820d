import Verif.Props.Cases
import Verif.Props.Overflow
import Verif.Props.DeepLenient
import Verif.Props.Flow
import Verif.Props.OdeBook

/-!
# More concrete cases that meet the hypotheses of theorems in `Verif/Props`
-/

set_option linter.unusedSectionVars false

namespace Props
open Fz Spec Arith

section over
variable [SumOrder] {W : Type} [Rep W Over] [LawfulRep W Over]

/-- of `C53_inv_logit_infinite`: as the first call of a program -/
example : (∃ s', (gradient (fun v => invLogitV (v.getD 0 ⟨0⟩)) [.pinf] : M W (Over × List Over)) St.init =
      .ok ((.fin 1, [.fin 0]), s')) ∧
    ∃ s', (gradient (fun v => invLogitV (v.getD 0 ⟨0⟩)) [.ninf] : M W (Over × List Over)) St.init =
      .ok ((.fin 0, [.fin 0]), s') :=
  C53_inv_logit_infinite (c := Client.init) .start (by simp [Client.init])
    (by simp [Client.init, St.init, Tape.init, tapeLimit])
    (fun j => small_full (by simp [Client.init, St.init, Tape.init]) (by simp [Client.init, St.init, Tape.init]) j)

/-- of `C74_infinity`: `log_sum_exp` of an infinity and two NaNs -/
example : logSumExpD [Over.pinf, .nan, .nan] = .pinf :=
  C74_infinity nanRules_over rfl (by simp [nan_iff])

end over

section rounding

/-- of `C54_dot`: the product of `(x, y, x)` with `(a, b, a)`, in 53-bit arithmetic -/
example (x y a b : Flo rounded) : ∃ r df s', (gradient (fun v => dotVD v [a, b, a]) [x, y, x] :
      M (Flo rounded) (Flo rounded × List (Flo rounded))) St.init = .ok ((r, df), s') ∧
    |r.real - (x.real * a.real + (y.real * b.real + x.real * a.real))| ≤
      ((1 / (1 - (2:ℝ) ^ (-53 : ℤ))) ^ 4 - 1) * (|x.real * a.real| + (|y.real * b.real| + |x.real * a.real|)) ∧
    df.length = 3 := by
  obtain ⟨r, df, s', e, h1, h2⟩ := C54_dot (F := rounded) (W := Flo rounded) (c := Client.init) .start (by simp [Client.init])
    (x := [x, y, x]) (d := [a, b, a]) rfl (by simp [Client.init, St.init, Tape.init, tapeLimit]) (by
      intro j
      have := Nat.one_le_two_pow (n := j)
      simp [Client.init, St.init, Tape.init]
      omega)
  refine ⟨r, df, s', e, ?_, by simpa using h2.length_eq⟩
  have hu : (rounded).u = (2:ℝ) ^ (-53 : ℤ) := rfl
  rw [hu] at h1
  simpa using h1

end rounding

section generic
variable {R W : Type} [Arith R] [Rep W R] [LawfulRep W R]

/-- of `C76_jacobian`: `exp(y) / x` by `x` and `y`, and by `x` with a real for `exp(y)`, in every arithmetic -/
example (hc : Commutes R) (a b : R) : ∃ (h : List (Call R)) (c : Client W) (fx fx' : List R) (J J' : List (List R)) (s s' : St W),
    Reach h c ∧ (expOver : Code R).Meets false ([a, b] ++ []) ∧ Placed (fun i => i = 1) id ([a, b] ++ []) ([a] ++ []) ∧
    jacobian ((expOver : Code R).vector []) 1 [a, b] c.st = .ok ((fx, J), s) ∧
    jacobian ((realOver (Arith.exp b)).vector []) 1 [a] c.st = .ok ((fx', J'), s') ∧ fx' = fx ∧
    List.Forall₂ (fun r r' => r'[0]? = r[0]?) J J' := by
  have o := Orderly.start (R := R) (W := W)
  have hs : (expOver : Code R).Sane := ⟨trivial, trivial, trivial⟩
  have hp : (expOver : Code R).Plain := ⟨by simp [Make.Plain], trivial, trivial⟩
  have hb : (expOver : Code R).Regular := ⟨trivial, trivial, trivial⟩
  have hs' : (realOver (Arith.exp b)).Sane := ⟨trivial, trivial⟩
  have hp' : (realOver (Arith.exp b)).Plain := ⟨trivial, trivial⟩
  have hb' : (realOver (Arith.exp b)).Regular := ⟨trivial, trivial⟩
  have me : (expOver : Code R).Meets false ([a, b] ++ []) := by
    refine ⟨?_, ?_, ?_, trivial, ?_⟩ <;> simp [Make.args, Make.plain, Code.Meets, Make.Meets, Fn.Meets]
  have me' : (realOver (Arith.exp b)).Meets false ([a] ++ []) := by
    refine ⟨?_, trivial, ?_⟩ <;> simp [Make.args, Make.plain, Code.Meets]
  have hσ : Placed (fun i => i = 1) id ([a, b] ++ []) ([a] ++ []) := by
    refine ⟨?_, ?_, fun _ _ _ _ _ _ e => e⟩
    · intro i hi hK
      simp only [List.append_nil, List.length_cons, List.length_nil, id] at hi ⊢
      omega
    · intro i hi hK
      match i, hi, hK with
      | 0, _, _ => rfl
      | 1, _, hK => exact absurd rfl hK
  obtain ⟨fx, J, s, e⟩ := jacobian_case hc o (by simp [Client.init]) (e := []) (by simp) (ys := []) rfl
    (f := (expOver : Code R)) (n := 1) (x := [a, b]) (by
      refine ⟨hs, hp, hb, me, by simp, by simp [expOver, Code.plain], ?_, ?_⟩
      · show 1 + (6 * 2 + 15) ≤ tapeLimit
        simp [tapeLimit]
      · intro j
        show 1 + (6 * 2 + 15) ≠ _
        have := Nat.one_le_two_pow (n := j)
        omega)
  obtain ⟨fx', J', s', e'⟩ := jacobian_case hc o (by simp [Client.init]) (e := []) (by simp) (ys := []) rfl
    (f := realOver (Arith.exp b)) (n := 1) (x := [a]) (by
      refine ⟨hs', hp', hb', me', by simp, by simp [realOver, Code.plain], ?_, ?_⟩
      · show 1 + (6 * 1 + _) ≤ tapeLimit
        simp [tapeLimit, realOver, Code.words, Make.words, Bin.wordsDV]
      · intro j
        show 1 + (6 * 1 + _) ≠ _
        have := Nat.one_le_two_pow (n := j)
        simp [realOver, Code.words, Make.words, Bin.wordsDV]
        omega)
  obtain ⟨l, hr⟩ := C52_reach o
  obtain ⟨q1, q2⟩ := C76_jacobian hc hr hr (e := []) (e' := []) (by simp) (by simp) hs hp hb hs' hp' hb' (ys := [])
    (ys' := []) rfl rfl me hσ (over_literal a b) e e'
  exact ⟨l, Client.init, fx, fx', J, J', s, s', hr, me, hσ, e, e', q1, q2.imp fun r r' h => h 0 (by simp) (by simp) (by simp)⟩

/-- of `C62_completes_jacobian`: `x²`, in every arithmetic -/
example (hc : Commutes R) (a : R) : ∃ s' : St W,
    ∀ J : Junk W R, jacobianL J ((Deep.make (.bin .mul 0 0) (.ret [1]) : Deep R).vectorL J []) 1 [a] St.init =
      .ok ((Deep.make (.bin .mul 0 0) (.ret [1]) : Deep R).bookJacobian [] [a], s') := by
  obtain ⟨s', e, -⟩ := C62_completes_jacobian (W := W) (c := Client.init) hc .start
    (f := .make (.bin .mul 0 0) (.ret [1])) (is := []) (ys := []) (x := [a])
    ⟨by simp, rfl, ⟨⟨trivial, trivial, trivial⟩, trivial⟩, by simp [Client.init], by simp [Client.init, St.init, Tape.init, tapeLimit],
      ⟨by simp [Make.args], trivial, rfl, by simp [Make.words, Client.init, St.init, Tape.init, tapeLimit], by simp [Deep.Suits, Make.plain]⟩, by
        intro j
        exact few_not_full (by simp [Deep.words, Make.words, Client.init, St.init, Tape.init]) j⟩
    trivial (by simp)
  exact ⟨s', e⟩

/-- of `C62_gradient_plain_partial`: the same function, with checks of array shapes -/
example (hc : Commutes R) (a : R) : ∃ (y : R) (df : List R) (s' : St W),
    (Deep.make (.bin .mul 0 0) (.ret [1]) : Deep R).Apart False ∧
    gradient ((Deep.make (.bin .mul 0 0) (.ret [1]) : Deep R).scalar []) [a] St.init = .ok ((y, df), s') ∧
    (Deep.make (.bin .mul 0 0) (.ret [1]) : Deep R).bookGradient [] [a] = some (y, df) := by
  obtain ⟨y, df, s', e, -⟩ := gradient_by_code (W := W) (c := Client.init) (k := .make (.bin .mul 0 0) (.ret [1])) (x := [a])
    (f := (Deep.make (.bin .mul 0 0) (.ret [1]) : Deep R).scalar []) hc .start (by simp [Client.init]) (fun _ _ _ => rfl)
    ⟨⟨trivial, trivial⟩, ⟨trivial, trivial⟩, ⟨trivial, trivial⟩, by simp [Code.Meets, Make.args, Make.Meets, Make.plain],
      by simp [Code.plain], by simp [Code.words, Make.words, Client.init, St.init, Tape.init, tapeLimit], by
      intro j
      exact few_not_full (by simp [Code.words, Make.words, Client.init, St.init, Tape.init]) j⟩
  exact ⟨y, df, s', trivial, e, C62_gradient_plain_partial (c := Client.init) (h := []) (f := .make (.bin .mul 0 0) (.ret [1])) hc ⟨by simp, rfl⟩ (e := []) (by simp)
    ⟨⟨trivial, trivial, trivial⟩, trivial⟩ trivial trivial (ys := []) rfl e⟩

end generic

section real
variable {W : Type} [Rep W ℝ] [LawfulRep W ℝ]

/-- of `C63_solve_parameters`: `y' = q₁ q₂ y + q₃` from 7 with the variables of the caller as parameters, three output times -/
example : ∃ (c : Client W) (r : List (List Var) × List ℝ) (s' : St W), OrderlyS c ∧
    (∀ J : Junk W ℝ, cvodesSolParL J euler 0 [7] [1, 2, 5] ([0, 1, 2].map (nth c.env)) linearF (odeP linear []) c.st = .ok (r, s')) ∧
    OrderlyS ⟨s', c.env ++ r.1.flatten, c.marks⟩ := by
  obtain ⟨c, o, v, hh, hm, hn⟩ := orderlyL_three (W := W)
  have hz : [0, 1, 2].map (nth c.env) = c.env := by
    obtain ⟨a, b, e, hl⟩ := List.length_eq_three.mp hn
    rw [hl]
    rfl
  obtain ⟨r, s', e, o'⟩ := C63_solve_parameters o.solves (e := ⟨euler, 0, [1, 2, 5], linearF, linear, 60, []⟩) (y := [7])
    (is := [0, 1, 2]) (z := [2, 3, 6]) ⟨by simp [hm], by simp [hn], rfl, by rw [hz]; exact v,
      by simp [linear, Prog.Mild, Instr.Mild], by simp [hh, tapeLimit],
      (linear_asks (by simp [hh]) _ _ _ _ _ _).1, (linear_asks (hd := 0) (m := 0) (by simp) _ _ _ _ _ _).2⟩
  exact ⟨c, r, s', o.solves, e, o'⟩

/-- a solver that fails at once -/
noncomputable def refusing : Solver ℝ Unit where
  init _ _ _ := ()
  step _ _ := .done (-1) [] [] ()

/-- of `C60_stops_parameters`: the variables of the caller as parameters -/
example : ∃ c : Client W, OrderlyL ℝ c ∧ ∀ J : Junk W ℝ,
    cvodesSolParL J refusing 0 [7] [1, 2, 5] c.env linearF (odeP linear []) c.st = .error .stop := by
  obtain ⟨c, o, v, hh, hm, hn⟩ := orderlyL_three (W := W)
  obtain ⟨d, g, val, adj, S⟩ := orderlyL_shadow commutes_real o
  have hex : ∀ v ∈ c.env, v ∈ existing c.st := fun v hv => by
    rw [S.alike.existing]
    exact (mem_existing S.sound.good.inv).mpr (S.sound.good.has _ (by rw [S.env]; exact hv))
  refine ⟨c, o, fun J => C60_stops_parameters o.solves (q := c.env) hex v hn refusing 0 [7] [1, 2, 5] linearF linear
    (by simp [linear, Prog.Mild, Instr.Mild]) 60 (by simp [hm]) ⟨trivial, fun y yS m' h => by cases h⟩
    (.inl ⟨_, .done, by simp⟩) (by rw [hh, hn]; simp [tapeLimit]) J⟩

/-- variables created one after the other -/
theorem orderlyL_vars : ∀ (zs : List ℝ) {c : Client W} {ys : List ℝ} {vs : List Var} {s' : St W}, OrderlyL ℝ c →
    (vals c.env : M W (List ℝ)) c.st = .ok (ys, c.st) → c.st.tape.head + 6 * zs.length ≤ tapeLimit →
    (newVars zs : M W (List Var)) c.st = .ok (vs, s') → OrderlyL ℝ ⟨s', c.env ++ vs, c.marks⟩ ∧
      (vals (c.env ++ vs) : M W (List ℝ)) s' = .ok (ys ++ zs, s') ∧ s'.tape.head = c.st.tape.head + 6 * zs.length := by
  intro zs
  induction zs with
  | nil =>
    intro c ys vs s' o v _ e
    cases e
    simpa using ⟨o, v⟩
  | cons z zs ih =>
    intro c ys vs s' o v hr e
    simp only [List.length_cons] at hr ⊢
    obtain ⟨w, t1, k1, k2⟩ := Fz.bind_inv (show (newVar z >>= fun v => newVars zs >>= fun vs => pure (v :: vs) : M W (List Var)) c.st = .ok (vs, s') by
      simpa [newVars, List.mapM_cons] using e)
    obtain ⟨ws, t2, k3, k4⟩ := Fz.bind_inv k2
    cases k4
    obtain ⟨c', e', o', v', hh, hm⟩ := C59_make (m := .new z) commutes_real o
      ⟨⟨by simp [Call.args, Make.args], trivial, trivial, ys, v, rfl, by simp [Make.words]; omega⟩,
        by simp [Call.product, Make.product]⟩ trivial v
    have hc : c' = ⟨t1, c.env ++ [w], c.marks⟩ := by
      have hx := e' (fun _ _ _ _ => 0)
      have k4 : (Make.new z).call c.env c.st = .ok ([w], t1) := by
        show (newVar z >>= fun v => pure [v] : M W (List Var)) c.st = _
        rw [bind_ok k1]
        rfl
      unfold Call.execL at hx
      rw [if_pos (by simp [Call.args, Make.args])] at hx
      simp only [Call.step, k4] at hx
      cases hx
      rfl
    subst hc
    have h6 : t1.tape.head = c.st.tape.head + 6 := hh
    obtain ⟨a1, a2, a3⟩ := ih o' v' (by show t1.tape.head + _ ≤ _; omega) k3
    refine ⟨by simpa using a1, by simpa [Make.plain] using a2, ?_⟩
    have a3' : s'.tape.head = t1.tape.head + 6 * zs.length := a3
    omega

/-- a solver that makes one Euler step and knows the sensitivities of `y' = 2 y` -/
noncomputable def knowing : Solver ℝ (List ℝ) where
  init _ y _ := y
  step y t := .rhs t y fun f => .done 0 (List.zipWith (· + ·) y f) [[3]] y

/-- `y' = y + y` -/
noncomputable def sumOde : Ode ℝ (List ℝ) :=
  ⟨knowing, 0, [1], fun _ y => y.map fun a => a + a, fun _ => .make (.bin .add 0 0) (.ret [2])⟩

/-- of `C69_checked_initial`: from the first variable of a program, with value 3 -/
example : ∃ (c : Client W) (yt : List (List Var)) (s' : St W), OrderlyL ℝ c ∧ sumOde.ProperY c [0] [] [3] [] ∧
    sumOde.solY [] [3] = [([9], [[3]])] ∧
    cvodesSolY0 sumOde.sv sumOde.t0 ([0].map (nth c.env)) sumOde.ts sumOde.f (Code.odeY sumOde.F []) c.st = .ok (yt, s') := by
  obtain ⟨y0, s1, yt, s2, e1, hl, e2⟩ := C27_completes (W := W) [3] knowing 0 1 (fun _ y => y.map fun a => a + a) square 30
    (by simp [square, Prog.hasConst]) trivial (by
      intro r h
      cases h with | rhs h =>
      cases h
      simp [initProblem, knowing]) (by simp [tapeLimit])
  obtain ⟨o, hv, hh⟩ := orderlyL_vars [3] (OrderlyL.start (W := W) (R := ℝ)) (ys := []) rfl (by simp [Client.init, St.init, Tape.init, tapeLimit]) e1
  obtain ⟨w, rfl⟩ := List.length_eq_one_iff.mp hl
  refine ⟨⟨s1, [w], []⟩, yt, s2, o, ⟨by simp, by simp, by simp, hv, rfl, ?_⟩, ?_, e2⟩
  · have hh' : s1.tape.head = 7 := hh
    simp [sumOde, SucceedsBook, AsksBook, solveBook, knowing, Ode.startY, hh', tapeLimit]
  · simp [sumOde, Ode.solY, Ode.startY, solsBook, solveBook, knowing]
    norm_num

/-- the same for `y' = q₁ q₂ y + q₃` -/
noncomputable def knowing3 : Solver ℝ (List ℝ) where
  init _ y _ := y
  step y t := .rhs t y fun f => .done 0 (List.zipWith (· + ·) y f) [[21], [14], [1]] y

/-- `q₁ q₂ y + q₃` with `q = (2, 3, 6)` -/
noncomputable def linearOde : Ode ℝ (List ℝ) :=
  ⟨knowing3, 0, [1], linearF, fun _ => .make (.bin .mul 2 3) (.make (.bin .mul 5 0) (.make (.bin .add 6 4) (.ret [7])))⟩

/-- of `C69_checked_parameters`: the parameters are the first three variables of a program -/
example : ∃ (c : Client W) (yt : List (List Var)) (y1 : List ℝ) (s' : St W), OrderlyL ℝ c ∧
    linearOde.ProperP c [7] [0, 1, 2] [] [2, 3, 6] [] ∧ linearOde.solP [] [2, 3, 6] [7] = [([55], [[21], [14], [1]])] ∧
    cvodesSolPar linearOde.sv linearOde.t0 [7] linearOde.ts ([0, 1, 2].map (nth c.env)) linearOde.f
      (Code.odeP linearOde.F []) c.st = .ok ((yt, y1), s') := by
  obtain ⟨q, s1, yt, y1, s2, e1, hl, e2⟩ := C27_completes_parameters (W := W) [2, 3, 6] rfl knowing3 0 1 [7] linearF linear 60
    (by simp [linear, Prog.hasConst]) trivial (by
      intro r h
      cases h with | rhs h =>
      cases h
      simp [paramProblem, knowing3, linearF]) (by simp [tapeLimit])
  obtain ⟨o, hv, hh⟩ := orderlyL_vars [2, 3, 6] (OrderlyL.start (W := W) (R := ℝ)) (ys := []) rfl (by simp [Client.init, St.init, Tape.init, tapeLimit]) e1
  obtain ⟨w1, w2, w3, rfl⟩ := List.length_eq_three.mp hl
  refine ⟨⟨s1, [w1, w2, w3], []⟩, yt, y1, s2, o, ⟨by simp, by simp, by simp, rfl, hv, rfl, ?_⟩, ?_, e2⟩
  · have hh' : s1.tape.head = 19 := hh
    simp [linearOde, SucceedsBook, AsksBook, solveBook, knowing3, Ode.startP, hh', tapeLimit, linearF]
  · simp [linearOde, Ode.solP, Ode.startP, solsBook, solveBook, knowing3, linearF]
    norm_num

end real

end Props
