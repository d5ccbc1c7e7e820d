import Verif.Props.Rules
import Verif.Props.Gradient

/-!
# C47: operations added by the user

The user guide documents how a user adds an operation: make a variable with `var(value, operands)` or
`var(value, operands, data)`, and point it to a chain procedure (`Verif.Model.User`).  `factors` and
`RuleFits` (`Spec/UserRule.lean`) say over the real numbers what a chain procedure multiplies the adjoint with,
and that it is written for this number of operands and data.  Programs (`Spec/Prog.lean`) contain such
operations too, so C01, C02, C03, C08, C10 hold for programs that mix them with the library's.
-/

set_option linter.unusedSectionVars false

namespace Props
open Fz Spec

variable {W : Type} [Rep W ℝ] [LawfulRep W ℝ]
variable {h : List (Call ℝ)} {c : Client W} {u : Var} {b : Var → ℝ}

/-- **C47**: an operation added by the user gives a variable with the value the user computed, whose derivative
with respect to any variable is the sum of the factors of the chain procedure times the derivatives of the
operands; the operands may be any variables and may repeat. -/
theorem C47_derivative (hr : Reach h c) {vs : List Var} (hvs : ∀ v ∈ vs, v ∈ existing c.st) {xs : List ℝ}
    (hxs : (vals vs : M W (List ℝ)) c.st = .ok (xs, c.st)) (y : ℝ) (r : URule) (ds : List ℝ)
    (hf : RuleFits y xs ds r) (room : c.st.tape.head + (6 + vs.length + 2 * ds.length) ≤ tapeLimit)
    (hu : u ∈ existing c.st) (hb : Rates c.st u b) :
    ∃ w s', (userOp y r vs ds : M W Var) c.st = .ok (w, s') ∧
      Gives c.st s' w y u (List.zipWith (fun k v => k * b v) (factors y xs ds r) vs).sum :=
  record_gives hr hvs hxs (ds := ds) (ch := .user r)
    (fun _ _ _ hi hh _ => hi.userOp_ok y r hh ds (by have : cap = tapeLimit := rfl; omega)) (local_user hf) hu hb

/-! ## the examples of the guide -/

/-- doc/fazang_user_guide.org:629-637 `chain_log`: `adj(1) = this%adj() / val(1)` -/
def guideChainLog : URule := .fixed 1 0 [.div .adj (.op 0)]

/-- doc/fazang_user_guide.org:618-626 `log_v` -/
noncomputable def guideLog (v : Var) : M W Var := do
  let x ← v.val
  userOp (Arith.log x) guideChainLog [v] []

/-- doc/fazang_user_guide.org:676-684 `chain_div_vv`: `adj(1) = this%adj()/val(2)`,
`adj(2) = - this%val() * this%adj()/val(2)` -/
def guideChainDivVV : URule := .fixed 2 0 [.div .adj (.op 1), .neg (.div (.mulL .res .adj) (.op 1))]

/-- doc/fazang_user_guide.org:666-672 `div_vv` -/
noncomputable def guideDivVV (v1 v2 : Var) : M W Var := do
  let x ← v1.val
  let y ← v2.val
  userOp (x /. y) guideChainDivVV [v1, v2] []

/-- doc/fazang_user_guide.org:707-714 `chain_div_vd`: `adj(1) = this%adj() / d(1)` -/
def guideChainDivVD : URule := .fixed 0 1 [.div .adj (.dat 0)]

/-- doc/fazang_user_guide.org:687-694 `div_vd` -/
noncomputable def guideDivVD (v : Var) (d : ℝ) : M W Var := do
  let x ← v.val
  userOp (x /. d) guideChainDivVD [v] [d]

/-- **C47**: the guide's `log_v` is the logarithm, with the right derivative. -/
theorem C47_guide_log (hr : Reach h c) {v : Var} (hv : v ∈ existing c.st) {x : ℝ}
    (hx : (v.val : M W ℝ) c.st = .ok (x, c.st)) (hpos : 0 < x) (room : c.st.tape.head + 7 ≤ tapeLimit)
    (hu : u ∈ existing c.st) (hb : Rates c.st u b) :
    ∃ w s', (guideLog v : M W Var) c.st = .ok (w, s') ∧
      Gives c.st s' w (Real.log x) u (deriv Real.log x * b v) := by
  obtain ⟨w, s', e, G⟩ := C47_derivative hr (vs := [v]) (by simpa using hv) (vals_one hx) (Real.log x) guideChainLog []
    (by simp [guideChainLog, RuleFits, DefinedL, Defined, localOf, expVal, hpos.ne']) room hu hb
  refine ⟨w, s', by unfold guideLog; rw [bind_ok hx]; exact e, ?_⟩
  simpa [guideChainLog, factors, factorOf, expVal, localOf] using G

/-- **C47**: the guide's `div_vv` is the quotient, with the right derivative. -/
theorem C47_guide_div (hr : Reach h c) {v w : Var} (hv : v ∈ existing c.st) (hw : w ∈ existing c.st) {x y : ℝ}
    (hx : (v.val : M W ℝ) c.st = .ok (x, c.st)) (hy : (w.val : M W ℝ) c.st = .ok (y, c.st)) (hne : y ≠ 0)
    (room : c.st.tape.head + 8 ≤ tapeLimit) (hu : u ∈ existing c.st) (hb : Rates c.st u b) :
    ∃ r s', (guideDivVV v w : M W Var) c.st = .ok (r, s') ∧
      Gives c.st s' r (x / y) u (deriv (fun z => z / y) x * b v + deriv (fun z => x / z) y * b w) := by
  obtain ⟨r, s', e, G⟩ := C47_derivative hr (vs := [v, w]) (by simp [hv, hw]) (vals_two hx hy) (x / y)
    guideChainDivVV [] (by simp [guideChainDivVV, RuleFits, DefinedL, Defined, localOf, expVal, hne]) room hu hb
  refine ⟨r, s', by unfold guideDivVV; rw [bind_ok hx, bind_ok hy]; exact e, ?_⟩
  have h1 : deriv (fun z : ℝ => z / y) x = 1 / y := ((hasDerivAt_id x).div_const y).deriv
  have h2 : deriv (fun z : ℝ => x / z) y = -(x / y / y) := by
    have := ((hasDerivAt_const y x).div (hasDerivAt_id y) hne).deriv
    refine this.trans ?_
    simp only [id_eq]
    field_simp
    ring
  rw [h1, h2]
  simpa [guideChainDivVV, factors, factorOf, expVal, localOf] using G

/-- **C47**: the guide's `div_vd` is the quotient by a real, with the right derivative. -/
theorem C47_guide_div_real (hr : Reach h c) {v : Var} (hv : v ∈ existing c.st) {x : ℝ}
    (hx : (v.val : M W ℝ) c.st = .ok (x, c.st)) (d : ℝ) (hne : d ≠ 0) (room : c.st.tape.head + 9 ≤ tapeLimit)
    (hu : u ∈ existing c.st) (hb : Rates c.st u b) :
    ∃ r s', (guideDivVD v d : M W Var) c.st = .ok (r, s') ∧
      Gives c.st s' r (x / d) u (deriv (fun z => z / d) x * b v) := by
  obtain ⟨r, s', e, G⟩ := C47_derivative hr (vs := [v]) (by simpa using hv) (vals_one hx) (x / d)
    guideChainDivVD [d] (by simp [guideChainDivVD, RuleFits, DefinedL, Defined, localOf, expVal, hne]) room hu hb
  refine ⟨r, s', by unfold guideDivVD; rw [bind_ok hx]; exact e, ?_⟩
  have h1 : deriv (fun z : ℝ => z / d) x = 1 / d := ((hasDerivAt_id x).div_const d).deriv
  rw [h1]
  simpa [guideChainDivVD, factors, factorOf, expVal, localOf] using G

/-! ## a program with an operation of the user -/

/-- `x * y`, then the guide's quotient of it by the user's data 4, then `sin` of that: a program mixing library
operations with one of the user -/
noncomputable def userSample : Prog :=
  .op (.bin .mul 0 1) <| .op (.user (fun v => look v 0 / 4) guideChainDivVD [2] [4]) <| .op (.un .sin 3) <| .ret [4]

theorem userSample_ok (a b : ℝ) (l : List ℝ) (hl : l = []) : userSample.Ok (a :: b :: l) := by
  subst hl
  simp only [userSample, Prog.Ok, Instr.Ok, Instr.sem, Bin.domVV, Un.dom, Bin.fn]
  refine ⟨by simp, ⟨by simp, ?_, ?_⟩, by simp, by simp⟩
  · simp [RuleFits, guideChainDivVD, DefinedL, Defined, localOf, expVal]
  · refine ⟨by simp [factors, guideChainDivVD], ?_⟩
    refine ⟨(1 / 4 : ℝ) • ContinuousLinearMap.proj (0 : Fin 1), ?_, ?_⟩
    · have : HasFDerivAt (fun y : Fin 1 → ℝ => (1 / 4 : ℝ) * y 0)
          ((1 / 4 : ℝ) • ContinuousLinearMap.proj (R := ℝ) (φ := fun _ : Fin 1 => ℝ) (0 : Fin 1))
          (fun i => ([look (a :: b :: []) 0 * look (a :: b :: []) 1] : List ℝ)[i]) :=
        ((ContinuousLinearMap.proj (R := ℝ) (φ := fun _ : Fin 1 => ℝ) (0 : Fin 1)).hasFDerivAt).const_mul _
      refine this.congr_of_eventuallyEq (Filter.Eventually.of_forall fun y => ?_)
      simp [look]
      ring
    · intro y
      simp [factors, guideChainDivVD, factorOf, expVal, localOf, List.ofFn_succ]

/-- the hypotheses of C01, with an operation of the user in the program, are met -/
example : ∃ df s', derive userSample [] [2, 3] 0 (St.init : St ℝ) = .ok ((userSample.sem [2, 3], df), s') ∧
    IsGradAt (fun z => (userSample.sem z).getD 0 0) [2, 3] df := by
  apply C01_completes
  · exact userSample_ok 2 3 [] rfl
  · simp [userSample, Prog.sem]
  · simp [userSample, Prog.cost, Instr.cost, Un.cost, tapeLimit]

/-- the hypotheses of `C47_derivative` and the theorems on the guide's examples are met, with a repeated
operand -/
example : ∃ c : Client ℝ, Reach demo c ∧ (⟨3⟩ : Var) ∈ existing c.st ∧ (⟨1⟩ : Var) ∈ existing c.st ∧
    ((⟨3⟩ : Var).val : M ℝ ℝ) c.st = .ok (6, c.st) ∧ ((⟨1⟩ : Var).val : M ℝ ℝ) c.st = .ok (2, c.st) ∧
    RuleFits 3 [6, 2] [] guideChainDivVV ∧ RuleFits 1 [6, 6] [] guideChainDivVV ∧
    c.st.tape.head + (6 + [(⟨3⟩ : Var), ⟨3⟩].length + 2 * ([] : List ℝ).length) ≤ tapeLimit ∧
    c.st.tape.head + 9 ≤ tapeLimit ∧ Rates c.st ⟨1⟩ demoB := by
  obtain ⟨c, hr, hh, hex, h1, h2, h3, hb⟩ := demo_rates (W := ℝ)
  exact ⟨c, hr, by simp [hex], by simp [hex], h3, h1,
    by simp [guideChainDivVV, RuleFits, DefinedL, Defined, localOf, expVal],
    by simp [guideChainDivVV, RuleFits, DefinedL, Defined, localOf, expVal],
    by rw [hh]; simp [tapeLimit], by rw [hh]; simp [tapeLimit], hb⟩

/-! ## subscripts -/

section bounds
variable {R : Type} [Arith R]

theorem getD_of_take {i n : Nat} {xs xs' : List R} (hi : i < n) (h : xs.take n = xs'.take n) (z : R) :
    xs.getD i z = xs'.getD i z := by
  rw [List.getD_eq_getElem?_getD, List.getD_eq_getElem?_getD, ← List.getElem?_take_of_lt hi, h, List.getElem?_take_of_lt hi]

theorem UExp.fits_eval {n m : Nat} {y : R} {xs xs' ds ds' : List R} (hx : xs.take n = xs'.take n)
    (hd : ds.take m = ds'.take m) (e : UExp) : e.fits n m = true → e.eval y xs ds = e.eval y xs' ds' := by
  induction e with
  | res | lit => intro _; rfl
  | op i => intro h; exact getD_of_take (of_decide_eq_true h) hx _
  | dat i => intro h; exact getD_of_take (of_decide_eq_true h) hd _
  | add a b iha ihb | sub a b iha ihb | mul a b iha ihb | div a b iha ihb | pow a b iha ihb =>
    intro h
    simp only [UExp.fits, Bool.and_eq_true] at h
    simp only [UExp.eval, iha h.1, ihb h.2]
  | neg a ih | call f a ih =>
    intro h
    simp only [UExp.fits] at h
    simp only [UExp.eval, ih h]
  | ifLt a b t e iha ihb iht ihe =>
    intro h
    simp only [UExp.fits, Bool.and_eq_true] at h
    simp only [UExp.eval, iha h.1.1.1, ihb h.1.1.2, iht h.1.2, ihe h.2]

theorem LExp.fits_eval {n m : Nat} {a y : R} {xs xs' ds ds' : List R} (hx : xs.take n = xs'.take n)
    (hd : ds.take m = ds'.take m) (e : LExp) : e.fits n m = true → e.eval a y xs ds = e.eval a y xs' ds' := by
  have hu := fun u : UExp => UExp.fits_eval (y := y) hx hd u
  induction e with
  | adj | nil => intro _; rfl
  | neg l ih =>
    intro h
    simp only [LExp.fits] at h
    simp only [LExp.eval, ih h]
  | mulL c l ih =>
    intro h
    simp only [LExp.fits, Bool.and_eq_true] at h
    simp only [LExp.eval, hu c h.1, ih h.2]
  | mulR l c ih | div l c ih =>
    intro h
    simp only [LExp.fits, Bool.and_eq_true] at h
    simp only [LExp.eval, hu c h.2, ih h.1]
  | add l l' ih ih' | sub l l' ih ih' =>
    intro h
    simp only [LExp.fits, Bool.and_eq_true] at h
    simp only [LExp.eval, ih h.1, ih' h.2]
  | ifLt p q l l' ih ih' =>
    intro h
    simp only [LExp.fits, Bool.and_eq_true] at h
    simp only [LExp.eval, hu p h.1.1.1, hu q h.1.1.2, ih h.1.2, ih' h.2]

/-- **C47**: what a chain procedure that passes the check of subscripts hands on does not depend on anything behind the
end of its local arrays `val(n)` and `d(m)` -/
theorem C47_bounds_fixed {n m : Nat} {es : List LExp} (h : (URule.fixed n m es).fits = true) (a y : R)
    {xs xs' ds ds' : List R} (hx : xs.take n = xs'.take n) (hd : ds.take m = ds'.take m) :
    (URule.fixed n m es).eval a y xs ds = (URule.fixed n m es).eval a y xs' ds' := by
  simp only [URule.fits, List.all_eq_true] at h
  exact List.map_congr_left fun e he => LExp.fits_eval hx hd e (h e he)

/-- **C47**: the same for a chain procedure with one expression for all operands; each result depends on one operand -/
theorem C47_bounds_each {m : Nat} {e : LExp} (h : (URule.each m e).fits = true) (a y : R) {xs ds ds' : List R}
    (hd : ds.take m = ds'.take m) (l : List R) :
    (URule.each m e).eval a y xs ds = xs.map fun x => e.eval a y (x :: l) ds' :=
  List.map_congr_left fun x _ => LExp.fits_eval (xs := [x]) (xs' := x :: l) (n := 1) (by simp) hd e h

/-- the hypotheses are met; with fewer elements in `val` the check fails -/
example : guideChainDivVV.fits = true ∧ guideChainDivVD.fits = true ∧
    (URule.fixed 1 0 [.mulR .adj (.pow (.op 0) (.op 1))]).fits = false := ⟨rfl, rfl, rfl⟩

end bounds

end Props
