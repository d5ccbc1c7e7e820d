import Verif.Proof.Derivs

/-!
# Chain procedures of the user, over the reals
-/

set_option linter.unusedSectionVars false

namespace Fz
open Arith Spec

theorem LExp.eval_linear (e : LExp) (a y : ℝ) (xs ds : List ℝ) : e.eval a y xs ds = a * e.eval 1 y xs ds := by
  induction e with
  | adj => simp [LExp.eval]
  | nil => simp [LExp.eval]
  | neg l ih => simp only [LExp.eval, rNeg, ih]; ring
  | mulL c l ih => simp only [LExp.eval, rMul, ih]; ring
  | mulR l c ih => simp only [LExp.eval, rMul, ih]; ring
  | div l c ih => simp only [LExp.eval, rDiv, ih]; ring
  | add l l' ih ih' => simp only [LExp.eval, rAdd, ih, ih']; ring
  | sub l l' ih ih' => simp only [LExp.eval, rSub, ih, ih']; ring
  | ifLt p q l l' ih ih' =>
    simp only [LExp.eval]
    split
    · exact ih
    · exact ih'

theorem URule.eval_linear (r : URule) (a y : ℝ) (xs ds : List ℝ) :
    r.eval a y xs ds = (r.eval 1 y xs ds).map fun k => a * k := by
  cases r with
  | fixed n m es =>
    simp only [URule.eval, List.map_map]
    exact List.map_congr_left fun e _ => e.eval_linear a y xs ds
  | each m e =>
    simp only [URule.eval, List.map_map]
    exact List.map_congr_left fun x _ => e.eval_linear a y [x] ds

theorem UFn.eval_real (f : UFn) (x : ℝ) : f.eval x = fnOf f x := by
  cases f <;> try rfl
  · exact erfR_eq x
  · show 1 - erfR x = 1 - erfFn x
    rw [erfR_eq]

theorem UExp.eval_real (e : UExp) (y : ℝ) (xs ds : List ℝ) : e.eval y xs ds = expVal y xs ds e := by
  induction e with
  | res => rfl
  | op i => rfl
  | dat i => rfl
  | lit m e => rfl
  | add a b iha ihb => simp only [UExp.eval, expVal, rAdd, iha, ihb]
  | sub a b iha ihb => simp only [UExp.eval, expVal, rSub, iha, ihb]
  | mul a b iha ihb => simp only [UExp.eval, expVal, rMul, iha, ihb]
  | div a b iha ihb => simp only [UExp.eval, expVal, rDiv, iha, ihb]
  | pow a b iha ihb =>
    simp only [UExp.eval, expVal, iha, ihb]
    rfl
  | neg a ih => simp only [UExp.eval, expVal, rNeg, ih]
  | call f a ih => simp only [UExp.eval, expVal, ih, UFn.eval_real]
  | ifLt a b t e iha ihb iht ihe =>
    simp only [UExp.eval, expVal, iha, ihb, iht, ihe]
    simp [Arith.flt]

theorem LExp.eval_one (e : LExp) (y : ℝ) (xs ds : List ℝ) : e.eval 1 y xs ds = factorOf y xs ds e := by
  induction e with
  | adj => rfl
  | nil => rfl
  | neg l ih => simp only [LExp.eval, factorOf, rNeg, ih]
  | mulL c l ih => simp only [LExp.eval, factorOf, rMul, ih, UExp.eval_real]
  | mulR l c ih => simp only [LExp.eval, factorOf, rMul, ih, UExp.eval_real]
  | div l c ih => simp only [LExp.eval, factorOf, rDiv, ih, UExp.eval_real]
  | add l l' ih ih' => simp only [LExp.eval, factorOf, rAdd, ih, ih']
  | sub l l' ih ih' => simp only [LExp.eval, factorOf, rSub, ih, ih']
  | ifLt p q l l' ih ih' =>
    simp only [LExp.eval, factorOf, UExp.eval_real, ih, ih']
    simp [Arith.flt]

theorem UExp.fits_of_defined {y : ℝ} {xs ds : List ℝ} {e : UExp} (h : Defined y xs ds e) :
    e.fits xs.length ds.length = true := by
  induction e <;> simp_all [Defined, UExp.fits]

theorem LExp.fits_of_defined {y : ℝ} {xs ds : List ℝ} {e : LExp} (h : DefinedL y xs ds e) :
    e.fits xs.length ds.length = true := by
  induction e with
  | adj => rfl
  | nil => rfl
  | neg l ih => exact ih h
  | mulL c l ih => simp [LExp.fits, UExp.fits_of_defined h.1, ih h.2]
  | mulR l c ih => simp [LExp.fits, UExp.fits_of_defined h.2, ih h.1]
  | div l c ih => simp [LExp.fits, UExp.fits_of_defined h.2.1, ih h.1]
  | add l l' ih ih' => simp [LExp.fits, ih h.1, ih' h.2]
  | sub l l' ih ih' => simp [LExp.fits, ih h.1, ih' h.2]
  | ifLt p q l l' ih ih' =>
    simp [LExp.fits, UExp.fits_of_defined h.1, UExp.fits_of_defined h.2.1, ih h.2.2.1, ih' h.2.2.2]

theorem localOf_eq (n : Nat) (l : List ℝ) : locArr n l = localOf n l := rfl

theorem localOf_length {n : Nat} {l : List ℝ} (h : n = 0 ∨ n = l.length) : (localOf n l).length = n := by
  unfold localOf
  split
  · simp_all
  · rcases h with h | h
    · contradiction
    · exact h.symm

/-- what a fitting chain procedure contributes -/
theorem local_user {y : ℝ} {xs ds : List ℝ} {r : URule} (h : RuleFits y xs ds r) :
    Local (.user r) y xs ds (factors y xs ds r) := by
  intro a
  cases r with
  | fixed n m es =>
    obtain ⟨hn, hm, hl, hd⟩ := h
    have hf : (URule.fixed n m es).fits = true := by
      simp only [URule.fits, List.all_eq_true]
      intro e he
      have := LExp.fits_of_defined (hd e he)
      rwa [localOf_length hn, localOf_length hm] at this
    simp only [contribPlain, cUser]
    rw [if_pos ⟨hf, hn.imp id Eq.symm, hm.imp id Eq.symm, hl.ge⟩, URule.eval_linear]
    simp [URule.eval, factors, LExp.eval_one, localOf_eq]
  | each m e =>
    obtain ⟨hm, hne, hd⟩ := h
    have hf : (URule.each m e).fits = true := by
      obtain ⟨x, hx⟩ := List.exists_mem_of_ne_nil _ hne
      have := LExp.fits_of_defined (hd x hx)
      rwa [localOf_length hm] at this
    simp only [contribPlain, cUser]
    rw [if_pos ⟨hf, hm.imp id Eq.symm⟩, URule.eval_linear]
    simp [URule.eval, factors, LExp.eval_one, localOf_eq]

end Fz
