import Verif.Spec.Lenient
import Verif.Spec.Partial
import Verif.Spec.Ode
import Verif.Spec.Run
import Verif.Model.LenientOde

/-!
# Solutions of differential equations, without checks of array shapes
-/

namespace Spec
open Fz Arith

/-- not a matrix product; a chain procedure of the user stays within its own local arrays -/
def Instr.Mild : Instr → Prop
  | .matmulVV _ _ | .matmulVD _ _ | .matmulDV _ _ => False
  | .user _ r _ _ => r.fits = true
  | _ => True

/-- a program of such instructions -/
def Prog.Mild : Prog → Prop
  | .ret _ => True
  | .op i k => i.Mild ∧ k.Mild
  | .ifVV _ _ _ p q => p.Mild ∧ q.Mild
  | .ifVD _ _ _ p q => p.Mild ∧ q.Mild

section
variable {W R : Type} [Arith R] [Rep W R]

/-- reset all adjoints, sweep from `v`, read the adjoint of `u` (compare `partialOf`) -/
def partialOfL (J : Junk W R) (v u : Var) : M W R := do
  setZeroAllAdj (R := R)
  v.gradL J
  u.adj

/-- the number this gives in the state `s` -/
def rateL (J : Junk W R) (s : St W) (v u : Var) : Except Err R :=
  match (partialOfL J v u : M W R) s with
  | .ok (a, _) => .ok a
  | .error e => .error e

/-- in the state `s` the library computes the derivatives `b v` of all variables `v` with respect to `u`, whatever is
in memory -/
def RatesL (s : St W) (u : Var) (b : Var → R) : Prop := ∀ J, ∀ v ∈ existing s, rateL J s v u = .ok (b v)

/-- as `Gives`, whatever is in memory -/
structure GivesL (s s' : St W) (r : Var) (x : R) (u : Var) (a : R) : Prop where
  here : r ∈ existing s'
  value : (r.val : M W R) s' = .ok (x, s')
  deriv : ∀ J, rateL J s' r u = .ok a
  old : ∀ v ∈ existing s, v ∈ existing s' ∧ seen (R := R) s' v = seen s v ∧
    ∀ J J' : Junk W R, rateL J s' v u = rateL J' s v u

end

/-- the solver succeeds at all output times: if its questions are answered correctly it returns the flag 0, `n` numbers
and `ns` vectors of `n` numbers -/
def Succeeds {σ : Type} (pr : Problem) (sv : Solver ℝ σ) (n ns : Nat) : List ℝ → σ → Prop
  | [], _ => True
  | t :: ts, m =>
      (∀ r, Solves pr (sv.step m t) r → r.1 = 0 ∧ r.2.1.length = n ∧ r.2.2.1.length = ns ∧ ∀ v ∈ r.2.2.1, v.length = n) ∧
      ∀ y yS m', Solves pr (sv.step m t) (0, y, yS, m') → Succeeds pr sv n ns ts m'

/-- the solver gives up: asked for the output times one after the other, its questions answered correctly, it returns at
some output time a flag other than 0, and before that the flag 0, `n` numbers and `ns` vectors of `n` numbers -/
def GivesUp {σ : Type} (pr : Problem) (sv : Solver ℝ σ) (n ns : Nat) : List ℝ → σ → Prop
  | [], _ => False
  | t :: ts, m =>
      (∃ r, Solves pr (sv.step m t) r ∧ r.1 ≠ 0) ∨
      ∃ y yS m', Solves pr (sv.step m t) (0, y, yS, m') ∧ y.length = n ∧ yS.length = ns ∧ (∀ v ∈ yS, v.length = n) ∧
        GivesUp pr sv n ns ts m'

/-- the right-hand side can be called: as `Fair`; it returns `n` numbers, the vectors have `n` components, and at none of
the `m` output times, from a tape of `hd` words, does the tape become exactly full (C36) -/
def CallableL (p : ℝ → Prog) (q : List ℝ) (n ns K hd m : Nat) (t : ℝ) (y : List ℝ) (S : List (List ℝ)) : Prop :=
  Fair p q n ns K t y S ∧ (∀ v ∈ S, v.length = n) ∧ ((p t).sem (y ++ List.replicate n 0 ++ q)).length = n ∧
    ∀ k < m, ∀ j, hd + k * (n * (6 + 3 * ns)) + (6 * (2 * n + q.length) + (p t).cost (y ++ List.replicate n 0 ++ q)) ≠
      12288 * 2 ^ j + 1

end Spec
