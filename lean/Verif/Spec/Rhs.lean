import Verif.Spec.Imperative
import Verif.Spec.LenientOde

/-!
# Right-hand sides of differential equations written as code

The right-hand side is a subroutine with the state, the array `f` for its result and the parameters as arguments, which
assigns to variables, with loops and decisions (`Spec/Imperative.lean`).  Compare `Spec/Ode.lean`.
-/

namespace Spec
open Fz

variable {W : Type} [Rep W ℝ]

/-- the user's right-hand side on variables: at time `t` the code `p t` is run on the state and the array `f` -/
noncomputable def rhsY (p : ℝ → Proc) : ℝ → List Var → List Var → M W (List Var) := fun t y f => (p t).run (y ++ f)

/-- the same with parameters -/
noncomputable def rhsP (p : ℝ → Proc) : ℝ → List Var → List Var → List Var → M W (List Var) :=
  fun t y f q => (p t).run (y ++ f ++ q)

/-- component `i` of what the code computes for reals, as a function of the state (`n` numbers) followed by the
parameters; the array `f` holds zeros on entry -/
noncomputable def rhsFn (p : Proc) (n : Nat) (i : Nat) (w : List ℝ) : ℝ :=
  (p.sem (w.take n ++ List.replicate n 0 ++ w.drop n)).getD i 0

/-- initial values varied -/
def rhsInit (f : ℝ → List ℝ → List ℝ) (p : ℝ → Proc) : Problem :=
  ⟨f, fun t y S o => IsSensRhs (rhsFn (p t) y.length) y [] (fun _ => none) S o⟩

/-- parameters `q` varied -/
def rhsParam (f : ℝ → List ℝ → List ℝ) (p : ℝ → Proc) (q : List ℝ) : Problem :=
  ⟨f, fun t y S o => IsSensRhs (rhsFn (p t) y.length) y q some S o⟩

/-- the code, with `q` parameters, may be run at `(t, y)`: it is differentiable there, its decisions do not change nearby,
it needs no more than `K` words of the tape; the vectors have the right dimensions -/
def FairRhs (p : ℝ → Proc) (q : List ℝ) (n ns K : Nat) (t : ℝ) (y : List ℝ) (S : List (List ℝ)) : Prop :=
  y.length = n ∧ S.length = ns ∧ (p t).Ok (y ++ List.replicate n 0 ++ q) ∧
    (p t).body.Stable (y ++ List.replicate n 0 ++ q) ∧
    6 * (2 * n + q.length) + (p t).body.cost (y ++ List.replicate n 0 ++ q) ≤ K

/-- moreover: the code has `n` results, the vectors have `n` components, and at none of the `m` output times, from a tape
of `hd` words, does the tape become exactly full (C36) -/
def CallableRhs (p : ℝ → Proc) (q : List ℝ) (n ns K hd m : Nat) (t : ℝ) (y : List ℝ) (S : List (List ℝ)) : Prop :=
  FairRhs p q n ns K t y S ∧ (∀ v ∈ S, v.length = n) ∧ (p t).outs.length = n ∧
    ∀ k < m, ∀ j, hd + k * (n * (6 + 3 * ns)) + (6 * (2 * n + q.length) +
      (p t).body.cost (y ++ List.replicate n 0 ++ q)) ≠ 12288 * 2 ^ j + 1

/-- no matrix products (compare `Prog.Mild`) -/
def Stmt.Mild : Stmt → Prop
  | .call _ m => m.Mild
  | .declare m => m.Mild
  | .seq a b => a.Mild ∧ b.Mild
  | .look _ k => ∀ x, (k x).Mild
  | _ => True

/-- no new constants (compare `Prog.hasConst`) -/
def Stmt.NoConst : Stmt → Prop
  | .call _ (.const _) => False
  | .declare (.const _) => False
  | .seq a b => a.NoConst ∧ b.NoConst
  | .look _ k => ∀ x, (k x).NoConst
  | _ => True

/-- only assignments of zero to components of the array `f` -/
inductive Stmt.Zeros (n : Nat) : Stmt → Prop
  | nop : Zeros n .nop
  | real {i : Nat} : n ≤ i → i < 2 * n → Zeros n (.real i 0)
  | seq {a b : Stmt} : Zeros n a → Zeros n b → Zeros n (.seq a b)

/-- no real is assigned to a variable, except that a right-hand side (`n` components) may begin by setting components of
the array `f` to zero -/
def Stmt.Clean (n : Nat) (s : Stmt) : Prop :=
  s.NoReal ∨ ∃ a b, s = .seq a b ∧ a.Zeros n ∧ b.NoReal

end Spec
