import Verif.Spec.Drive
import Verif.Model.Cvodes

/-!
# Sensitivities of ordinary differential equations

For `dy/dt = F(t, y, q)` the sensitivities `s_j` of the solution obey
`ds_j/dt = (∂F/∂y) s_j`  when `j` stands for an initial value, and
`ds_j/dt = (∂F/∂y) s_j + ∂F/∂q_k`  when it stands for the parameter `q_k`.
-/

namespace Spec
open Fz

/-- `o` are the right-hand sides of the sensitivity equations at the state `y` and the parameters `q`,
`F i` being component `i` of the right-hand side as a function of the state followed by the parameters, and
`S` the sensitivities.  `src j` says what sensitivity number `j` is about: parameter `k`, or an initial
value. -/
def IsSensRhs (F : Nat → List ℝ → ℝ) (y q : List ℝ) (src : Nat → Option Nat) (S o : List (List ℝ)) : Prop :=
  o.length = S.length ∧ ∀ j < S.length, (o.getD j []).length = y.length ∧ ∀ i < y.length,
    ∃ dy dq, dy.length = y.length ∧ IsGradAt (F i) (y ++ q) (dy ++ dq) ∧
      (o.getD j []).getD i 0 = (List.zipWith (· * ·) dy (S.getD j [])).sum +
        match src j with
        | none => 0
        | some k => dq.getD k 0

variable {W : Type} [Rep W ℝ]

/-- The user's right-hand side on variables: at time `t` the program `p t` is run on the state, the array
`f` as it is on entry, and the variables `env` of the caller; its outputs are assigned to `f`. -/
noncomputable def odeY (p : ℝ → Prog) (env : List Var) : ℝ → List Var → List Var → M W (List Var) :=
  fun t y f => (p t).run (y ++ f ++ env)

/-- the same with parameters -/
noncomputable def odeP (p : ℝ → Prog) (env : List Var) :
    ℝ → List Var → List Var → List Var → M W (List Var) :=
  fun t y f q => (p t).run (y ++ f ++ q ++ env)

/-- Component `i` of the right-hand side as a function of the state (`n` numbers) followed by the
parameters; the array `f` holds zeros on entry, the caller's variables have the values `ys`. -/
noncomputable def odeFn (p : Prog) (n : Nat) (ys : List ℝ) (i : Nat) (w : List ℝ) : ℝ :=
  (p.sem (w.take n ++ List.replicate n 0 ++ w.drop n ++ ys)).getD i 0

/-! ## What the solver computes when its questions are answered correctly -/

/-- the solver's questions: the right-hand side is `f t y`; `sens t y S o` says that `o` is the sensitivity
right-hand side -/
structure Problem where
  f : ℝ → List ℝ → List ℝ
  sens : ℝ → List ℝ → List (List ℝ) → List (List ℝ) → Prop

/-- one call of the solver ends with the flag, the solution, the sensitivities and its memory in `r` -/
inductive Solves {σ : Type} (pr : Problem) : Solving ℝ σ → Int × List ℝ × List (List ℝ) × σ → Prop
  | done {e y yS m} : Solves pr (.done e y yS m) (e, y, yS, m)
  | rhs {t y k r} : Solves pr (k (pr.f t y)) r → Solves pr (.rhs t y k) r
  | sens {t y yS k o r} : pr.sens t y yS o → Solves pr (k o) r → Solves pr (.sens t y yS k) r

/-- the solutions and sensitivities at the output times, one call of the solver after the other, all without
error -/
inductive SolvesAll {σ : Type} (pr : Problem) (sv : Solver ℝ σ) :
    List ℝ → σ → List (List ℝ × List (List ℝ)) → Prop
  | nil {m} : SolvesAll pr sv [] m []
  | cons {t ts m y yS m' l} : Solves pr (sv.step m t) (0, y, yS, m') → SolvesAll pr sv ts m' l →
      SolvesAll pr sv (t :: ts) m ((y, yS) :: l)

/-- `ok` holds at all points at which one call of the solver asks for the sensitivity right-hand side -/
def Asks {σ : Type} (pr : Problem) (ok : ℝ → List ℝ → List (List ℝ) → Prop) : Solving ℝ σ → Prop
  | .done _ _ _ _ => True
  | .rhs t y k => Asks pr ok (k (pr.f t y))
  | .sens t y yS k => ok t y yS ∧ ∀ o, pr.sens t y yS o → Asks pr ok (k o)

/-- the same for the calls at all output times -/
def AsksAll {σ : Type} (pr : Problem) (sv : Solver ℝ σ) (ok : ℝ → List ℝ → List (List ℝ) → Prop) :
    List ℝ → σ → Prop
  | [], _ => True
  | t :: ts, m => Asks pr ok (sv.step m t) ∧
      ∀ y yS m', Solves pr (sv.step m t) (0, y, yS, m') → AsksAll pr sv ok ts m'

/-- initial values varied: sensitivity `j` is about initial value `j` -/
def initProblem (f : ℝ → List ℝ → List ℝ) (P : ℝ → Prog) : Problem :=
  ⟨f, fun t y S o => IsSensRhs (odeFn (P t) y.length []) y [] (fun _ => none) S o⟩

/-- parameters `q` varied: sensitivity `j` is about parameter `j` -/
def paramProblem (f : ℝ → List ℝ → List ℝ) (P : ℝ → Prog) (q : List ℝ) : Problem :=
  ⟨f, fun t y S o => IsSensRhs (odeFn (P t) y.length []) y q some S o⟩

/-- the right-hand side, with `q` parameters, may be evaluated at `(t, y)`: it is differentiable there, it needs
no more than `K` words of the tape; the vectors have the right dimensions -/
def Fair (P : ℝ → Prog) (q : List ℝ) (n ns K : Nat) (t : ℝ) (y : List ℝ) (S : List (List ℝ)) : Prop :=
  y.length = n ∧ S.length = ns ∧ (P t).Ok (y ++ List.replicate n 0 ++ q) ∧
    6 * (2 * n + q.length) + (P t).cost (y ++ List.replicate n 0 ++ q) ≤ K

/-- the unit vectors -/
def unitVectors (n : Nat) : List (List ℝ) := (List.range n).map fun j => (List.range n).map fun i => if i = j then 1 else 0

/-- derivative of component `i` of the solution, `S` being its sensitivities with respect to the variables `ops`
and `b` the derivatives of the variables -/
noncomputable def sensSum (S : List (List ℝ)) (ops : List Var) (b : Var → ℝ) (i : Nat) : ℝ :=
  (List.zipWith (fun k v => k * b v) ((List.range ops.length).map fun j => (S.getD j []).getD i 0) ops).sum

end Spec
