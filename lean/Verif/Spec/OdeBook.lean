import Verif.Spec.Lenient
import Verif.Spec.Solution
import Verif.Spec.Textbook
import Verif.Model.LenientOde

/-!
# Solutions of differential equations by the book

What a solver computes when its questions about the sensitivities are answered with the numbers of the textbook
(`Spec/Textbook.lean`): `ds_j/dt = (∂F/∂y) s_j` for an initial value, `ds_j/dt = (∂F/∂y) s_j + ∂F/∂q_j` for a parameter.
For every interpretation of `real64`: sums and products are carried out in the order written here.
-/

namespace Spec
open Fz Arith
variable {W R : Type} [Arith R] [Rep W R] {σ : Type}

/-- what the right-hand side is a function of: the state, the array `f` on entry (zeros), the parameters -/
def rhsInputs (y q : List R) : List R := y ++ List.replicate y.length zero ++ q

/-- the derivatives of the components of the right-hand side `f` with respect to its inputs, one row for each component;
`ys` are the values of variables of the caller it uses -/
def Code.rows (f : Code R) (ys y q : List R) : List (List R) := (f.bookJacobian ys (rhsInputs y q)).2

/-- the right-hand sides of the sensitivities `S` with respect to initial values -/
def Code.sensY (f : Code R) (ys y : List R) (S : List (List R)) : List (List R) :=
  S.map fun s => (f.rows ys y []).map fun row => fdot (row.take y.length) s

/-- the right-hand sides of the sensitivities `S` with respect to the parameters `q` -/
def Code.sensP (f : Code R) (ys q y : List R) (S : List (List R)) : List (List R) :=
  S.mapIdx fun j s => (f.rows ys y q).map fun row => fdot (row.take y.length) s +. row.getD (2 * y.length + j) zero

/-- the flag, the solution, the sensitivities and the memory at the end of one call of the solver, its questions answered
by `f` and `sens` -/
def solveBook (f : R → List R → List R) (sens : R → List R → List (List R) → List (List R)) :
    Solving R σ → Int × List R × List (List R) × σ
  | .done e y S m => (e, y, S, m)
  | .rhs t y k => solveBook f sens (k (f t y))
  | .sens t y S k => solveBook f sens (k (sens t y S))

/-- `ok` holds of all questions about the sensitivities during such a call -/
def AsksBook (f : R → List R → List R) (sens : R → List R → List (List R) → List (List R))
    (ok : R → List R → List (List R) → Prop) : Solving R σ → Prop
  | .done _ _ _ _ => True
  | .rhs t y k => AsksBook f sens ok (k (f t y))
  | .sens t y S k => ok t y S ∧ AsksBook f sens ok (k (sens t y S))

/-- the solutions and sensitivities at the output times, one call of the solver after the other -/
def solsBook (sv : Solver R σ) (f : R → List R → List R) (sens : R → List R → List (List R) → List (List R)) :
    List R → σ → List (List R × List (List R))
  | [], _ => []
  | t :: ts, m =>
    let r := solveBook f sens (sv.step m t)
    (r.2.1, r.2.2.1) :: solsBook sv f sens ts r.2.2.2

/-- The solver succeeds at all output times, from a tape of `hd` words: `ok` holds of all its questions; it returns the
flag 0, `n` numbers and `ns` vectors of `n` numbers; there is room for the `n` variables of every output time. -/
def SucceedsBook (sv : Solver R σ) (f : R → List R → List R) (sens : R → List R → List (List R) → List (List R))
    (ok : Nat → R → List R → List (List R) → Prop) (n ns : Nat) : List R → σ → Nat → Prop
  | [], _, _ => True
  | t :: ts, m, hd =>
    let r := solveBook f sens (sv.step m t)
    AsksBook f sens (ok hd) (sv.step m t) ∧ r.1 = 0 ∧ r.2.1.length = n ∧ r.2.2.1.length = ns ∧
      (∀ s ∈ r.2.2.1, s.length = n) ∧ hd + n * (6 + 3 * ns) ≤ tapeLimit ∧
      SucceedsBook sv f sens ok n ns ts r.2.2.2 (hd + n * (6 + 3 * ns))

/-- the right-hand side `f` can be differentiated at `y`, from a tape of `hd` words: `jacobian` of it is a correct call,
it has no matrix products, and the dimensions are right -/
def Code.Callable (f : Code R) (ys q : List R) (n ns hd : Nat) (y : List R) (S : List (List R)) : Prop :=
  y.length = n ∧ S.length = ns ∧ (∀ s ∈ S, s.length = n) ∧ (Ask.jacobian f n (rhsInputs y q)).Suits false hd ys ∧
    f.NoProduct

/-- an initial value problem; `F t` is the right-hand side at time `t` on variables, `f` the one on numbers -/
structure Ode (R σ : Type) where
  sv : Solver R σ
  t0 : R
  ts : List R
  f : R → List R → List R
  F : R → Code R

/-- the memory of the solver at the beginning: the sensitivities with respect to initial values `z` are the unit
vectors -/
def Ode.startY (p : Ode R σ) (z : List R) : σ :=
  p.sv.init p.t0 z ((List.range z.length).map fun j => (List.range z.length).map fun i => if i = j then Arith.one else zero)

/-- the sensitivities of the initial values `y` with respect to the three parameters are zero -/
def Ode.startP (p : Ode R σ) (y : List R) : σ :=
  p.sv.init p.t0 y (List.replicate 3 (List.replicate y.length zero))

/-- the solutions by the book for initial values `z`; `ys` are the values of other variables the right-hand side uses -/
def Ode.solY (p : Ode R σ) (ys z : List R) : List (List R × List (List R)) :=
  solsBook p.sv p.f (fun t => (p.F t).sensY ys) p.ts (p.startY z)

/-- the solutions by the book from `y` for the parameters `q` -/
def Ode.solP (p : Ode R σ) (ys q y : List R) : List (List R × List (List R)) :=
  solsBook p.sv p.f (fun t => (p.F t).sensP ys q) p.ts (p.startP y)

/-- a correct call of `cvodes_sol` on the initial values `is`, which are `z`; the right-hand side uses the variables `es`
of the caller, which are `ys` -/
def Ode.ProperY (c : Client W) (is es : List Nat) (z ys : List R) (p : Ode R σ) : Prop :=
  c.marks.length < 10 ∧ (∀ i ∈ is, i < c.env.length) ∧ (∀ i ∈ es, i < c.env.length) ∧
  (vals (is.map (nth c.env)) : M W (List R)) c.st = .ok (z, c.st) ∧
  (vals (es.map (nth c.env)) : M W (List R)) c.st = .ok (ys, c.st) ∧
  SucceedsBook p.sv p.f (fun t => (p.F t).sensY ys) (fun hd t => (p.F t).Callable ys [] z.length z.length hd)
    z.length z.length p.ts (p.startY z) c.st.tape.head

/-- a correct call of `cvodes_sol` from `y` with the three parameters `is`, which are `q` -/
def Ode.ProperP (c : Client W) (y : List R) (is es : List Nat) (q ys : List R) (p : Ode R σ) : Prop :=
  c.marks.length < 10 ∧ (∀ i ∈ is, i < c.env.length) ∧ (∀ i ∈ es, i < c.env.length) ∧ is.length = 3 ∧
  (vals (is.map (nth c.env)) : M W (List R)) c.st = .ok (q, c.st) ∧
  (vals (es.map (nth c.env)) : M W (List R)) c.st = .ok (ys, c.st) ∧
  SucceedsBook p.sv p.f (fun t => (p.F t).sensP ys q) (fun hd t => (p.F t).Callable ys q y.length 3 hd)
    y.length 3 p.ts (p.startP y) c.st.tape.head

/-- the call on initial values -/
def Ode.callY (J : Junk W R) (p : Ode R σ) (z e : List Var) : M W (List (List Var)) :=
  cvodesSolY0L J p.sv p.t0 z p.ts p.f (Code.odeY p.F e)

/-- the call with parameters -/
def Ode.callP (J : Junk W R) (p : Ode R σ) (y : List R) (q e : List Var) : M W (List (List Var) × List R) :=
  cvodesSolParL J p.sv p.t0 y p.ts q p.f (Code.odeP p.F e)

end Spec
