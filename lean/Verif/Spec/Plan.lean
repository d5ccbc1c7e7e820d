import Verif.Spec.DeepLenient
import Verif.Spec.OdeBook

/-!
# Functions that solve differential equations, by the book

A user's function that, while it is being differentiated, solves differential equations with `cvodes_sol`, goes on with
the solutions, and differentiates other functions of the same kind (`Spec/Deep.lean`), to any depth.  By the book (`Plan.write`) every component of a solution is one step: its operands are the initial values
or the parameters, and it passes its adjoint times its sensitivities to them.  The solver computes solutions and
sensitivities on paper of its own (`Spec/OdeBook.lean`).  For every interpretation of `real64`.
-/

namespace Spec
open Fz Arith
variable {W R : Type} [Arith R] [Rep W R]

/-- a user's function; the memory of the solvers it uses may be of any type -/
inductive Plan (R : Type) : Type 1 where
  /-- return these variables -/
  | ret (is : List Nat)
  /-- create variables and go on -/
  | make (m : Make R) (k : Plan R)
  /-- read a value and go on as it tells -/
  | look (i : Nat) (k : R → Plan R)
  /-- solve the equation `p` from the initial values `is`; its right-hand side uses the variables `es` -/
  | init {τ : Type} (p : Ode R τ) (is es : List Nat) (k : Plan R)
  /-- solve the equation `p` from `y` with the parameters `is`; its right-hand side uses the variables `es` -/
  | par {τ : Type} (p : Ode R τ) (y : List R) (is es : List Nat) (k : Plan R)
  /-- call `gradient` for the function `f`, which uses the variables `is`, at `x`, and go on as the answer tells -/
  | gradient (f : Plan R) (x : List R) (is : List Nat) (k : R → List R → Plan R)
  /-- call `jacobian` (with `n` components) for the function `f`, and go on as the answer tells -/
  | jacobian (f : Plan R) (n : Nat) (x : List R) (is : List Nat) (k : List R → List (List R) → Plan R)

/-- execution; `J` is what the chain procedures find in memory behind the end of an array; the components of the
solutions are new variables, output time by output time -/
def Plan.runL (J : Junk W R) : Plan R → List Var → M W (List Var)
  | .ret is, env => if ∀ i ∈ is, i < env.length then pure (is.map (nth env)) else fail .oob
  | .make m k, env => if ∀ i ∈ m.args, i < env.length then do
      let vs ← m.call env
      k.runL J (env ++ vs)
    else fail .oob
  | .look i k, env => if i < env.length then do
      let x ← (nth env i).val
      (k x).runL J env
    else fail .oob
  | .init p is es k, env => if (∀ i ∈ is, i < env.length) ∧ ∀ i ∈ es, i < env.length then do
      let yt ← p.callY J (is.map (nth env)) (es.map (nth env))
      k.runL J (env ++ yt.flatten)
    else fail .oob
  | .par p y is es k, env => if (∀ i ∈ is, i < env.length) ∧ ∀ i ∈ es, i < env.length then do
      let r ← p.callP J y (is.map (nth env)) (es.map (nth env))
      k.runL J (env ++ r.1.flatten)
    else fail .oob
  | .gradient f x is k, env => if ∀ i ∈ is, i < env.length then do
      let r ← gradientL J (fun xv => do let outs ← f.runL J (xv ++ is.map (nth env)); firstOf outs) x
      (k r.1 r.2).runL J env
    else fail .oob
  | .jacobian f n x is k, env => if ∀ i ∈ is, i < env.length then do
      let r ← jacobianL J (fun xv _ => f.runL J (xv ++ is.map (nth env))) n x
      (k r.1 r.2).runL J env
    else fail .oob

/-- the function as `gradient` wants it; `env` are variables of the caller it uses -/
def Plan.scalarL (J : Junk W R) (f : Plan R) (env : List Var) : List Var → M W Var := fun xv => do
  let outs ← f.runL J (xv ++ env)
  firstOf outs

/-- the function as `jacobian` wants it -/
def Plan.vectorL (J : Junk W R) (f : Plan R) (env : List Var) : List Var → Nat → M W (List Var) :=
  fun xv _ => f.runL J (xv ++ env)

/-- execution with checks of array shapes -/
def Plan.run : Plan R → List Var → M W (List Var)
  | .ret is, env => if ∀ i ∈ is, i < env.length then pure (is.map (nth env)) else fail .oob
  | .make m k, env => if ∀ i ∈ m.args, i < env.length then do
      let vs ← m.call env
      k.run (env ++ vs)
    else fail .oob
  | .look i k, env => if i < env.length then do
      let x ← (nth env i).val
      (k x).run env
    else fail .oob
  | .init p is es k, env => if (∀ i ∈ is, i < env.length) ∧ ∀ i ∈ es, i < env.length then do
      let yt ← cvodesSolY0 p.sv p.t0 (is.map (nth env)) p.ts p.f (Code.odeY p.F (es.map (nth env)))
      k.run (env ++ yt.flatten)
    else fail .oob
  | .par p y is es k, env => if (∀ i ∈ is, i < env.length) ∧ ∀ i ∈ es, i < env.length then do
      let r ← cvodesSolPar p.sv p.t0 y p.ts (is.map (nth env)) p.f (Code.odeP p.F (es.map (nth env)))
      k.run (env ++ r.1.flatten)
    else fail .oob
  | .gradient f x is k, env => if ∀ i ∈ is, i < env.length then do
      let r ← Fz.gradient (fun xv => do let outs ← f.run (xv ++ is.map (nth env)); firstOf outs) x
      (k r.1 r.2).run env
    else fail .oob
  | .jacobian f n x is k, env => if ∀ i ∈ is, i < env.length then do
      let r ← Fz.jacobian (fun xv _ => f.run (xv ++ is.map (nth env))) n x
      (k r.1 r.2).run env
    else fail .oob

/-- the function as `gradient` wants it, with checks -/
def Plan.scalar (f : Plan R) (env : List Var) : List Var → M W Var := fun xv => do
  let outs ← f.run (xv ++ env)
  firstOf outs

/-- the function as `jacobian` wants it, with checks -/
def Plan.vector (f : Plan R) (env : List Var) : List Var → Nat → M W (List Var) := fun xv _ => f.run (xv ++ env)

/-! ## by the book -/

/-- the components of solutions, each with its derivatives with respect to the `ns` operands -/
def components (n ns : Nat) (sols : List (List R × List (List R))) : List (R × List R) :=
  sols.flatMap fun s => (List.range n).map fun i =>
    (s.1.getD i zero, (List.range ns).map fun j => (s.2.getD j []).getD i zero)

/-- one step for every component -/
def solSteps (xs : List (Num R)) : List (R × List R) → Log R (List (Num R)) :=
  Log.each fun p => step p.1 xs fun a => p.2.map fun d => a *. d

/-- the components of the solutions of the equation `p` from the initial values `z` -/
def Ode.compsY {τ : Type} (p : Ode R τ) (ys z : List R) : List (R × List R) :=
  components z.length z.length (p.solY ys z)

/-- the components of the solutions of the equation `p` from `y` with the parameters `q` -/
def Ode.compsP {τ : Type} (p : Ode R τ) (ys q y : List R) : List (R × List R) :=
  components y.length 3 (p.solP ys q y)

/-- the steps of the function; inner gradients and jacobians are computed on paper of their own -/
def Plan.write : Plan R → List (Num R) → Log R (List (Num R))
  | .ret is, env => .ret (is.map (opd env))
  | .make m k, env => (m.write env).next fun vs => k.write (env ++ vs)
  | .look i k, env => (k (opd env i).val).write env
  | .init p is es k, env =>
    (solSteps (is.map (opd env)) (p.compsY (es.map fun i => (opd env i).val) (is.map fun i => (opd env i).val))).next
      fun vs => k.write (env ++ vs)
  | .par p y is es k, env =>
    (solSteps (is.map (opd env)) (p.compsP (es.map fun i => (opd env i).val) (is.map fun i => (opd env i).val) y)).next
      fun vs => k.write (env ++ vs)
  | .gradient f x is k, env =>
    match gradientOf f.write (is.map fun i => (opd env i).val) x with
    | some (y, df) => (k y df).write env
    | none => .ret []
  | .jacobian f _ x is k, env =>
    match jacobianOf f.write (is.map fun i => (opd env i).val) x with
    | (fx, J) => (k fx J).write env

/-- value and gradient by the book -/
def Plan.bookGradient (f : Plan R) (ys x : List R) : Option (R × List R) := gradientOf f.write ys x

/-- values and jacobian by the book -/
def Plan.bookJacobian (f : Plan R) (ys x : List R) : List R × List (List R) := jacobianOf f.write ys x

/-! ## correct use -/

/-- restrictions on the calls as for functions that solve nothing (property C49) -/
def Plan.Tidy : Plan R → Prop
  | .ret _ => True
  | .make m k => (m.Sane ∧ m.Plain ∧ m.Regular) ∧ k.Tidy
  | .look _ k => ∀ x, (k x).Tidy
  | .init _ _ _ k => k.Tidy
  | .par _ _ _ _ k => k.Tidy
  | .gradient f _ _ k => f.Tidy ∧ ∀ y df, (k y df).Tidy
  | .jacobian f _ _ _ k => f.Tidy ∧ ∀ fx J, (k fx J).Tidy

/-- a function for `gradient`: the right-hand sides use no variables but the state and the parameters, and there are no
inner calls of `gradient` and `jacobian` -/
def Plan.Apart : Plan R → Prop
  | .ret _ => True
  | .make _ k => k.Apart
  | .look _ k => ∀ x, (k x).Apart
  | .init _ _ es k => es = [] ∧ k.Apart
  | .par _ _ _ es k => es = [] ∧ k.Apart
  | .gradient _ _ _ _ => False
  | .jacobian _ _ _ _ _ => False

/-- all functions that are handed to `gradient` inside `f`, at any depth, are `Apart` -/
def Plan.Careful : Plan R → Prop
  | .ret _ => True
  | .make _ k => k.Careful
  | .look _ k => ∀ x, (k x).Careful
  | .init _ _ _ k => k.Careful
  | .par _ _ _ _ k => k.Careful
  | .gradient f _ _ k => f.Apart ∧ f.Careful ∧ ∀ y df, (k y df).Careful
  | .jacobian f _ _ _ k => f.Careful ∧ ∀ fx J, (k fx J).Careful

/-- the words of tape of the variables the function creates, from the values `ys` of those it is given -/
def Plan.words : Plan R → List R → Nat
  | .ret _, _ => 0
  | .make m k, ys => m.words ys + k.words (ys ++ m.plain ys)
  | .look i k, ys => (k (num ys i)).words ys
  | .init p is es k, ys => p.ts.length * (is.length * (6 + 3 * is.length)) +
      k.words (ys ++ (p.compsY (es.map (num ys)) (is.map (num ys))).map Prod.fst)
  | .par p y is es k, ys => p.ts.length * (y.length * (6 + 3 * 3)) +
      k.words (ys ++ (p.compsP (es.map (num ys)) (is.map (num ys)) y).map Prod.fst)
  | .gradient f x is k, ys =>
    match f.bookGradient (is.map (num ys)) x with
    | some (y, df) => (k y df).words ys
    | none => 0
  | .jacobian f _ x is k, ys =>
    match f.bookJacobian (is.map (num ys)) x with
    | (fx, J) => (k fx J).words ys

/-- a function that uses the library correctly, where `depth` nested regions are open, `head` is the next free word of
the tape and `ys` are the values of the variables it is given: it names only variables that exist, the arguments of its
calls suit, it forms no matrix products, at most ten regions are open, the tape has room, and is not exactly full when a
region ends (property C36); every solver succeeds (`SucceedsBook`); a function that is handed to `gradient` returns
something, and one that is handed to `jacobian` as many components as announced -/
def Plan.Suits : Plan R → Nat → Nat → List R → Prop
  | .ret is, _, _, ys => ∀ i ∈ is, i < ys.length
  | .make m k, depth, head, ys => (∀ i ∈ m.args, i < ys.length) ∧ m.Meets false ys ∧ m.product = false ∧
      head + m.words ys ≤ tapeLimit ∧ k.Suits depth (head + m.words ys) (ys ++ m.plain ys)
  | .look i k, depth, head, ys => i < ys.length ∧ (k (num ys i)).Suits depth head ys
  | .init p is es k, depth, head, ys => (∀ i ∈ is, i < ys.length) ∧ (∀ i ∈ es, i < ys.length) ∧ depth < 10 ∧
      SucceedsBook p.sv p.f (fun t => (p.F t).sensY (es.map (num ys)))
        (fun hd t => (p.F t).Callable (es.map (num ys)) [] is.length is.length hd) is.length is.length p.ts
        (p.startY (is.map (num ys))) head ∧
      k.Suits depth (head + p.ts.length * (is.length * (6 + 3 * is.length)))
        (ys ++ (p.compsY (es.map (num ys)) (is.map (num ys))).map Prod.fst)
  | .par p y is es k, depth, head, ys => (∀ i ∈ is, i < ys.length) ∧ (∀ i ∈ es, i < ys.length) ∧ depth < 10 ∧
      is.length = 3 ∧
      SucceedsBook p.sv p.f (fun t => (p.F t).sensP (es.map (num ys)) (is.map (num ys)))
        (fun hd t => (p.F t).Callable (es.map (num ys)) (is.map (num ys)) y.length 3 hd) y.length 3 p.ts (p.startP y) head ∧
      k.Suits depth (head + p.ts.length * (y.length * (6 + 3 * 3)))
        (ys ++ (p.compsP (es.map (num ys)) (is.map (num ys)) y).map Prod.fst)
  | .gradient f x is k, depth, head, ys => (∀ i ∈ is, i < ys.length) ∧
      (depth < 10 ∧ head + 6 * x.length ≤ tapeLimit ∧
        f.Suits (depth + 1) (head + 6 * x.length) (x ++ is.map (num ys)) ∧
        ∀ j, head + 6 * x.length + f.words (x ++ is.map (num ys)) ≠ 12288 * 2 ^ j + 1) ∧
      ∃ y df, f.bookGradient (is.map (num ys)) x = some (y, df) ∧ (k y df).Suits depth head ys
  | .jacobian f n x is k, depth, head, ys => (∀ i ∈ is, i < ys.length) ∧
      (depth < 10 ∧ head + 6 * x.length ≤ tapeLimit ∧
        f.Suits (depth + 1) (head + 6 * x.length) (x ++ is.map (num ys)) ∧
        ∀ j, head + 6 * x.length + f.words (x ++ is.map (num ys)) ≠ 12288 * 2 ^ j + 1) ∧
      x ++ is.map (num ys) ≠ [] ∧ n = (f.bookJacobian (is.map (num ys)) x).1.length ∧
      (k (f.bookJacobian (is.map (num ys)) x).1 (f.bookJacobian (is.map (num ys)) x).2).Suits depth head ys

/-- a correct call of `gradient` or `jacobian` for the function `f` at `x`, where the variables `is` of the caller have
the values `ys`; the tape is not exactly full at the end (property C36) -/
def Plan.ProperL (c : Client W) (is : List Nat) (ys x : List R) (f : Plan R) : Prop :=
  (∀ i ∈ is, i < c.env.length) ∧ (vals (is.map (nth c.env)) : M W (List R)) c.st = .ok (ys, c.st) ∧ f.Tidy ∧
  c.marks.length < 10 ∧ c.st.tape.head + 6 * x.length ≤ tapeLimit ∧
  f.Suits (c.marks.length + 1) (c.st.tape.head + 6 * x.length) (x ++ ys) ∧
  ∀ j, c.st.tape.head + 6 * x.length + f.words (x ++ ys) ≠ 12288 * 2 ^ j + 1

end Spec
