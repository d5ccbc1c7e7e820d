import Verif.Spec.Plain

/-!
# Reverse-mode differentiation as in a textbook

A list of steps, each with its number, the steps it was computed from, and the rule that turns the adjoint of the step
into what its operands receive.  Forwards, the steps are written down one after the other; backwards, they are visited
from the last to the first.  Nothing else: no tape, no nested regions, no chain procedures, no bytes.  For every
interpretation `R` of `real64`, so the order of the additions matters and is part of the statement.
-/

namespace Spec
open Fz Arith
variable {R : Type} [Arith R]

/-- an operand: its number, and the step it comes from (`none`: a variable of the caller, not differentiated) -/
structure Num (R : Type) where
  ref : Option Nat
  val : R

/-- a step: its number, where the operands come from, what they receive when the adjoint of the step is `a` -/
structure Step (R : Type) where
  val : R
  src : List (Option Nat)
  pass : R → List R

/-- a computation that writes down steps -/
abbrev Log (R α : Type) := List (Step R) → α × List (Step R)

/-- no step -/
def Log.ret {α : Type} (x : α) : Log R α := fun T => (x, T)

/-- one after the other -/
def Log.next {α β : Type} (m : Log R α) (k : α → Log R β) : Log R β := fun T => k (m T).1 (m T).2

/-- for all elements of a list, in order -/
def Log.each {α β : Type} (f : α → Log R β) : List α → Log R (List β)
  | [] => .ret []
  | x :: xs => (f x).next fun y => (Log.each f xs).next fun ys => .ret (y :: ys)

/-- one step with number `v` and operands `xs` -/
def step (v : R) (xs : List (Num R)) (pass : R → List R) : Log R (Num R) := fun T =>
  (⟨some T.length, v⟩, T ++ [⟨v, xs.map Num.ref, pass⟩])

/-- an input -/
def input (v : R) : Log R (Num R) := step v [] fun _ => []

/-! ## backwards -/

/-- operands receive their parts, one after the other -/
def receive (adj : Nat → R) : List (Option Nat) → List R → Nat → R
  | some k :: rs, d :: ds => receive (fun j => if j = k then adj k +. d else adj j) rs ds
  | none :: rs, _ :: ds => receive adj rs ds
  | _, _ => adj

/-- all steps, the last one first; `adj` are the adjoints before; `k` is the number of the first step of the list -/
def backFrom (k : Nat) : List (Step R) → (Nat → R) → Nat → R
  | [], adj => adj
  | c :: T, adj =>
    let adj' := backFrom (k + 1) T adj
    receive adj' c.src (c.pass (adj' k))

/-- adjoint one at the result, zero elsewhere -/
def seed (r : Option Nat) : Nat → R := fun j => if r = some j then one else zero

/-- the adjoints of the first `n` steps, for the result `o` -/
def rowOf (T : List (Step R)) (n : Nat) (o : Num R) : List R := (List.range n).map (backFrom 0 T (seed o.ref))

/-! ## the rules -/

/-- what the operand `x` of `v = f(x)` receives for adjoint `a` (`pos`, `abs`, and NaN arguments of `acosh` and `atanh`
are dealt with in `Fn.write`) -/
def Fn.pass : Fn → R → R → R → R
  | .pos, _, _, a => a
  | .neg, _, _, a => Arith.neg a
  | .abs, _, _, a => a
  | .sin, x, _, a => a *. Arith.cos x
  | .cos, x, _, a => Arith.neg (a *. Arith.sin x)
  | .tan, _, v, a => a *. (one +. v *. v)
  | .asin, x, _, a => a /. Arith.sqrt (one -. x *. x)
  | .acos, x, _, a => Arith.neg (a /. Arith.sqrt (one -. x *. x))
  | .atan, x, _, a => a /. (one +. x *. x)
  | .sinh, x, _, a => a *. Arith.cosh x
  | .cosh, x, _, a => a *. Arith.sinh x
  | .tanh, x, _, a => a /. (Arith.cosh x *. Arith.cosh x)
  | .asinh, x, _, a => a /. Arith.sqrt (x *. x +. one)
  | .acosh, x, _, a => a /. Arith.sqrt (x *. x -. one)
  | .atanh, x, _, a => a /. (one -. x *. x)
  | .sqrt, _, v, a => half *. a /. v
  | .inv, x, _, a => Arith.neg (a /. (x *. x))
  | .square, x, _, a => a *. two *. x
  | .invSquare, x, _, a => Arith.neg (a *. two /. (x *. x *. x))
  | .invSqrt, x, _, a => Arith.neg (half *. a /. (x *. Arith.sqrt x))
  | .exp, _, v, a => a *. v
  | .log, x, _, a => a /. x
  | .logit, x, _, a => a /. (x -. x *. x)
  | .invLogit, _, v, a => a *. v *. (one -. v)
  | .erf, x, _, a => a *. twoOverSqrtPi *. Arith.exp (Arith.neg (x *. x))
  | .erfc, x, _, a => Arith.neg (a *. twoOverSqrtPi *. Arith.exp (Arith.neg (x *. x)))
  | .logGamma, x, _, a => a *. Fz.digamma x

/-- a function of one variable -/
def Fn.write (f : Fn) (x : Num R) : Log R (Num R) :=
  let new := step (f.plain x.val) [x] fun a => [f.pass x.val (f.plain x.val) a]
  match f with
  | .pos => .ret x
  | .abs =>
    if flt zero x.val then .ret x
    else if flt x.val zero then step (Arith.neg x.val) [x] fun a => [Arith.neg a]
    else if feq x.val zero then input zero
    else step nan [x] fun _ => if feq (nan : R) nan then [] else [nan]
  | .acosh => if feq x.val x.val then new else .ret x
  | .atanh => if feq x.val x.val then new else .ret x
  | _ => new

/-- what the operands of `v = f(x, y)` receive for adjoint `a`; a power with base zero passes nothing on -/
def Bin.pass : Bin → R → R → R → R → List R
  | .add, _, _, _, a => [a, a]
  | .sub, _, _, _, a => [a, Arith.neg a]
  | .mul, x, y, _, a => [y *. a, x *. a]
  | .div, _, y, v, a => [a /. y, Arith.neg (v *. a /. y)]
  | .pow, x, y, v, a => if feq x zero then [] else [a *. y *. v /. x, a *. v *. Arith.log x]
  | .hypot, x, y, v, a => [a *. x /. v, a *. y /. v]

/-- the same for a variable and a real -/
def Bin.passVD : Bin → R → R → R → R → List R
  | .add, _, _, _, a => [a]
  | .sub, _, _, _, a => [a]
  | .mul, _, d, _, a => [a *. d]
  | .div, _, d, _, a => [a /. d]
  | .pow, x, d, v, a => if feq x zero then [] else [a *. d *. v /. x]
  | .hypot, x, _, v, a => [a *. x /. v]

/-- the same for a real and a variable -/
def Bin.passDV : Bin → R → R → R → R → List R
  | .add, _, _, _, a => [a]
  | .sub, _, _, _, a => [Arith.neg a]
  | .mul, d, _, _, a => [a *. d]
  | .div, _, x, v, a => [Arith.neg (v *. a /. x)]
  | .pow, d, _, v, a => if feq d zero then [] else [a *. v *. Arith.log d]
  | .hypot, _, x, v, a => [a *. x /. v]

/-- two variables -/
def Bin.write (f : Bin) (x y : Num R) : Log R (Num R) :=
  step (f.plain x.val y.val) [x, y] fun a => f.pass x.val y.val (f.plain x.val y.val) a

/-- variable and real; some powers are other functions -/
def Bin.writeVD (f : Bin) (x : Num R) (d : R) : Log R (Num R) :=
  let new := step (f.plainVD x.val d) [x] fun a => f.passVD x.val d (f.plainVD x.val d) a
  match f with
  | .pow =>
    if feq d half then Fn.write .sqrt x
    else if feq d one then .ret x
    else if feq d two then Fn.write .square x
    else if feq d (Arith.neg one) then Fn.write .inv x
    else if feq d (Arith.neg half) then Fn.write .invSqrt x
    else new
  | _ => new

/-- real and variable -/
def Bin.writeDV (f : Bin) (d : R) (x : Num R) : Log R (Num R) :=
  step (f.plainDV d x.val) [x] fun a => f.passDV d x.val (f.plainDV d x.val) a

/-- operand with name `i` -/
def opd (env : List (Num R)) (i : Nat) : Num R := env.getD i ⟨none, zero⟩

/-- derivatives of the log densities by mean and standard deviation -/
def Dist.byMu : Dist → R → R → R → R
  | .normal => Fz.Normal.gradMu | .lognormal => Fz.LogNormal.gradMu
/-- see `Dist.byMu` -/
def Dist.bySigma : Dist → R → R → R → R
  | .normal => Fz.Normal.gradSigma | .lognormal => Fz.LogNormal.gradSigma

/-- what a chain procedure of the user passes on; a procedure that does not ask for the operand values (or the data)
does not see them -/
def userPass (r : URule) (v : R) (xs ds : List R) (a : R) : List R :=
  match r with
  | .fixed n m _ => r.eval a v (if n = 0 then [] else xs) (if m = 0 then [] else ds)
  | .each m _ => r.eval a v xs (if m = 0 then [] else ds)

/-- an entry of a matrix product from a row and a column of variables -/
def dotStep (v : R) (r c : List (Num R)) : Log R (Num R) :=
  step v (r ++ c) fun a => c.map (fun y => a *. y.val) ++ r.map fun x => a *. x.val

/-- the steps a call writes down, and its results -/
def Make.write : Make R → List (Num R) → Log R (List (Num R))
  | .new0, _ => .each input [zero]
  | .new d, _ => .each input [d]
  | .newVals ds, _ => .each input ds
  | .newArr n, _ => .each input (List.replicate n zero)
  | .fn f i, env => .each f.write [opd env i]
  | .fnArr f is, env => .each f.write (is.map (opd env))
  | .bin f i j, env => .each (fun p => f.write p.1 p.2) [(opd env i, opd env j)]
  | .binArr f is js, env => .each (fun p => f.write p.1 p.2) ((is.map (opd env)).zip (js.map (opd env)))
  | .binVD f i d, env => .each (fun x => f.writeVD x d) [opd env i]
  | .binDV f d i, env => .each (fun x => f.writeDV d x) [opd env i]
  | .sum is, env => .each (fun xs => step (fsum (xs.map Num.val)) xs fun a => xs.map fun _ => a) [is.map (opd env)]
  | .norm2 is, env => .each (fun xs =>
      let v := fnorm2 (xs.map Num.val)
      step v xs fun a => xs.map fun x => a *. x.val /. v) [is.map (opd env)]
  | .logSumExp is, env => .each (fun xs =>
      let v := logSumExpD (xs.map Num.val)
      step v xs fun a => xs.map fun x => a *. Arith.exp (x.val -. v)) [is.map (opd env)]
  | .dotVV is js, env => .each (fun p => dotStep (fdot (p.1.map Num.val) (p.2.map Num.val)) p.1 p.2)
      [(is.map (opd env), js.map (opd env))]
  | .dotVD is ds, env => .each (fun xs => step (fdot (xs.map Num.val) ds) xs fun a => ds.map fun d => a *. d)
      [is.map (opd env)]
  | .dotDV ds is, env => .each (fun xs => step (fdot ds (xs.map Num.val)) xs fun a => ds.map fun d => a *. d)
      [is.map (opd env)]
  | .matmulVV a b, env => .each (fun p =>
      dotStep (mulEntry a.ncol (fun i k => (opd env (a.get i k)).val) (fun k j => (opd env (b.get k j)).val) p.1 p.2)
        ((List.range a.ncol).map fun k => opd env (a.get p.1 k)) ((List.range a.ncol).map fun k => opd env (b.get k p.2)))
      (entries a.nrow b.ncol)
  | .matmulVD a b, env => .each (fun p =>
      step (mulEntry a.ncol (fun i k => (opd env (a.get i k)).val) b.get p.1 p.2)
        ((List.range a.ncol).map fun k => opd env (a.get p.1 k)) fun ad => (List.range a.ncol).map fun k => ad *. b.get k p.2)
      (entries a.nrow b.ncol)
  | .matmulDV a b, env => .each (fun p =>
      step (mulEntry a.ncol a.get (fun k j => (opd env (b.get k j)).val) p.1 p.2)
        ((List.range a.ncol).map fun k => opd env (b.get k p.2)) fun ad => (List.range a.ncol).map fun k => ad *. a.get p.1 k)
      (entries a.nrow b.ncol)
  | .lpdfVV d ys m s, env => .each (fun p =>
      step (d.plain ys p.1.val p.2.val) [p.1, p.2] fun a =>
        [a *. fsum (ys.map (d.byMu p.1.val p.2.val)), a *. fsum (ys.map (d.bySigma p.1.val p.2.val))])
      [(opd env m, opd env s)]
  | .lpdfVD d ys m s, env => .each (fun p =>
      step (d.plain ys p.val s) [p] fun a => [a *. fsum (ys.map (d.byMu p.val s))]) [opd env m]
  | .lpdfDV d ys m s, env => .each (fun p =>
      step (d.plain ys m p.val) [p] fun a => [a *. fsum (ys.map (d.bySigma m p.val))]) [opd env s]
  | .partials x is ds, env => .each (fun xs => step x xs fun a => (ds.take xs.length).map fun d => a *. d)
      [is.map (opd env)]
  | .user x r is ds, env => .each (fun xs => step x xs fun a => userPass r x (xs.map Num.val) ds a)
      [is.map (opd env)]

/-- the neutral elements `x + 0`, `0 + x`, `x - 0`, `x * 1`, `1 * x`, `x / 1` are left out: there the library changes
the chain procedure of an existing variable (property C15) -/
def Make.Regular : Make R → Prop
  | .binVD .add _ d | .binVD .sub _ d | .binDV .add d _ => feq d zero = false
  | .binVD .mul _ d | .binVD .div _ d | .binDV .mul d _ => feq d one = false
  | _ => True

/-- the steps of a program -/
def Code.write : Code R → List (Num R) → Log R (List (Num R))
  | .ret is, env => .ret (is.map (opd env))
  | .make m k, env => (m.write env).next fun vs => k.write (env ++ vs)
  | .look i k, env => (k (opd env i).val).write env

/-- the restriction `Make.Regular` for all calls -/
def Code.Regular : Code R → Prop
  | .ret _ => True
  | .make m k => m.Regular ∧ k.Regular
  | .look _ k => ∀ x, (k x).Regular

/-- inputs, then the program; `ys` are the values of variables of the caller -/
def Code.steps (f : Code R) (ys x : List R) : Log R (List (Num R)) :=
  (Log.each input x).next fun xs => f.write (xs ++ ys.map fun y => ⟨none, y⟩)

/-- value and gradient by the book -/
def Code.bookGradient (f : Code R) (ys x : List R) : Option (R × List R) :=
  match f.steps ys x [] with
  | (o :: _, T) => some (o.val, rowOf T x.length o)
  | ([], _) => none

/-- values and jacobian by the book -/
def Code.bookJacobian (f : Code R) (ys x : List R) : List R × List (List R) :=
  match f.steps ys x [] with
  | (os, T) => (os.map Num.val, os.map (rowOf T x.length))

end Spec
