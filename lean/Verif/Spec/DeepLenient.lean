import Verif.Spec.Deep
import Verif.Spec.Lenient

/-!
# Functions that call `gradient` and `jacobian` themselves, library built without checks of array shapes

`Deep.Suits` says what the caller has to observe, in terms of the computation by the book.
-/

namespace Spec
open Fz Arith
variable {W R : Type} [Arith R] [Rep W R]

/-- execution; `J` is what the chain procedures find in memory behind the end of an array -/
def Deep.runL (J : Junk W R) : Deep R → List Var → M W (List Var)
  | .ret is, env => if ∀ i ∈ is, i < env.length then pure (is.map (nth env)) else fail .oob
  | .make m k, env => if ∀ i ∈ m.args, i < env.length then do
      let vs ← m.call env
      k.runL J (env ++ vs)
    else fail .oob
  | .look i k, env => if i < env.length then do
      let x ← (nth env i).val
      (k x).runL J env
    else fail .oob
  | .gradient f x is k, env => if ∀ i ∈ is, i < env.length then do
      let r ← gradientL J (fun xv => do let outs ← f.runL J (xv ++ is.map (nth env)); firstOf outs) x
      (k r.1 r.2).runL J env
    else fail .oob
  | .jacobian f n x is k, env => if ∀ i ∈ is, i < env.length then do
      let r ← jacobianL J (fun xv _ => f.runL J (xv ++ is.map (nth env))) n x
      (k r.1 r.2).runL J env
    else fail .oob

/-- the function as `gradient` wants it; `env` are variables of the caller it uses -/
def Deep.scalarL (J : Junk W R) (f : Deep R) (env : List Var) : List Var → M W Var := fun xv => do
  let outs ← f.runL J (xv ++ env)
  firstOf outs

/-- the function as `jacobian` wants it -/
def Deep.vectorL (J : Junk W R) (f : Deep R) (env : List Var) : List Var → Nat → M W (List Var) :=
  fun xv _ => f.runL J (xv ++ env)

/-- the words of tape of the variables the function creates, from the values `ys` of those it is given; the variables
of inner functions are gone when they have been differentiated -/
def Deep.words : Deep R → List R → Nat
  | .ret _, _ => 0
  | .make m k, ys => m.words ys + k.words (ys ++ m.plain ys)
  | .look i k, ys => (k (num ys i)).words ys
  | .gradient f x is k, ys =>
    match f.bookGradient (is.map (num ys)) x with
    | some (y, df) => (k y df).words ys
    | none => 0
  | .jacobian f _ x is k, ys =>
    match f.bookJacobian (is.map (num ys)) x with
    | (fx, J) => (k fx J).words ys

/-- a function that uses the library correctly, where `depth` nested regions are open, `head` is the next free word of
the tape and `ys` are the values of the variables it is given: it names only variables that exist, the arguments of its
calls suit, it forms no matrix products, at most ten regions are open, the tape has room, and is not exactly full when a
region ends (property C36); a function that is handed to `gradient` returns something, and one that is handed to
`jacobian` as many components as announced -/
def Deep.Suits : Deep R → Nat → Nat → List R → Prop
  | .ret is, _, _, ys => ∀ i ∈ is, i < ys.length
  | .make m k, depth, head, ys => (∀ i ∈ m.args, i < ys.length) ∧ m.Meets false ys ∧ m.product = false ∧
      head + m.words ys ≤ tapeLimit ∧ k.Suits depth (head + m.words ys) (ys ++ m.plain ys)
  | .look i k, depth, head, ys => i < ys.length ∧ (k (num ys i)).Suits depth head ys
  | .gradient f x is k, depth, head, ys => (∀ i ∈ is, i < ys.length) ∧
      (depth < 10 ∧ head + 6 * x.length ≤ tapeLimit ∧
        f.Suits (depth + 1) (head + 6 * x.length) (x ++ is.map (num ys)) ∧
        ∀ j, head + 6 * x.length + f.words (x ++ is.map (num ys)) ≠ 12288 * 2 ^ j + 1) ∧
      ∃ y df, f.bookGradient (is.map (num ys)) x = some (y, df) ∧ (k y df).Suits depth head ys
  | .jacobian f n x is k, depth, head, ys => (∀ i ∈ is, i < ys.length) ∧
      (depth < 10 ∧ head + 6 * x.length ≤ tapeLimit ∧
        f.Suits (depth + 1) (head + 6 * x.length) (x ++ is.map (num ys)) ∧
        ∀ j, head + 6 * x.length + f.words (x ++ is.map (num ys)) ≠ 12288 * 2 ^ j + 1) ∧
      x ++ is.map (num ys) ≠ [] ∧ n = (f.bookJacobian (is.map (num ys)) x).1.length ∧
      (k (f.bookJacobian (is.map (num ys)) x).1 (f.bookJacobian (is.map (num ys)) x).2).Suits depth head ys

/-- a correct call of `gradient` or `jacobian` for the function `f` at `x`, where the variables `is` of the caller have
the values `ys` -/
def Deep.ProperL (c : Client W) (is : List Nat) (ys x : List R) (f : Deep R) : Prop :=
  (∀ i ∈ is, i < c.env.length) ∧ (vals (is.map (nth c.env)) : M W (List R)) c.st = .ok (ys, c.st) ∧ f.Tidy ∧
  c.marks.length < 10 ∧ c.st.tape.head + 6 * x.length ≤ tapeLimit ∧
  f.Suits (c.marks.length + 1) (c.st.tape.head + 6 * x.length) (x ++ ys) ∧
  ∀ j, c.st.tape.head + 6 * x.length + f.words (x ++ ys) ≠ 12288 * 2 ^ j + 1

end Spec
