import Verif.Spec.Drive
import Verif.Spec.Textbook

/-!
# Correct use of the library

What a caller has to observe: arrays that belong together have the same extent, `acosh` and `atanh` get arguments they
are defined for, a nested region is open where one is needed, at most ten are open, and the tape (at most `tapeLimit`
words) has room.  Two restrictions come from defects of the library: neutral elements are left out (`Make.Regular`,
property C15), and once a nested region has been closed, no plain variable may be created, as it would get the chain
procedure of a variable that is gone (property C33).

For every interpretation `R` of `real64`.
-/

namespace Spec
open Fz Arith
variable {W R : Type} [Arith R] [Rep W R]

/-- the words of the record of a function of one variable with value `x`: none where the argument itself is returned,
6 for a plain variable, 7 with one operand -/
def Fn.words : Fn → R → Nat
  | .pos, _ => 0
  | .abs, x => if flt zero x then 0 else if flt x zero then 7 else if feq x zero then 6 else 7
  | .acosh, x | .atanh, x => if feq x x then 7 else 0
  | _, _ => 7

/-- the same for an operation of a variable and a real, which is kept in the record (two words) if needed -/
def Bin.wordsVD : Bin → R → Nat
  | .add, _ | .sub, _ | .hypot, _ => 7
  | .mul, _ | .div, _ => 9
  | .pow, d =>
    if feq d half then 7
    else if feq d Arith.one then 0
    else if feq d two || feq d (Arith.neg two) || feq d (Arith.neg Arith.one) || feq d (Arith.neg half) then 7
    else 9

/-- the same for an operation of a real and a variable -/
def Bin.wordsDV : Bin → Nat
  | .add | .sub | .hypot => 7
  | .mul | .div | .pow => 9

/-- the words of tape that a call takes, where `ys` are the values of the variables: 6 for a variable, 1 for each
operand, 2 for each real kept; for matrices also 2 and the entries -/
def Make.words (ys : List R) : Make R → Nat
  | .new0 | .new _ => 6
  | .newVals ds => 6 * ds.length
  | .newArr n => 6 * n
  | .fn f i => f.words (num ys i)
  | .fnArr f is => (is.map fun i => f.words (num ys i)).sum
  | .bin _ _ _ => 8
  | .binArr _ is _ => 8 * is.length
  | .binVD f _ d => f.wordsVD d
  | .binDV f _ _ => f.wordsDV
  | .sum is | .norm2 is | .logSumExp is => 6 + is.length
  | .dotVV is js => 6 + is.length + js.length
  | .dotVD is ds | .dotDV ds is => 6 + is.length + 2 * ds.length
  | .matmulVV a b => 2 + a.nrow * a.ncol + (2 + b.nrow * b.ncol) + 10 * (a.nrow * b.ncol)
  | .matmulVD a b => 2 + a.nrow * a.ncol + (2 + 2 * (b.nrow * b.ncol)) + 10 * (a.nrow * b.ncol)
  | .matmulDV a b => 2 + 2 * (a.nrow * a.ncol) + (2 + b.nrow * b.ncol) + 10 * (a.nrow * b.ncol)
  | .lpdfVV _ _ _ _ => 12
  | .lpdfVD _ _ _ _ | .lpdfDV _ _ _ _ => 9
  | .partials _ is _ => 6 + 3 * is.length
  | .user _ _ is ds => 6 + is.length + 2 * ds.length

/-- the argument `x` is one the function is defined for; `closed`: a nested region has been closed before, and then
the absolute value of 0 is left out, for which the library creates a plain variable -/
def Fn.Meets (closed : Bool) : Fn → R → Prop
  | .abs, x => closed = false ∨ feq x zero = false
  | .acosh, x => feq x x = false ∨ fle x Arith.one = false
  | .atanh, x => feq x x = false ∨ (fle x (Arith.neg Arith.one) = false ∧ fle Arith.one x = false)
  | _, _ => True

/-- the local arrays of the chain procedure have the sizes of a record with `n` operands and `m` reals -/
def ruleSuits (n m : Nat) : URule → Prop
  | .fixed k l es => (URule.fixed k l es).fits = true ∧ (k = 0 ∨ k = n) ∧ (l = 0 ∨ l = m) ∧ n ≤ es.length
  | .each l e => (URule.each l e).fits = true ∧ (l = 0 ∨ l = m)

/-- the arguments suit the call, where `ys` are the values of the variables -/
def Make.Meets (closed : Bool) (ys : List R) : Make R → Prop
  | .new0 | .new _ | .newVals _ | .newArr _ => closed = false
  | .fn f i => f.Meets closed (num ys i)
  | .fnArr f is => ∀ i ∈ is, f.Meets closed (num ys i)
  | .binArr _ is js => is.length = js.length
  | .dotVV is js => is.length = js.length
  | .dotVD is ds => is.length = ds.length
  | .dotDV ds is => ds.length = is.length
  | .matmulVV a b => a.ncol = b.nrow
  | .matmulVD a b => a.ncol = b.nrow
  | .matmulDV a b => a.ncol = b.nrow
  | .partials _ is ds => is.length ≤ ds.length
  | .user _ r is ds => ruleSuits is.length ds.length r
  | _ => True

/-- a correct call for a client in the state `c` -/
def Call.Proper (closed : Bool) (c : Client W) (k : Call R) : Prop :=
  (∀ i ∈ k.args, i < c.env.length) ∧
  match k with
  | .make m => m.Sane ∧ m.Regular ∧ ∃ ys, (vals c.env : M W (List R)) c.st = .ok (ys, c.st) ∧ m.Meets closed ys ∧
      c.st.tape.head + m.words ys ≤ tapeLimit
  | .assignArr is ds => is.length = ds.length
  | .gradNested _ => c.marks ≠ []
  | .zeroNested => c.marks ≠ []
  | .begin => c.marks.length < 10
  | .done => c.marks = [] ∨ c.st.tape.head ≤ c.st.tape.size
  | _ => True

/-- the call closes a nested region -/
def Call.closes : Call R → Bool
  | .done => true
  | _ => false

/-- the states a client reaches with correct calls only; `closed`: it has closed a nested region -/
inductive Orderly : Bool → Client W → Prop where
  | start : Orderly false Client.init
  | call {closed : Bool} {c c' : Client W} (k : Call R) (h : Orderly closed c) (hk : k.Proper closed c)
      (e : k.exec c = .ok c') : Orderly (closed || k.closes) c'

/-- the words a program needs, from the values of the variables it is given -/
def Code.words : Code R → List R → Nat
  | .ret _, _ => 0
  | .make m k, ys => m.words ys + k.words (ys ++ m.plain ys)
  | .look i k, ys => (k (num ys i)).words ys

/-- a program that uses the library correctly, where `ys` are the values of the variables it is given: it names only
variables that exist, and the arguments of its calls suit, for the values computed with plain reals -/
def Code.Meets (closed : Bool) : Code R → List R → Prop
  | .ret is, ys => ∀ i ∈ is, i < ys.length
  | .make m k, ys => (∀ i ∈ m.args, i < ys.length) ∧ m.Meets closed ys ∧ k.Meets closed (ys ++ m.plain ys)
  | .look i k, ys => i < ys.length ∧ (k (num ys i)).Meets closed ys

/-- a call of `gradient` or `jacobian` (with `n` components) -/
inductive Ask (R : Type) where
  | gradient (f : Code R) (x : List R)
  | jacobian (f : Code R) (n : Nat) (x : List R)

/-- what it returns -/
inductive Answer (R : Type) where
  | gradient (y : R) (df : List R)
  | jacobian (fx : List R) (J : List (List R))

/-- the call; `e` are variables of the caller the function uses -/
def Ask.call (e : List Var) : Ask R → M W (Answer R)
  | .gradient f x => do
    let r ← Fz.gradient (f.scalar e) x
    pure (.gradient r.1 r.2)
  | .jacobian f n x => do
    let r ← Fz.jacobian (f.vector e) n x
    pure (.jacobian r.1 r.2)

/-- the answer by the book -/
def Ask.book (ys : List R) : Ask R → Option (Answer R)
  | .gradient f x => (f.bookGradient ys x).map fun r => .gradient r.1 r.2
  | .jacobian f _ x => some (.jacobian (f.bookJacobian ys x).1 (f.bookJacobian ys x).2)

/-- the number of inputs -/
def Ask.inputs : Ask R → Nat
  | .gradient _ x | .jacobian _ _ x => x.length

/-- the words of tape the call needs while it runs, where `ys` are the values of the variables of the caller -/
def Ask.words (ys : List R) : Ask R → Nat
  | .gradient f x => 6 * x.length + f.words (x ++ ys)
  | .jacobian f _ x => 6 * x.length + f.words (x ++ ys)

/-- a correct call of `gradient` or `jacobian`, where `head` is the next free word of the tape and `ys` are the values
of the variables of the caller: the function returns something, the tape has room, and is not exactly full at the end
(at a power of two times its initial size, property C36) -/
def Ask.Suits (closed : Bool) (head : Nat) (ys : List R) : Ask R → Prop
  | .gradient f x => f.Sane ∧ f.Plain ∧ f.Regular ∧ f.Meets closed (x ++ ys) ∧ f.plain (x ++ ys) ≠ [] ∧
      head + (6 * x.length + f.words (x ++ ys)) ≤ tapeLimit ∧
      ∀ j, head + (6 * x.length + f.words (x ++ ys)) ≠ 12288 * 2 ^ j + 1
  | .jacobian f n x => f.Sane ∧ f.Plain ∧ f.Regular ∧ f.Meets closed (x ++ ys) ∧ x ++ ys ≠ [] ∧
      n = (f.plain (x ++ ys)).length ∧ head + (6 * x.length + f.words (x ++ ys)) ≤ tapeLimit ∧
      ∀ j, head + (6 * x.length + f.words (x ++ ys)) ≠ 12288 * 2 ^ j + 1

end Spec
