import Verif.Spec.Textbook

/-!
# Results that are not used

`Unused ys ys' σ f f'`: the program `f'` is `f` with more calls in between, whose results `f` does not use, neither for
its results nor for its decisions.  Calls of `f` have other names in `f'`, since the results of the new calls take
names as well: `σ` says which.  `ys` and `ys'` are the numbers of the variables that `f` and `f'` have.
-/

namespace Spec
open Fz Arith
variable {R : Type} [Arith R]

/-- other names -/
def Matrix'.rename (σ : Nat → Nat) (a : Matrix' Nat) : Matrix' Nat := ⟨a.nrow, a.ncol, fun i j => σ (a.get i j)⟩

/-- the same call, for variables with other names -/
def Make.rename (σ : Nat → Nat) : Make R → Make R
  | .new0 => .new0
  | .new d => .new d
  | .newVals ds => .newVals ds
  | .newArr n => .newArr n
  | .fn f i => .fn f (σ i)
  | .fnArr f is => .fnArr f (is.map σ)
  | .bin f i j => .bin f (σ i) (σ j)
  | .binArr f is js => .binArr f (is.map σ) (js.map σ)
  | .binVD f i d => .binVD f (σ i) d
  | .binDV f d i => .binDV f d (σ i)
  | .sum is => .sum (is.map σ)
  | .norm2 is => .norm2 (is.map σ)
  | .logSumExp is => .logSumExp (is.map σ)
  | .dotVV is js => .dotVV (is.map σ) (js.map σ)
  | .dotVD is ds => .dotVD (is.map σ) ds
  | .dotDV ds is => .dotDV ds (is.map σ)
  | .matmulVV a b => .matmulVV (a.rename σ) (b.rename σ)
  | .matmulVD a b => .matmulVD (a.rename σ) b
  | .matmulDV a b => .matmulDV a (b.rename σ)
  | .lpdfVV d ys m s => .lpdfVV d ys (σ m) (σ s)
  | .lpdfVD d ys m s => .lpdfVD d ys (σ m) s
  | .lpdfDV d ys m s => .lpdfDV d ys m (σ s)
  | .partials x is ds => .partials x (is.map σ) ds
  | .user x r is ds => .user x r (is.map σ) ds

/-- the numbers an adjoint can be: zero or one, and then something added any number of times (so never `-0.0` in IEEE
arithmetic) -/
inductive Total : R → Prop where
  | zero : Total zero
  | one : Total one
  | add {a : R} (d : R) (h : Total a) : Total (a +. d)

/-- with adjoint zero the step passes on only numbers whose addition to an adjoint changes nothing -/
def Step.Quiet (c : Step R) : Prop := ∀ d ∈ c.pass zero, ∀ a : R, Total a → a +. d = a

/-- all steps of a call are quiet, for variables with the numbers `ys` -/
def Make.Quiet (m : Make R) (ys : List R) : Prop :=
  ∀ (env : List (Num R)) (T : List (Step R)), env.map Num.val = ys →
    ∃ D, (m.write env T).2 = T ++ D ∧ ∀ c ∈ D, c.Quiet

/-- all steps of a call pass on finite numbers when their adjoint is one: the local derivatives are finite -/
def Make.Finite (fin : R → Prop) (m : Make R) (ys : List R) : Prop :=
  ∀ (env : List (Num R)) (T : List (Step R)), env.map Num.val = ys →
    ∃ D, (m.write env T).2 = T ++ D ∧ ∀ c ∈ D, ∀ d ∈ c.pass one, fin d

/-- a call of the library, not of an operation added by the user -/
def Make.Library : Make R → Prop
  | .user _ _ _ _ => False
  | _ => True

/-- the names of new variables follow those of `n` variables here and of `n'` variables there -/
def after (σ : Nat → Nat) (n n' : Nat) : Nat → Nat := fun i => if i < n then σ i else i - n + n'

/-- `f'` is `f` with more calls, whose results `f` does not use, and that are quiet -/
inductive Unused : List R → List R → (Nat → Nat) → Code R → Code R → Prop where
  | ret {ys ys' : List R} {σ : Nat → Nat} {is : List Nat} : Unused ys ys' σ (.ret is) (.ret (is.map σ))
  | make {ys ys' : List R} {σ : Nat → Nat} {m : Make R} {k k' : Code R}
      (hk : Unused (ys ++ m.plain ys) (ys' ++ m.plain ys) (after σ ys.length ys'.length) k k') :
      Unused ys ys' σ (.make m k) (.make (m.rename σ) k')
  | look {ys ys' : List R} {σ : Nat → Nat} {i : Nat} {k k' : R → Code R}
      (hk : Unused ys ys' σ (k (num ys i)) (k' (num ys i))) : Unused ys ys' σ (.look i k) (.look (σ i) k')
  /-- a call that is not used -/
  | extra {ys ys' : List R} {σ : Nat → Nat} {m : Make R} {k k' : Code R} (hq : m.Quiet ys')
      (hk : Unused ys (ys' ++ m.plain ys') σ k k') : Unused ys ys' σ k (.make m k')
  /-- a value that is looked at without consequences -/
  | glance {ys ys' : List R} {σ : Nat → Nat} {i : Nat} {k : Code R} {k' : R → Code R}
      (hk : Unused ys ys' σ k (k' (num ys' i))) : Unused ys ys' σ k (.look i k')

end Spec
