import Verif.Spec.Unused

/-!
# Variables and reals as constants

A part of a computation that does not depend on the inputs can be done with variables or with reals: Fazang has
operations for two variables, for a variable and a real, and for a real and a variable.  `Literal ys ys' K σ f f'`: the
program `f'` is `f` with reals in place of the variables `K`.  `ys` and `ys'` are the numbers of the variables that `f`
and `f'` have; the variables of `f` other than `K` have the names `σ` in `f'`.
-/

namespace Spec
open Fz Arith
variable {R : Type} [Arith R]

/-- exponents for which the library uses `sqrt`, `square`, `inv` etc. in place of `**` -/
def special (d : R) : Prop :=
  feq d half = true ∨ feq d one = true ∨ feq d two = true ∨ feq d (Arith.neg two) = true ∨ feq d (Arith.neg one) = true ∨
    feq d (Arith.neg half) = true

/-- the call `m'` is `m` with reals in place of the operands `K`, which are all on one side -/
inductive Mixed (ys : List R) (K : Nat → Prop) (σ : Nat → Nat) : Make R → Make R → Prop where
  | binVD {f : Bin} {i j : Nat} (hi : ¬ K i) (hj : K j) (hf : f = .pow → ¬ special (num ys j)) :
      Mixed ys K σ (.bin f i j) (.binVD f (σ i) (num ys j))
  | binDV {f : Bin} {i j : Nat} (hi : K i) (hj : ¬ K j) : Mixed ys K σ (.bin f i j) (.binDV f (num ys i) (σ j))
  | dotVD {is js : List Nat} (hi : ∀ i ∈ is, ¬ K i) (hj : ∀ j ∈ js, K j) :
      Mixed ys K σ (.dotVV is js) (.dotVD (is.map σ) (js.map (num ys)))
  | dotDV {is js : List Nat} (hi : ∀ i ∈ is, K i) (hj : ∀ j ∈ js, ¬ K j) :
      Mixed ys K σ (.dotVV is js) (.dotDV (is.map (num ys)) (js.map σ))
  | matmulVD {a b : Matrix' Nat} (hi : ∀ i ∈ a.list, ¬ K i) (hj : ∀ j ∈ b.list, K j) :
      Mixed ys K σ (.matmulVV a b) (.matmulVD (a.rename σ) ⟨b.nrow, b.ncol, fun i j => num ys (b.get i j)⟩)
  | matmulDV {a b : Matrix' Nat} (hi : ∀ i ∈ a.list, K i) (hj : ∀ j ∈ b.list, ¬ K j) :
      Mixed ys K σ (.matmulVV a b) (.matmulDV ⟨a.nrow, a.ncol, fun i j => num ys (a.get i j)⟩ (b.rename σ))
  | lpdfVD {d : Dist} {xs : List R} {m s : Nat} (hm : ¬ K m) (hs : K s) :
      Mixed ys K σ (.lpdfVV d xs m s) (.lpdfVD d xs (σ m) (num ys s))
  | lpdfDV {d : Dist} {xs : List R} {m s : Nat} (hm : K m) (hs : ¬ K s) :
      Mixed ys K σ (.lpdfVV d xs m s) (.lpdfDV d xs (num ys m) (σ s))

/-- `f'` is `f` with reals in place of the variables `K` -/
inductive Literal : List R → List R → (Nat → Prop) → (Nat → Nat) → Code R → Code R → Prop where
  | ret {ys ys' : List R} {K : Nat → Prop} {σ : Nat → Nat} {is : List Nat} (h : ∀ i ∈ is, ¬ K i) :
      Literal ys ys' K σ (.ret is) (.ret (is.map σ))
  /-- a call without such variables -/
  | make {ys ys' : List R} {K : Nat → Prop} {σ : Nat → Nat} {m : Make R} {k k' : Code R} (h : ∀ i ∈ m.args, ¬ K i)
      (hk : Literal (ys ++ m.plain ys) (ys' ++ m.plain ys) (fun i => i < ys.length ∧ K i) (after σ ys.length ys'.length)
        k k') : Literal ys ys' K σ (.make m k) (.make (m.rename σ) k')
  /-- a call with such variables and others -/
  | mixed {ys ys' : List R} {K : Nat → Prop} {σ : Nat → Nat} {m m' : Make R} {k k' : Code R} (h : Mixed ys K σ m m')
      (hk : Literal (ys ++ m.plain ys) (ys' ++ m.plain ys) (fun i => i < ys.length ∧ K i) (after σ ys.length ys'.length)
        k k') : Literal ys ys' K σ (.make m k) (.make m' k')
  /-- a call with such variables only, or without any: `f'` has reals for the results -/
  | real {ys ys' : List R} {K : Nat → Prop} {σ : Nat → Nat} {m : Make R} {k k' : Code R} (h : ∀ i ∈ m.args, K i)
      (hk : Literal (ys ++ m.plain ys) ys' (fun i => ys.length ≤ i ∨ K i) σ k k') : Literal ys ys' K σ (.make m k) k'
  | look {ys ys' : List R} {K : Nat → Prop} {σ : Nat → Nat} {i : Nat} {k k' : R → Code R} (h : ¬ K i)
      (hk : Literal ys ys' K σ (k (num ys i)) (k' (num ys i))) : Literal ys ys' K σ (.look i k) (.look (σ i) k')
  /-- `f` looks at such a variable; `f'` has the number -/
  | known {ys ys' : List R} {K : Nat → Prop} {σ : Nat → Nat} {i : Nat} {k : R → Code R} {k' : Code R} (h : K i)
      (hk : Literal ys ys' K σ (k (num ys i)) k') : Literal ys ys' K σ (.look i k) k'

/-- the variables of `f'` that `f'` is given: those of `f` other than `K`, each at its place, and possibly more -/
structure Placed (K : Nat → Prop) (σ : Nat → Nat) (ys ys' : List R) : Prop where
  lt : ∀ i < ys.length, ¬ K i → σ i < ys'.length
  num : ∀ i < ys.length, ¬ K i → num ys' (σ i) = num ys i
  inj : ∀ i j, i < ys.length → j < ys.length → ¬ K i → ¬ K j → σ i = σ j → i = j

end Spec
