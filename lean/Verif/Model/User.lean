import Verif.Model.Basic

/-!
# Chain procedures written by the user

The user guide (doc/fazang_user_guide.org:611-703, "Add operation functions") documents how a user adds an
operation `f`: a function that makes `s = var(value, operands)` or `var(value, operands, data)` and calls
`s%set_chain(chain_f)`, and a procedure `chain_f(this)` of the interface vari.F90:33-38 `chain_op`, which
fetches `this%operand_val()`, `this%data_operand()`, `this%adj()`, `this%val()` into local arrays,
computes from them one number for every operand and hands these to `this%set_operand_adj`.

This file is the syntax and meaning of such procedures.  Simplifications: what is computed is an
expression (no loops), in which the adjoint occurs linearly, as in the guide's examples
`this%adj() / val(1)` and `- this%val() * this%adj() / val(2)`; subscripts are constants.
-/

namespace Fz
variable {R : Type} [Arith R]

/-- the intrinsic functions of one real argument (doc/fazang_user_guide.org:611-703) -/
inductive UFn where
  | abs | sqrt | sin | cos | tan | asin | acos | atan | sinh | cosh | tanh | asinh | acosh | atanh
  | exp | log | erf | erfc | logGamma
  deriving DecidableEq, Repr

/-- their meaning (doc/fazang_user_guide.org:611-703) -/
def UFn.eval : UFn → R → R
  | .abs => Arith.fabs
  | .sqrt => Arith.sqrt
  | .sin => Arith.sin
  | .cos => Arith.cos
  | .tan => Arith.tan
  | .asin => Arith.asin
  | .acos => Arith.acos
  | .atan => Arith.atan
  | .sinh => Arith.sinh
  | .cosh => Arith.cosh
  | .tanh => Arith.tanh
  | .asinh => Arith.asinh
  | .acosh => Arith.acosh
  | .atanh => Arith.atanh
  | .exp => Arith.exp
  | .log => Arith.log
  | .erf => Arith.erf
  | .erfc => Arith.erfc
  | .logGamma => Arith.logGamma

/-- real expressions without the adjoint: `this%val()`, `val(i)`, `d(i)` (subscripts counted from 0
here), literals `m * 10^e`, operators, intrinsics, and a choice `merge(t, e, a < b)`
(doc/fazang_user_guide.org:611-703) -/
inductive UExp where
  | res
  | op (i : Nat)
  | dat (i : Nat)
  | lit (m e : Int)
  | add (a b : UExp)
  | sub (a b : UExp)
  | mul (a b : UExp)
  | div (a b : UExp)
  | pow (a b : UExp)
  | neg (a : UExp)
  | call (f : UFn) (a : UExp)
  | ifLt (a b t e : UExp)
  deriving DecidableEq, Repr

/-- meaning, for `this%val()`, the operand values and the data; subscripts are in bounds by `UExp.fits`,
so the default of `getD` is not used (doc/fazang_user_guide.org:611-703) -/
def UExp.eval (y : R) (xs ds : List R) : UExp → R
  | .res => y
  | .op i => xs.getD i Arith.zero
  | .dat i => ds.getD i Arith.zero
  | .lit m e => Arith.lit m e
  | .add a b => a.eval y xs ds +. b.eval y xs ds
  | .sub a b => a.eval y xs ds -. b.eval y xs ds
  | .mul a b => a.eval y xs ds *. b.eval y xs ds
  | .div a b => a.eval y xs ds /. b.eval y xs ds
  | .pow a b => Arith.pow (a.eval y xs ds) (b.eval y xs ds)
  | .neg a => Arith.neg (a.eval y xs ds)
  | .call f a => f.eval (a.eval y xs ds)
  | .ifLt a b t e => if Arith.flt (a.eval y xs ds) (b.eval y xs ds) then t.eval y xs ds else e.eval y xs ds

/-- all subscripts are inside local arrays `val(n)` and `d(m)` (doc/fazang_user_guide.org:611-703) -/
def UExp.fits (n m : Nat) : UExp → Bool
  | .res => true
  | .op i => decide (i < n)
  | .dat i => decide (i < m)
  | .lit _ _ => true
  | .add a b => a.fits n m && b.fits n m
  | .sub a b => a.fits n m && b.fits n m
  | .mul a b => a.fits n m && b.fits n m
  | .div a b => a.fits n m && b.fits n m
  | .pow a b => a.fits n m && b.fits n m
  | .neg a => a.fits n m
  | .call _ a => a.fits n m
  | .ifLt a b t e => a.fits n m && b.fits n m && t.fits n m && e.fits n m

/-- expressions linear in the adjoint `this%adj()` (doc/fazang_user_guide.org:611-703) -/
inductive LExp where
  | adj
  | nil
  | neg (l : LExp)
  | mulL (c : UExp) (l : LExp)
  | mulR (l : LExp) (c : UExp)
  | div (l : LExp) (c : UExp)
  | add (l l' : LExp)
  | sub (l l' : LExp)
  | ifLt (a b : UExp) (l l' : LExp)
  deriving DecidableEq, Repr

/-- meaning, for the adjoint `a` (doc/fazang_user_guide.org:611-703) -/
def LExp.eval (a y : R) (xs ds : List R) : LExp → R
  | .adj => a
  | .nil => Arith.zero
  | .neg l => Arith.neg (l.eval a y xs ds)
  | .mulL c l => c.eval y xs ds *. l.eval a y xs ds
  | .mulR l c => l.eval a y xs ds *. c.eval y xs ds
  | .div l c => l.eval a y xs ds /. c.eval y xs ds
  | .add l l' => l.eval a y xs ds +. l'.eval a y xs ds
  | .sub l l' => l.eval a y xs ds -. l'.eval a y xs ds
  | .ifLt p q l l' => if Arith.flt (p.eval y xs ds) (q.eval y xs ds) then l.eval a y xs ds else l'.eval a y xs ds

/-- all subscripts are inside local arrays `val(n)` and `d(m)` (doc/fazang_user_guide.org:611-703) -/
def LExp.fits (n m : Nat) : LExp → Bool
  | .adj => true
  | .nil => true
  | .neg l => l.fits n m
  | .mulL c l => c.fits n m && l.fits n m
  | .mulR l c => l.fits n m && c.fits n m
  | .div l c => l.fits n m && c.fits n m
  | .add l l' => l.fits n m && l'.fits n m
  | .sub l l' => l.fits n m && l'.fits n m
  | .ifLt p q l l' => p.fits n m && q.fits n m && l.fits n m && l'.fits n m

/-- a chain procedure.
`fixed n m es`: local arrays `val(n)`, `d(m)` and `adj(size(es))` (with `n = 0` or `m = 0` the
procedure does not ask for the operand values or data), `adj(k)` is the `k`-th expression;
`each m e`: local arrays `val` and `adj` as long as there are operands, `adj(k)` is `e` with `val(k)`
in the place of the operand. (doc/fazang_user_guide.org:611-703) -/
inductive URule where
  | fixed (n m : Nat) (es : List LExp)
  | each (m : Nat) (e : LExp)
  deriving DecidableEq, Repr

/-- subscripts in bounds (doc/fazang_user_guide.org:611-703) -/
def URule.fits : URule → Bool
  | .fixed n m es => es.all fun e => e.fits n m
  | .each m e => e.fits 1 m

/-- the numbers handed to `set_operand_adj` (doc/fazang_user_guide.org:611-703) -/
def URule.eval (a y : R) (xs ds : List R) : URule → List R
  | .fixed _ _ es => es.map fun e => e.eval a y xs ds
  | .each _ e => xs.map fun x => e.eval a y [x] ds

end Fz
