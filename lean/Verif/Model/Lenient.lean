import Verif.Model.Grad

/-!
# Chain procedures without checks of array shapes

The chain procedures assign array expressions to local arrays of fixed size (`val = this%operand_val()`).  If the
expression has another number of elements, the Fortran standard makes the program erroneous; `Model/Chain.lean` reports
`nonconf`.  Here is what a compiler that does not check shapes makes of the same procedures: the local array is filled,
with the elements there are, and with whatever lies in memory behind them (`Junk`, arbitrary).

Only the assignments of values are relaxed.  The chain procedures of matrix products compute addresses from the numbers
they read, there the error is kept, as in all array accesses outside of the tape.
-/

namespace Fz
variable {W R : Type} [Arith R] [Rep W R]
open Arith

/-- the number found at place `i` behind the end, in statement `k` of the chain procedure of `this`, in the state `s`
(the assignments to arrays of fixed size, e.g. log.F90:14, mul.F90:23) -/
abbrev Junk (W R : Type) := (this : Vari) → (k : Nat) → (s : St W) → (i : Nat) → R

/-- assignment to a local array of size 1 (compare `conf1`) (e.g. log.F90:14) -/
def fill1 (J : Junk W R) (this : Vari) (k : Nat) (l : List R) : M W R := fun s =>
  .ok (l.getD 0 (J this k s 0), s)

/-- assignment to a local array of size 2 (compare `conf2`) (mul.F90:23, div.F90:23, pow.F90:27) -/
def fill2 (J : Junk W R) (this : Vari) (k : Nat) (l : List R) : M W (R × R) := fun s =>
  .ok ((l.getD 0 (J this k s 0), l.getD 1 (J this k s 1)), s)

/-- assignment to a local array of size `n` (compare `confN`) (e.g. chain_eager_adj.F90:16) -/
def fillN (J : Junk W R) (this : Vari) (k n : Nat) (l : List R) : M W (List R) := fun s =>
  .ok ((List.range n).map fun i => l.getD i (J this k s i), s)

/-- unary functions that read the operand value (compare `chainUn`) (e.g. log.F90:11-17) -/
def chainUnL (J : Junk W R) (f : R → R → R) (this : Vari) : M W Unit := do
  let v ← this.operandVal
  let val ← fill1 J this 0 v
  let a ← this.adj
  this.setOperandAdjAll [f a val]

/-- mul.F90:20-27 -/
def chainMulVVL (J : Junk W R) (this : Vari) : M W Unit := do
  let v ← this.operandVal
  let (v1, v2) ← fill2 J this 0 v
  let a ← this.adj
  this.setOperandAdjAll [v2 *. a, v1 *. a]
/-- mul.F90:36-41 -/
def chainMulVDL (J : Junk W R) (this : Vari) : M W Unit := do
  let a ← this.adj
  let d ← this.dataOperand
  let d ← fill1 J this 0 d
  this.setOperandAdjAll [a *. d]
/-- div.F90:20-27 -/
def chainDivVVL (J : Junk W R) (this : Vari) : M W Unit := do
  let v ← this.operandVal
  let (_, v2) ← fill2 J this 0 v
  let a ← this.adj
  let val ← this.val
  this.setOperandAdjAll [a /. v2, neg (val *. a /. v2)]
/-- div.F90:36-42 -/
def chainDivVDL (J : Junk W R) (this : Vari) : M W Unit := do
  let d ← this.dataOperand
  let d ← fill1 J this 0 d
  let a ← this.adj
  this.setOperandAdjAll [a /. d]
/-- div.F90:56-62 -/
def chainDivDVL (J : Junk W R) (this : Vari) : M W Unit := do
  let v ← this.operandVal
  let v ← fill1 J this 0 v
  let a ← this.adj
  let val ← this.val
  this.setOperandAdjAll [neg (val *. a /. v)]
/-- pow.F90:24-33 -/
def chainPowVVL (J : Junk W R) (this : Vari) : M W Unit := do
  let v ← this.operandVal
  let (v1, v2) ← fill2 J this 0 v
  if fne v1 zero then do
    let a ← this.adj
    let val ← this.val
    this.setOperandAdjAll [a *. v2 *. val /. v1, a *. val *. log v1]
  else pure ()
/-- pow.F90:35-44 -/
def chainPowVDL (J : Junk W R) (this : Vari) : M W Unit := do
  let v ← this.operandVal
  let v ← fill1 J this 0 v
  let d ← this.dataOperand
  let d ← fill1 J this 1 d
  if fne v zero then do
    let a ← this.adj
    let val ← this.val
    this.setOperandAdjAll [a *. d *. val /. v]
  else pure ()
/-- pow.F90:46-54 -/
def chainPowDVL (J : Junk W R) (this : Vari) : M W Unit := do
  let d ← this.dataOperand
  let d ← fill1 J this 0 d
  if fne d zero then do
    let a ← this.adj
    let val ← this.val
    this.setOperandAdjAll [a *. val *. log d]
  else pure ()

/-- chain_eager_adj.F90:12-18 -/
def chainEagerL (J : Junk W R) (this : Vari) : M W Unit := do
  let n ← this.nOperand
  let a ← this.adj
  let d ← this.dataOperand
  let adj ← fillN J this 0 n (d.map fun x => a *. x)
  this.setOperandAdjAll adj

/-- a local array of size `n` filled from the record, if it is used at all (compare `localArr`)
(doc/fazang_user_guide.org:611-703) -/
def localArrL (J : Junk W R) (this : Vari) (k n : Nat) (m : M W (List R)) : M W (List R) :=
  if n = 0 then pure [] else do
    let l ← m
    fillN J this k n l

/-- a chain procedure of the user (compare `chainUser`) (doc/fazang_user_guide.org:611-703) -/
def chainUserL (J : Junk W R) (r : URule) (this : Vari) : M W Unit := do
  if r.fits then
    match r with
    | .fixed n m _ => do
      let v ← localArrL J this 0 n this.operandVal
      let d ← localArrL J this 1 m this.dataOperand
      let a ← this.adj
      let y ← this.val
      this.setOperandAdjAll (r.eval a y v d)
    | .each m _ => do
      let v ← this.operandVal
      let d ← localArrL J this 1 m this.dataOperand
      let a ← this.adj
      let y ← this.val
      this.setOperandAdjAll (r.eval a y v d)
  else fail .oob

/-- `call varis(i)%chain()`; the other chain procedures have no array of fixed size, `runChain` covers them
(var.F90:174, 185) -/
def runChainL (J : Junk W R) (this : Vari) : M W Unit :=
  match this.chain with
  | .sin => chainUnL J (fun a v => a *. cos v) this                 -- sin.F90:11-17
  | .cos => chainUnL J (fun a v => neg (a *. sin v)) this           -- cos.F90:11-17
  | .asin => chainUnL J (fun a v => a /. sqrt (one -. v *. v)) this -- asin.F90:11-17
  | .acos => chainUnL J (fun a v => neg (a /. sqrt (one -. v *. v))) this -- acos.F90:11-17
  | .atan => chainUnL J (fun a v => a /. (one +. v *. v)) this      -- atan.F90:11-17
  | .sinh => chainUnL J (fun a v => a *. cosh v) this               -- sinh.F90:16-23
  | .cosh => chainUnL J (fun a v => a *. sinh v) this               -- cosh.F90:16-24
  | .tanh => chainUnL J (fun a v => a /. (cosh v *. cosh v)) this   -- tanh.F90:16-24
  | .asinh => chainUnL J (fun a v => a /. sqrt (v *. v +. one)) this -- asinh.F90:16-24
  | .acosh => chainUnL J (fun a v => a /. sqrt (v *. v -. one)) this -- acosh.F90:16-24
  | .atanh => chainUnL J (fun a v => a /. (one -. v *. v)) this     -- atanh.F90:16-23
  | .inv => chainUnL J (fun a v => neg (a /. (v *. v))) this        -- inv.F90:19-25
  | .sq => chainUnL J (fun a v => a *. two *. v) this               -- square.F90:14-20
  | .isq => chainUnL J (fun a v => neg (a *. two /. (v *. v *. v))) this -- inv_square.F90:14-20
  | .isqrt => chainUnL J (fun a v => neg (half *. a /. (v *. sqrt v))) this -- inv_sqrt.F90:14-20
  | .log => chainUnL J (fun a v => a /. v) this                     -- log.F90:11-17
  | .logit => chainUnL J (fun a v => a /. (v -. v *. v)) this       -- logit.F90:19-25
  | .erf => chainUnL J (fun a v => a *. twoOverSqrtPi *. exp (neg (v *. v))) this -- erf.F90:12-18
  | .erfc => chainUnL J (fun a v => neg (a *. twoOverSqrtPi *. exp (neg (v *. v)))) this -- erfc.F90:12-18
  | .logGamma => chainUnL J (fun a v => a *. digamma v) this        -- log_gamma.F90:12-18
  | .mulVV => chainMulVVL J this
  | .mulVD => chainMulVDL J this
  | .divVV => chainDivVVL J this
  | .divVD => chainDivVDL J this
  | .divDV => chainDivDVL J this
  | .powVV => chainPowVVL J this
  | .powVD => chainPowVDL J this
  | .powDV => chainPowDVL J this
  | .eager => chainEagerL J this
  | .user r => chainUserL J r this
  | _ => runChain this

/-- the loops var.F90:173-175 and 184-186 (compare `chainLoop`) -/
def chainLoopL (J : Junk W R) (lo : Nat) : Nat → M W Unit
  | 0 => pure ()
  | n + 1 => do
    let v ← getVari (lo + n)
    runChainL J v
    chainLoopL J lo n

/-- var.F90:169-176 `grad` -/
def Var.gradL (J : Junk W R) (this : Var) : M W Unit := do
  let v ← getVari this.vi
  v.initDependent
  let s ← get
  chainLoopL J 1 (s.vhead - 1)

/-- var.F90:179-187 `grad_nested` -/
def Var.gradNestedL (J : Junk W R) (this : Var) : M W Unit := do
  let v ← getVari this.vi
  v.initDependent
  let lo ← currNestedVariHead
  let s ← get
  chainLoopL J lo (s.vhead - lo)

/-- grad.F90:31-45 `gradient` -/
def gradientL (J : Junk W R) (f : List Var → M W Var) (x : List R) : M W (R × List R) := do
  beginNested
  let xv ← newVars x
  let fv ← f xv
  let y ← fv.val
  fv.gradL J
  let df ← adjs xv
  endNested
  pure (y, df)

/-- the loop grad.F90:60-64 -/
def jacLoopL (J : Junk W R) (xv : List Var) : List Var → M W (List (List R))
  | [] => pure []
  | fv :: fvs => do
    setZeroNestedAdj
    fv.gradL J
    let row ← adjs xv
    let rows ← jacLoopL J xv fvs
    pure (row :: rows)

/-- grad.F90:47-67 `jacobian` -/
def jacobianL (J : Junk W R) (f : List Var → Nat → M W (List Var)) (n : Nat) (x : List R) :
    M W (List R × List (List R)) := do
  beginNested
  let xv ← newVars x
  let fv ← f xv n
  let fv ← confN n fv
  let ys ← vals fv
  let rows ← jacLoopL J xv fv
  endNested
  pure (ys, rows)

end Fz
