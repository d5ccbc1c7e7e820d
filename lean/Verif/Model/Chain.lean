import Verif.Model.Vari
import Verif.Model.Digamma

/-!
# The chain procedures: reverse propagation of one variable

Each definition transcribes one `chain_*` subroutine.  `one`/`two` are the array assignments to a
local array of size 1 or 2 (`val = this%operand_val()`): a different number of elements is
`nonconf`.
-/

namespace Fz
variable {W R : Type} [Arith R] [Rep W R]
open Arith

/-- assignment of an array expression to a local array of size 1 (e.g. log.F90:14) -/
def conf1 {α : Type} : List α → M W α
  | [a] => pure a
  | _ => fail .nonconf

/-- assignment of an array expression to a local array of size 2 (mul.F90:23, div.F90:23, pow.F90:27) -/
def conf2 {α : Type} : List α → M W (α × α)
  | [a, b] => pure (a, b)
  | _ => fail .nonconf

/-- assignment of an array expression to a local array of size `n` (e.g. chain_eager_adj.F90:16) -/
def confN {α : Type} (n : Nat) (l : List α) : M W (List α) :=
  if l.length = n then pure l else fail .nonconf

/-- shape shared by the chain procedures of unary functions that read the operand value (e.g. log.F90:11-17) -/
def chainUn (f : R → R → R) (this : Vari) : M W Unit := do
  let v ← this.operandVal
  let val ← conf1 v
  let a ← this.adj
  this.setOperandAdjAll [f a val]

/-- shape shared by the chain procedures of unary functions that only read `this%val()` (e.g. exp.F90:11-16) -/
def chainUnVal (f : R → R → R) (this : Vari) : M W Unit := do
  let a ← this.adj
  let val ← this.val
  this.setOperandAdjAll [f a val]

/-- abs.F90:15-20 -/
def chainAbs (this : Vari) : M W Unit := do
  let val ← this.val
  if isNanD val then this.setOperandAdjAll [nan] else pure ()

/-- add.F90:20-25 -/
def chainAddVV (this : Vari) : M W Unit := do
  let a ← this.adj (R := R)
  this.setOperandAdjAll [a, a]
/-- add.F90:35-41 -/
def chainAddVD (this : Vari) : M W Unit := do
  let a ← this.adj (R := R)
  this.setOperandAdjAll [a]
/-- sub.F90:20-26 -/
def chainSubVV (this : Vari) : M W Unit := do
  let a ← this.adj
  this.setOperandAdjAll [a, neg a]
/-- sub.F90:35-40 -/
def chainSubVD (this : Vari) : M W Unit := do
  let a ← this.adj (R := R)
  this.setOperandAdjAll [a]
/-- sub.F90:54-59 -/
def chainSubDV (this : Vari) : M W Unit := do
  let a ← this.adj
  this.setOperandAdjAll [neg a]
/-- mul.F90:20-27 -/
def chainMulVV (this : Vari) : M W Unit := do
  let v ← this.operandVal
  let (v1, v2) ← conf2 v
  let a ← this.adj
  this.setOperandAdjAll [v2 *. a, v1 *. a]
/-- mul.F90:36-41 -/
def chainMulVD (this : Vari) : M W Unit := do
  let a ← this.adj
  let d ← this.dataOperand
  let d ← conf1 d
  this.setOperandAdjAll [a *. d]
/-- div.F90:20-27 -/
def chainDivVV (this : Vari) : M W Unit := do
  let v ← this.operandVal
  let (_, v2) ← conf2 v
  let a ← this.adj
  let val ← this.val
  this.setOperandAdjAll [a /. v2, neg (val *. a /. v2)]
/-- div.F90:36-42 -/
def chainDivVD (this : Vari) : M W Unit := do
  let d ← this.dataOperand
  let d ← conf1 d
  let a ← this.adj
  this.setOperandAdjAll [a /. d]
/-- div.F90:56-62 -/
def chainDivDV (this : Vari) : M W Unit := do
  let v ← this.operandVal
  let v ← conf1 v
  let a ← this.adj
  let val ← this.val
  this.setOperandAdjAll [neg (val *. a /. v)]
/-- pow.F90:24-33 -/
def chainPowVV (this : Vari) : M W Unit := do
  let v ← this.operandVal
  let (v1, v2) ← conf2 v
  if fne v1 zero then do
    let a ← this.adj
    let val ← this.val
    this.setOperandAdjAll [a *. v2 *. val /. v1, a *. val *. log v1]
  else pure ()
/-- pow.F90:35-44 -/
def chainPowVD (this : Vari) : M W Unit := do
  let v ← this.operandVal
  let v ← conf1 v
  let d ← this.dataOperand
  let d ← conf1 d
  if fne v zero then do
    let a ← this.adj
    let val ← this.val
    this.setOperandAdjAll [a *. d *. val /. v]
  else pure ()
/-- pow.F90:46-54 -/
def chainPowDV (this : Vari) : M W Unit := do
  let d ← this.dataOperand
  let d ← conf1 d
  if fne d zero then do
    let a ← this.adj
    let val ← this.val
    this.setOperandAdjAll [a *. val *. log d]
  else pure ()
/-- hypot.F90:14-20, norm2.F90:11-17 -/
def chainHypot (this : Vari) : M W Unit := do
  let v ← this.operandVal
  let a ← this.adj
  let val ← this.val
  this.setOperandAdjAll (v.map fun x => a *. x /. val)
/-- sum.F90:11-16 -/
def chainSum (this : Vari) : M W Unit := do
  let n ← this.nOperand
  let a ← this.adj (R := R)
  this.setOperandAdjAll (List.replicate n a)
/-- log_sum_exp.F90:20-27 -/
def chainLogSumExp (this : Vari) : M W Unit := do
  let v ← this.operandVal
  let a ← this.adj
  let val ← this.val
  this.setOperandAdjAll (v.map fun x => a *. exp (x -. val))
/-- dot_product.F90:47-55 `chain_dot_product_vv` -/
def chainDotProductVV (this : Vari) (rowId colId : List Nat) : M W Unit := do
  let a ← this.adj
  let cv ← colId.mapM fun p => readTape fun t => t.valAt p
  let adj ← confN rowId.length (cv.map fun x => a *. x)
  this.setOperandAdjByIndex rowId adj
  let a ← this.adj
  let rv ← rowId.mapM fun p => readTape fun t => t.valAt p
  this.setOperandAdjByIndex colId (rv.map fun x => a *. x)
/-- dot_product.F90:37-45 `chain_dot_vv` -/
def chainDotVV (this : Vari) : M W Unit := do
  let m ← this.nOperand
  let n := m / 2
  let i ← this.operandIndex
  chainDotProductVV this (i.take n) ((i.drop n).take n)
/-- dot_product.F90:82-87 `chain_dot_product_vd` -/
def chainDotProductVD (this : Vari) (rowId : List Nat) (col : List R) : M W Unit := do
  let a ← this.adj
  this.setOperandAdjByIndex rowId (col.map fun x => a *. x)
/-- dot_product.F90:73-80 `chain_dot_vd` -/
def chainDotVD (this : Vari) : M W Unit := do
  let i ← this.operandIndex
  let d ← this.dataOperand
  chainDotProductVD this i d
/-- dot_product.F90:89-94 `chain_dot_product_dv` -/
def chainDotProductDV (this : Vari) (row : List R) (colId : List Nat) : M W Unit :=
  chainDotProductVD this colId row

/-- assignment of an array expression to a local array of size 4 (matmul.F90:29, 59, 89) -/
def conf4 {α : Type} : List α → M W (α × α × α × α)
  | [a, b, c, d] => pure (a, b, c, d)
  | _ => fail .nonconf

/-- matmul.F90:25-33 -/
def chainMatmulVV (this : Vari) : M W Unit := do
  let i ← this.operandIndex
  let (i1, i2, l1, l2) ← conf4 i
  let row ← readTape fun t => t.matrixRowIndex l1 i1
  let col ← readTape fun t => t.matrixColIndex l2 i2
  chainDotProductVV this row col
/-- matmul.F90:55-63 -/
def chainMatmulVD (this : Vari) : M W Unit := do
  let i ← this.operandIndex
  let (i1, i2, l1, l2) ← conf4 i
  let row ← readTape fun t => t.matrixRowIndex l1 i1
  let col ← readTape fun t => t.matrixColData l2 i2
  chainDotProductVD this row col
/-- matmul.F90:85-93 -/
def chainMatmulDV (this : Vari) : M W Unit := do
  let i ← this.operandIndex
  let (i1, i2, l1, l2) ← conf4 i
  let row ← readTape fun t => t.matrixRowData l1 i1
  let col ← readTape fun t => t.matrixColIndex l2 i2
  chainDotProductDV this row col
/-- chain_eager_adj.F90:12-18 -/
def chainEager (this : Vari) : M W Unit := do
  let n ← this.nOperand
  let a ← this.adj
  let d ← this.dataOperand
  let adj ← confN n (d.map fun x => a *. x)
  this.setOperandAdjAll adj

/-- a local array of size `n` filled from the record, if it is used at all (doc/fazang_user_guide.org:611-703) -/
def localArr {α : Type} (n : Nat) (m : M W (List α)) : M W (List α) :=
  if n = 0 then pure [] else do
    let l ← m
    confN n l

/-- a chain procedure of the user (doc/fazang_user_guide.org:611-703, `chain_log`, `chain_div_vv`,
`chain_div_vd`); subscripts out of bounds are undefined behaviour -/
def chainUser (r : URule) (this : Vari) : M W Unit := do
  if r.fits then
    match r with
    | .fixed n m _ => do
      let v ← localArr n this.operandVal
      let d ← localArr m this.dataOperand
      let a ← this.adj
      let y ← this.val
      this.setOperandAdjAll (r.eval a y v d)
    | .each m _ => do
      let v ← this.operandVal
      let d ← localArr m this.dataOperand
      let a ← this.adj
      let y ← this.val
      this.setOperandAdjAll (r.eval a y v d)
  else fail .oob

/-- `call varis(i)%chain()`: dispatch through the chain pointer (var.F90:174, 185) -/
def runChain (this : Vari) : M W Unit :=
  match this.chain with
  | .dummy => pure ()                                            -- vari.F90:299-303
  | .abs => chainAbs this
  | .sin => chainUn (fun a v => a *. cos v) this                 -- sin.F90:11-17
  | .cos => chainUn (fun a v => neg (a *. sin v)) this           -- cos.F90:11-17
  | .tan => chainUnVal (fun a y => a *. (one +. y *. y)) this    -- tan.F90:11-16
  | .asin => chainUn (fun a v => a /. sqrt (one -. v *. v)) this -- asin.F90:11-17
  | .acos => chainUn (fun a v => neg (a /. sqrt (one -. v *. v))) this -- acos.F90:11-17
  | .atan => chainUn (fun a v => a /. (one +. v *. v)) this      -- atan.F90:11-17
  | .sinh => chainUn (fun a v => a *. cosh v) this               -- sinh.F90:16-23
  | .cosh => chainUn (fun a v => a *. sinh v) this               -- cosh.F90:16-24
  | .tanh => chainUn (fun a v => a /. (cosh v *. cosh v)) this   -- tanh.F90:16-24
  | .asinh => chainUn (fun a v => a /. sqrt (v *. v +. one)) this -- asinh.F90:16-24
  | .acosh => chainUn (fun a v => a /. sqrt (v *. v -. one)) this -- acosh.F90:16-24
  | .atanh => chainUn (fun a v => a /. (one -. v *. v)) this     -- atanh.F90:16-23
  | .sqrt => chainUnVal (fun a y => half *. a /. y) this         -- sqrt.F90:11-16
  | .inv => chainUn (fun a v => neg (a /. (v *. v))) this        -- inv.F90:19-25
  | .sq => chainUn (fun a v => a *. two *. v) this               -- square.F90:14-20
  | .isq => chainUn (fun a v => neg (a *. two /. (v *. v *. v))) this -- inv_square.F90:14-20
  | .isqrt => chainUn (fun a v => neg (half *. a /. (v *. sqrt v))) this -- inv_sqrt.F90:14-20
  | .exp => chainUnVal (fun a y => a *. y) this                  -- exp.F90:11-16
  | .log => chainUn (fun a v => a /. v) this                     -- log.F90:11-17
  | .logit => chainUn (fun a v => a /. (v -. v *. v)) this       -- logit.F90:19-25
  | .invLogit => chainUnVal (fun a y => a *. y *. (one -. y)) this -- inv_logit.F90:21-26
  | .erf => chainUn (fun a v => a *. twoOverSqrtPi *. exp (neg (v *. v))) this -- erf.F90:12-18
  | .erfc => chainUn (fun a v => neg (a *. twoOverSqrtPi *. exp (neg (v *. v)))) this -- erfc.F90:12-18
  | .logGamma => chainUn (fun a v => a *. digamma v) this        -- log_gamma.F90:12-18
  | .addVV => chainAddVV this
  | .addVD => chainAddVD this
  | .subVV => chainSubVV this
  | .subVD => chainSubVD this
  | .subDV => chainSubDV this
  | .mulVV => chainMulVV this
  | .mulVD => chainMulVD this
  | .divVV => chainDivVV this
  | .divVD => chainDivVD this
  | .divDV => chainDivDV this
  | .powVV => chainPowVV this
  | .powVD => chainPowVD this
  | .powDV => chainPowDV this
  | .hypot => chainHypot this
  | .sum => chainSum this
  | .norm2 => chainHypot this
  | .logSumExp => chainLogSumExp this
  | .dotVV => chainDotVV this
  | .dotVD => chainDotVD this
  | .matmulVV => chainMatmulVV this
  | .matmulVD => chainMatmulVD this
  | .matmulDV => chainMatmulDV this
  | .eager => chainEager this
  | .user r => chainUser r this

end Fz
