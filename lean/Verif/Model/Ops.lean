import Verif.Model.Chain

/-!
# The forward functions and operators, and `relational.F90`
-/

namespace Fz
variable {W R : Type} [Arith R] [Rep W R]
open Arith

/-! ## relational.F90 -/

/-- the six relational operators (relational.F90:14-19) -/
inductive RelOp where
  | eq | ne | gt | lt | ge | le
  deriving DecidableEq, Repr

/-- the intrinsic comparison of two reals (relational.F90:25-27) -/
def RelOp.cmp (o : RelOp) (a b : R) : Bool :=
  match o with
  | .eq => feq a b
  | .ne => fne a b
  | .gt => fgt a b
  | .lt => flt a b
  | .ge => fge a b
  | .le => fle a b

/-- relational.F90:25 `FUNC_REL_OP_VV`, instances at lines 29-51 -/
def relVV (o : RelOp) (a b : Var) : M W Bool := do
  let x ← a.val (R := R)
  let y ← b.val
  pure (o.cmp x y)
/-- relational.F90:26 `FUNC_REL_OP_VD` -/
def relVD (o : RelOp) (a : Var) (b : R) : M W Bool := do
  let x ← a.val
  pure (o.cmp x b)
/-- relational.F90:27 `FUNC_REL_OP_DV`: the code evaluates `b%val() S a` -/
def relDV (o : RelOp) (a : R) (b : Var) : M W Bool := do
  let y ← b.val
  pure (o.cmp y a)

/-! ## unary functions -/

/-- common shape: `s = var(f(v%val()), [v]); call s%set_chain(c)` (e.g. sin.F90:19-24) -/
def unary (f : R → R) (c : Chain) (v : Var) : M W Var := do
  let x ← v.val
  let s ← newVarOp (f x) [v]
  s.setChain c
  pure s

/-- sin.F90:19-24 -/
def sinV (v : Var) : M W Var := unary (W := W) sin .sin v
/-- cos.F90:19-24 -/
def cosV (v : Var) : M W Var := unary (W := W) cos .cos v
/-- tan.F90:18-23 -/
def tanV (v : Var) : M W Var := unary (W := W) tan .tan v
/-- asin.F90:19-24 -/
def asinV (v : Var) : M W Var := unary (W := W) asin .asin v
/-- acos.F90:19-24 -/
def acosV (v : Var) : M W Var := unary (W := W) acos .acos v
/-- atan.F90:19-24 -/
def atanV (v : Var) : M W Var := unary (W := W) atan .atan v
/-- sinh.F90:25-30 -/
def sinhV (v : Var) : M W Var := unary (W := W) sinh .sinh v
/-- cosh.F90:26-32 -/
def coshV (v : Var) : M W Var := unary (W := W) cosh .cosh v
/-- tanh.F90:26-31 -/
def tanhV (v : Var) : M W Var := unary (W := W) tanh .tanh v
/-- asinh.F90:26-32 -/
def asinhV (v : Var) : M W Var := unary (W := W) asinh .asinh v
/-- acosh.F90:26-38 -/
def acoshV (v : Var) : M W Var := do
  if ← isNanV v then pure v
  else if ← relVD .le v one then fail .stop
  else unary (W := W) acosh .acosh v
/-- atanh.F90:25-36 -/
def atanhV (v : Var) : M W Var := do
  if ← isNanV v then pure v
  else
    let a ← relVD .le v (neg one)
    let b ← relVD .ge v one
    if a || b then fail .stop
    else unary (W := W) atanh .atanh v
/-- sqrt.F90:18-23 -/
def sqrtV (v : Var) : M W Var := unary (W := W) sqrt .sqrt v
/-- inv.F90:34-38 -/
def invD (d : R) : R := one /. d
/-- inv.F90:27-32 -/
def invV (v : Var) : M W Var := unary (W := W) (fun x => one /. x) .inv v
/-- square.F90:22-27 -/
def squareV (v : Var) : M W Var := unary (W := W) (fun x => x *. x) .sq v
/-- inv_square.F90:22-27: the code evaluates `1.d0 / v%val() * v%val()` -/
def invSquareV (v : Var) : M W Var := unary (W := W) (fun x => one /. x *. x) .isq v
/-- inv_sqrt.F90:22-27 -/
def invSqrtV (v : Var) : M W Var := unary (W := W) (fun x => one /. sqrt x) .isqrt v
/-- exp.F90:18-23 -/
def expV (v : Var) : M W Var := unary (W := W) exp .exp v
/-- log.F90:19-24 -/
def logV (v : Var) : M W Var := unary (W := W) log .log v
/-- logit.F90:34-38 -/
def logitD (d : R) : R := log (d /. (one -. d))
/-- logit.F90:27-32 -/
def logitV (v : Var) : M W Var := unary (W := W) logitD .logit v
/-- inv_logit.F90:35-48 -/
def invLogitD (d : R) : R :=
  if flt d zero then
    let e := exp d
    if flt d logEpsilon then e else e /. (one +. e)
  else invD (one +. exp (neg d))
/-- inv_logit.F90:28-33 -/
def invLogitV (v : Var) : M W Var := unary (W := W) invLogitD .invLogit v
/-- erf.F90:20-25 -/
def erfV (v : Var) : M W Var := unary (W := W) erf .erf v
/-- erfc.F90:20-25 -/
def erfcV (v : Var) : M W Var := unary (W := W) erfc .erfc v
/-- log_gamma.F90:20-25 -/
def logGammaV (v : Var) : M W Var := unary (W := W) logGamma .logGamma v

/-! ## add.F90 -/

/-- common shape: `s = var(f(v1%val(), v2%val()), [v1, v2]); call s%set_chain(c)` (e.g. mul.F90:29-34) -/
def binary (f : R → R → R) (c : Chain) (v1 v2 : Var) : M W Var := do
  let x ← v1.val
  let y ← v2.val
  let s ← newVarOp (f x y) [v1, v2]
  s.setChain c
  pure s

/-- common shape: `s = var(f(v%val()), [v], [d]); call s%set_chain(c)` (e.g. mul.F90:43-53) -/
def unaryData (f : R → R) (d : R) (c : Chain) (v : Var) : M W Var := do
  let x ← v.val
  let s ← newVarOpDop (f x) [v] [d]
  s.setChain c
  pure s

/-- add.F90:27-33 -/
def addVV (v1 v2 : Var) : M W Var := binary (W := W) add .addVV v1 v2
/-- add.F90:43-53; with `v2 == 0` the operand itself is returned, and its chain pointer set -/
def addVD (v1 : Var) (v2 : R) : M W Var := do
  if fne v2 zero then unary (fun x => x +. v2) .addVD v1
  else do
    v1.setChain .addVD
    pure v1
/-- add.F90:55-65 -/
def addDV (v1 : R) (v2 : Var) : M W Var := do
  if fne v1 zero then unary (fun x => v1 +. x) .addVD v2
  else do
    v2.setChain .addVD
    pure v2
/-- add.F90:67-71 -/
def posV (v : Var) : M W Var := pure v

/-! ## sub.F90 -/

/-- sub.F90:28-33 -/
def subVV (v1 v2 : Var) : M W Var := binary (W := W) sub .subVV v1 v2
/-- sub.F90:42-52 -/
def subVD (v1 : Var) (v2 : R) : M W Var := do
  if fne v2 zero then unary (fun x => x -. v2) .subVD v1
  else do
    v1.setChain .subVD
    pure v1
/-- sub.F90:61-67 -/
def subDV (v1 : R) (v2 : Var) : M W Var := unary (fun x => v1 -. x) .subDV v2
/-- sub.F90:69-74 -/
def negV (v : Var) : M W Var := unary (W := W) neg .subDV v

/-! ## abs.F90 (uses unary minus) -/

/-- abs.F90:22-35 -/
def absV (v : Var) : M W Var := do
  let x ← v.val
  if fgt x zero then pure v
  else if flt x zero then negV v
  else if feq x zero then newVar0
  else do
    let s ← newVarOp (nan : R) [v]
    s.setChain .abs
    pure s

/-! ## mul.F90, div.F90 -/

/-- mul.F90:29-34 -/
def mulVV (v1 v2 : Var) : M W Var := binary (W := W) mul .mulVV v1 v2
/-- mul.F90:43-53 -/
def mulVD (v : Var) (d : R) : M W Var := do
  if fne d one then unaryData (fun x => x *. d) d .mulVD v
  else do
    v.setChain .mulVD
    pure v
/-- mul.F90:55-65 -/
def mulDV (d : R) (v : Var) : M W Var := do
  if fne d one then unaryData (fun x => x *. d) d .mulVD v
  else do
    v.setChain .mulVD
    pure v
/-- div.F90:29-34 -/
def divVV (v1 v2 : Var) : M W Var := binary (W := W) div .divVV v1 v2
/-- div.F90:44-54 -/
def divVD (v : Var) (d : R) : M W Var := do
  if fne d one then unaryData (fun x => x /. d) d .divVD v
  else do
    v.setChain .divVD
    pure v
/-- div.F90:64-70 -/
def divDV (d : R) (v : Var) : M W Var := unaryData (fun x => d /. x) d .divDV v

/-! ## pow.F90 -/

/-- pow.F90:56-61 -/
def powVV (v1 v2 : Var) : M W Var := binary (W := W) pow .powVV v1 v2
/-- pow.F90:63-83 -/
def powVD (v1 : Var) (v2 : R) : M W Var :=
  if feq v2 half then sqrtV v1
  else if feq v2 one then pure v1
  else if feq v2 two then squareV v1
  else if feq v2 (neg two) then invSquareV v1
  else if feq v2 (neg one) then invV v1
  else if feq v2 (neg half) then invSqrtV v1
  else unaryData (fun x => pow x v2) v2 .powVD v1
/-- pow.F90:85-91 -/
def powDV (v1 : R) (v2 : Var) : M W Var := unaryData (fun x => pow v1 x) v1 .powDV v2

/-! ## hypot.F90 -/

/-- hypot.F90:22-27 -/
def hypotVV (v1 v2 : Var) : M W Var := binary (W := W) hypot .hypot v1 v2
/-- hypot.F90:29-39 -/
def hypotVD (v1 : Var) (v2 : R) : M W Var := do
  let s ← if fne v2 zero then do
      let x ← v1.val
      newVarOp (hypot x v2) [v1]
    else absV v1
  s.setChain .hypot
  pure s
/-- hypot.F90:41-51 -/
def hypotDV (v1 : R) (v2 : Var) : M W Var := do
  let s ← if fne v1 zero then do
      let x ← v2.val
      newVarOp (hypot x v1) [v2]
    else pure v2
  s.setChain .hypot
  pure s

/-! ## array functions -/

/-- `val(v)` of an array (var.F90:147-150; e.g. sum.F90:21) -/
def vals (vs : List Var) : M W (List R) := vs.mapM Var.val

/-- common shape: `s = var(f(val(v)), v); call s%set_chain(c)` (e.g. sum.F90:18-23) -/
def reduceV (f : List R → R) (c : Chain) (vs : List Var) : M W Var := do
  let xs ← vals vs
  let s ← newVarOp (f xs) vs
  s.setChain c
  pure s

/-- sum.F90:18-23 -/
def sumV (vs : List Var) : M W Var := reduceV (W := W) fsum .sum vs
/-- norm2.F90:19-24 -/
def norm2V (vs : List Var) : M W Var := reduceV (W := W) fnorm2 .norm2 vs
/-- log_sum_exp.F90:29-38 -/
def logSumExpD (d : List R) : R :=
  let m := fmaxval d
  if isInf m then m
  else m +. log (fsum (d.map fun x => exp (x -. m)))
/-- log_sum_exp.F90:40-45 -/
def logSumExpV (vs : List Var) : M W Var := reduceV (W := W) logSumExpD .logSumExp vs

/-- dot_product.F90:27-32; the intrinsic needs arrays of the same size -/
def dotVV (a b : List Var) : M W Var := do
  let x ← vals (R := R) a
  let y ← vals b
  if a.length = b.length then do
    let s ← newVarOp (fdot x y) (a ++ b)
    s.setChain .dotVV
    pure s
  else fail .nonconf
/-- dot_product.F90:57-63 -/
def dotVD (a : List Var) (b : List R) : M W Var := do
  let x ← vals a
  if a.length = b.length then do
    let s ← newVarOpDop (fdot x b) a b
    s.setChain .dotVD
    pure s
  else fail .nonconf
/-- dot_product.F90:65-71 -/
def dotDV (a : List R) (b : List Var) : M W Var := do
  let y ← vals b
  if a.length = b.length then do
    let s ← newVarOpDop (fdot a y) b a
    s.setChain .dotVD
    pure s
  else fail .nonconf

/-! ## matmul.F90, array_in_tape.F90 -/

/-- A rank-2 array: element `(i, j)` (0-based here) is `get i j`. (matmul.F90:36-39) -/
structure Mat (α : Type) where
  nrow : Nat
  ncol : Nat
  get : Nat → Nat → α

/-- elements in array element order (column-major) (array_in_tape.F90:39-46) -/
def Mat.flat {α : Type} (m : Mat α) : List α :=
  (List.range m.ncol).flatMap fun j => (List.range m.nrow).map fun i => m.get i j

/-- row `i` (matmul.F90:46) -/
def Mat.row {α : Type} (m : Mat α) (i : Nat) : List α := (List.range m.ncol).map fun k => m.get i k
/-- column `j` (matmul.F90:46) -/
def Mat.col {α : Type} (m : Mat α) (j : Nat) : List α := (List.range m.nrow).map fun k => m.get k j

/-- array_in_tape.F90:39-46 `var_2d_array_in_tape`: shape and tape indices, in column-major order -/
def pushVarMat (a : Mat Var) : M W Nat := do
  let ids ← a.flat.mapM Var.viIndex
  pushTape fun t => t.pushIntArray ([a.nrow, a.ncol] ++ ids)

/-- array_in_tape.F90:61-70 `data_2d_array_in_tape` -/
def pushDataMat (a : Mat R) : M W Nat := do
  let loc ← pushTape fun t => t.pushIntArray [a.nrow, a.ncol]
  let _ ← pushTape fun t => t.pushRealArray a.flat
  pure loc

/-- array_in_tape.F90:29-36 `var_1d_array_in_tape` -/
def pushVarArr (a : List Var) : M W Nat := do
  let ids ← a.mapM Var.viIndex
  pushTape fun t => t.pushIntArray ([a.length] ++ ids)

/-- array_in_tape.F90:49-58 `data_1d_array_in_tape`: `push(size(a))` is the generic `push_n` -/
def pushDataArr (a : List R) : M W Nat := do
  let loc ← pushTape fun t => t.pushN a.length
  let _ ← pushTape fun t => t.pushRealArray a
  pure loc

/-- `a_val = val(a)` of a rank-2 array; `l` holds all `nrow*ncol` elements, so `getD` never uses
its default (matmul.F90:44-45, 75, 105) -/
def matVals (a : Mat Var) : M W (Mat R) := do
  let l ← vals (R := R) a.flat
  pure ⟨a.nrow, a.ncol, fun i j => l.getD (j * a.nrow + i) zero⟩

/-- the double loop matmul.F90:47-52 over the entries in column-major order -/
def matmulLoop (c : Chain) (la lb : Nat) (f : Nat → Nat → R) :
    List (Nat × Nat) → M W (List Var)
  | [] => pure []
  | (i, j) :: ps => do
    let s ← newVarOpId (f i j) [i + 1, j + 1, la, lb]
    s.setChain c
    let ss ← matmulLoop c la lb f ps
    pure (s :: ss)

/-- index pairs in loop order (matmul.F90:47-48) -/
def matPairs (m n : Nat) : List (Nat × Nat) :=
  (List.range n).flatMap fun j => (List.range m).map fun i => (i, j)

/-- intrinsic `matmul` of two real matrices, entry `(i, j)` (matmul.F90:46, 76, 106) -/
def matmulD (a b : Mat R) (i j : Nat) : R := fmul (a.row i) (b.col j)

/-- matmul.F90:35-53 `mat_mul_vv`; result in column-major order -/
def matmulVV (a b : Mat Var) : M W (List Var) := do
  let la ← pushVarMat a
  let lb ← pushVarMat b
  let av ← matVals (R := R) a
  let bv ← matVals b
  if a.ncol = b.nrow then
    matmulLoop .matmulVV la lb (matmulD av bv) (matPairs a.nrow b.ncol)
  else fail .nonconf
/-- matmul.F90:65-83 `mat_mul_vd` -/
def matmulVD (a : Mat Var) (b : Mat R) : M W (List Var) := do
  let la ← pushVarMat a
  let lb ← pushDataMat b
  let av ← matVals a
  if a.ncol = b.nrow then
    matmulLoop .matmulVD la lb (matmulD av b) (matPairs a.nrow b.ncol)
  else fail .nonconf
/-- matmul.F90:95-113 `mat_mul_dv` -/
def matmulDV (a : Mat R) (b : Mat Var) : M W (List Var) := do
  let la ← pushDataMat a
  let lb ← pushVarMat b
  let bv ← matVals b
  if a.ncol = b.nrow then
    matmulLoop .matmulDV la lb (matmulD a bv) (matPairs a.nrow b.ncol)
  else fail .nonconf

/-! ## chain_eager_adj.F90 -/

/-- chain_eager_adj.F90:20-27 `var_with_partials`; the dummy is `partial(size(operands))`, so a
shorter actual argument is an error and extra elements are cut off -/
def varWithPartials (val : R) (operands : List Var) (partials : List R) : M W Var := do
  if partials.length < operands.length then fail .shortArg
  else do
    let v ← newVarOpDop val operands (partials.take operands.length)
    v.setChain .eager
    pure v

/-! ## operations added by the user -/

/-- the forward function of an operation added by the user (doc/fazang_user_guide.org, "Add operation
functions": `log_v`, `div_vv`, `div_vd`): `s = var(x, operands)` or `s = var(x, operands, data)`,
`call s%set_chain(chain_f)`.  How the user computes `x` is left open. -/
def userOp (x : R) (r : URule) (operands : List Var) (data : List R) : M W Var := do
  let v ← match data with
    | [] => newVarOp x operands
    | _ => newVarOpDop x operands data
  v.setChain (.user r)
  pure v

/-! ## elementwise application -/

/-- application of an `impure elemental` function to an array, in array element order (e.g. sin.F90:19) -/
def elemental1 (f : Var → M W Var) (vs : List Var) : M W (List Var) := vs.mapM f

/-- elementwise application of a binary operator to two arrays (of variables or real numbers) of equal size; a scalar
operand is spread to an array beforehand (e.g. add.F90:27, 43, 55) -/
def elemental2 {α β : Type} (f : α → β → M W Var) : List α → List β → M W (List Var)
  | [], [] => pure []
  | a :: as, b :: bs => do
    let s ← f a b
    let ss ← elemental2 f as bs
    pure (s :: ss)
  | _, _ => fail .nonconf

end Fz
