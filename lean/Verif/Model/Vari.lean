import Verif.Model.Tape
import Verif.Model.User

/-!
# `vari.F90`, `var.F90`, `value_of.F90`: the variable table and variables

The module variables `callstack`, `nested_tape_head`, `nested_vari_head`, `nest_level` form the
program state `St`.  A procedure is a state transformer that may fail with an `Err`.
-/

namespace Fz

/-- The procedures a chain pointer can point to (`vari%chain`, vari.F90:18): those of the library, and
chain procedures of the user. -/
inductive Chain where
  | dummy
  | abs | sin | cos | tan | asin | acos | atan | sinh | cosh | tanh | asinh | acosh | atanh
  | sqrt | inv | sq | isq | isqrt | exp | log | logit | invLogit | erf | erfc | logGamma
  | addVV | addVD | subVV | subVD | subDV | mulVV | mulVD | divVV | divVD | divDV
  | powVV | powVD | powDV | hypot
  | sum | norm2 | logSumExp | dotVV | dotVD | matmulVV | matmulVD | matmulDV
  | eager
  | user (r : URule)
  deriving DecidableEq, Repr

/-- vari.F90:16-31: tape index and chain pointer -/
structure Vari where
  i : Nat := 0
  chain : Chain := .dummy
  deriving DecidableEq, Repr

/-- The global state: `callstack` (vari.F90:45-62: `head`, `n_varis`, `varis`, `stack`) and the
module variables of nested.F90:11-14.  `varis k` is `varis(k)`, meaningful for `1 ≤ k ≤ nVaris`. -/
structure St (W : Type) where
  vhead : Nat
  nVaris : Nat
  varis : Nat → Vari
  tape : Tape W
  nestTape : Nat → Nat
  nestVari : Nat → Nat
  level : Nat

/-- var.F90:13-24: a variable is an index into `varis` -/
structure Var where
  vi : Nat
  deriving DecidableEq, Repr

/-- A procedure acting on the global state. (the module variable: vari.F90:62) -/
abbrev M (W : Type) (α : Type) := StateT (St W) (Except Err) α

variable {W R : Type} [Arith R] [Rep W R]

/-- Initial state of the program: vari.F90:46,50, tape.F90:25-26, nested.F90:12-14 -/
def St.init : St W :=
  { vhead := 1, nVaris := 0, varis := fun _ => {}, tape := Tape.init,
    nestTape := fun _ => 0, nestVari := fun _ => 0, level := 0 }

/-- a failing statement
(statements outside the bounds of an array, e.g. vari.F90:108, and `error stop`, e.g. acosh.F90:33) -/
def fail {α : Type} (e : Err) : M W α := fun _ => .error e

/-- read-only access to the tape (e.g. vari.F90:166) -/
def readTape {α : Type} (f : Tape W → Except Err α) : M W α := fun s =>
  match f s.tape with
  | .ok a => .ok (a, s)
  | .error e => .error e

/-- update of the tape (e.g. vari.F90:187) -/
def modTape (f : Tape W → Except Err (Tape W)) : M W Unit := fun s =>
  match f s.tape with
  | .ok t => .ok ((), { s with tape := t })
  | .error e => .error e

/-- `push` on the tape (vari.F90:121) -/
def pushTape (f : Tape W → Except Err (Nat × Tape W)) : M W Nat := fun s =>
  match f s.tape with
  | .ok (id, t) => .ok (id, { s with tape := t })
  | .error e => .error e

/-- reading `varis(k)` (vari.F90:108, 248) -/
def getVari (k : Nat) : M W Vari := fun s =>
  if 1 ≤ k ∧ k ≤ s.nVaris then .ok (s.varis k, s) else .error .oob

/-- writing `varis(k)` (vari.F90:121, 242) -/
def setVari (k : Nat) (v : Vari) : M W Unit := fun s =>
  if 1 ≤ k ∧ k ≤ s.nVaris then
    .ok ((), { s with varis := fun m => if m = k then v else s.varis m })
  else .error .oob

/-- vari.F90:90-96: the doubling loop of `alloc_vari_stack_n` -/
def allocVarisLoop (s : St W) (n : Nat) : Except Err (St W) :=
  if s.nVaris + 1 < n + s.vhead then
    if _h : s.nVaris = 0 then .error .overflow
    else if 2 * s.nVaris ≤ int32Max then
      allocVarisLoop { s with
        nVaris := 2 * s.nVaris
        varis := fun k => if k ≤ s.nVaris then s.varis k else {} } n
    else .error .overflow
  else .ok s
termination_by n + s.vhead - s.nVaris
decreasing_by omega

/-- vari.F90:80-98 `alloc_vari_stack_n` -/
def allocVaris (n : Nat) : M W Unit := fun s =>
  match (if s.nVaris = 0 then
      allocVarisLoop { s with nVaris := initVariStackSize, varis := fun _ => {} } n
    else allocVarisLoop s n) with
  | .ok s => .ok ((), s)
  | .error e => .error e

/-- vari.F90:105-109 `vari_index` -/
def variIndex (k : Nat) : M W Nat := do
  let v ← getVari k
  pure v.i

/-- common shape of vari.F90:117-162: `varis(head)%i = push(...)`; the chain pointer of the entry
is left as it is; `head` is incremented -/
def newVariWith (push : Tape W → Except Err (Nat × Tape W)) : M W Nat := do
  allocVaris 1
  let id ← pushTape push
  let s ← get
  let vp := s.vhead
  let v ← getVari vp
  setVari vp { v with i := id }
  modify fun s => { s with vhead := s.vhead + 1 }
  pure vp

/-- vari.F90:117-124 `new_vari_val` -/
def newVariVal (d : R) : M W Nat := newVariWith fun t => t.pushVal d
/-- vari.F90:126-130 `new_vari` (the extra `alloc_vari_stack` call is idempotent and omitted) -/
def newVari0 : M W Nat := newVariVal (W := W) Arith.zero
/-- vari.F90:132-140 `new_vari_val_op` -/
def newVariValOp (d : R) (op : List Nat) : M W Nat := newVariWith fun t => t.pushValOp d op
/-- vari.F90:142-150 `new_vari_val_dop` -/
def newVariValDop (d : R) (dop : List R) : M W Nat := newVariWith fun t => t.pushValDop d dop
/-- vari.F90:152-162 `new_vari_val_op_dop` -/
def newVariValOpDop (d : R) (op : List Nat) (dop : List R) : M W Nat :=
  newVariWith fun t => t.pushValOpDop d op dop

namespace Vari

/-- vari.F90:164-167 `val` -/
def val (this : Vari) : M W R := readTape fun t => t.valAt this.i
/-- vari.F90:169-172 `adj` -/
def adj (this : Vari) : M W R := readTape fun t => t.adjAt this.i
/-- vari.F90:174-177 `n_operand` -/
def nOperand (this : Vari) : M W Nat := readTape fun t => t.nOperand this.i
/-- vari.F90:203-207 `operand_val` -/
def operandVal (this : Vari) : M W (List R) := readTape fun t => t.operandVal this.i
/-- vari.F90:209-213 `data_operand` -/
def dataOperand (this : Vari) : M W (List R) := readTape fun t => t.dataOperand this.i
/-- vari.F90:215-219 `operand_index` -/
def operandIndex (this : Vari) : M W (List Nat) := readTape fun t => t.operandIndex this.i
/-- vari.F90:221-225 `matrix_operand_1_index` -/
def matrixOperand1Index (this : Vari) : M W Nat := readTape fun t => t.rdN (this.i + 4 + 3)
/-- vari.F90:227-231 `matrix_operand_2_index` -/
def matrixOperand2Index (this : Vari) : M W Nat := readTape fun t => t.rdN (this.i + 4 + 4)
/-- vari.F90:233-237 `set_val` -/
def setVal (this : Vari) (d : R) : M W Unit := modTape fun t => t.setValAt this.i d
/-- vari.F90:263-267 `set_adj` -/
def setAdj (this : Vari) (d : R) : M W Unit := modTape fun t => t.setAdjAt this.i d
/-- vari.F90:280-283 `init_dependent` -/
def initDependent (this : Vari) : M W Unit := setAdj (W := W) this Arith.one

/-- vari.F90:191-201 `set_operand_adj_by_index`: `do i = 1, size(id)`, reading `d(i)` -/
def setOperandAdjByIndex (_this : Vari) : List Nat → List R → M W Unit
  | [], _ => pure ()
  | _ :: _, [] => fail .oob
  | p :: ps, d :: ds => do
    let a ← readTape fun t => t.adjAt p
    modTape fun t => t.setAdjAt p (a +. d)
    setOperandAdjByIndex _this ps ds

/-- vari.F90:179-189 `set_operand_adj_all`: the dummy is `d(this%n_operand())`, so an actual
argument with fewer elements is an error; extra elements are not used -/
def setOperandAdjAll (this : Vari) (d : List R) : M W Unit := do
  let n ← this.nOperand
  if d.length < n then fail .shortArg
  else do
    let id ← this.operandIndex
    setOperandAdjByIndex this id d

end Vari

/-- vari.F90:239-243 `set_indexed_chain` -/
def setIndexedChain (k : Nat) (c : Chain) : M W Unit := do
  let v ← getVari k
  setVari k { v with chain := c }

/-- vari.F90:245-249 `get_indexed_val` -/
def getIndexedVal (k : Nat) : M W R := do
  let v ← getVari k
  v.val
/-- vari.F90:251-255 `get_indexed_adj` -/
def getIndexedAdj (k : Nat) : M W R := do
  let v ← getVari k
  v.adj
/-- vari.F90:257-261 `set_indexed_val` -/
def setIndexedVal (k : Nat) (d : R) : M W Unit := do
  let v ← getVari k
  v.setVal d
/-- vari.F90:269-273 `set_indexed_adj` -/
def setIndexedAdj (k : Nat) (d : R) : M W Unit := do
  let v ← getVari k
  v.setAdj d

/-- body of the loops vari.F90:294-296 and nested.F90:19-21: zero the adjoints of
`varis(hi), varis(hi-1), ..., varis(lo)`; `n` is the number of iterations, `hi = lo + n - 1` -/
def zeroAdjLoop (lo : Nat) : Nat → M W Unit
  | 0 => pure ()
  | n + 1 => do
    let v ← getVari (lo + n)
    v.setAdj (Arith.zero : R)
    zeroAdjLoop lo n

/-- vari.F90:291-297 `set_zero_all_adj`, grad.F90:27-29 -/
def setZeroAllAdj : M W Unit := do
  let s ← get
  zeroAdjLoop (W := W) 1 (s.vhead - 1)

/-- vari.F90:305-312 `vari_stack_size` -/
def variStackSize : M W Nat := do
  let s ← get
  pure s.nVaris

namespace Var

/-- var.F90:147-150 `val` -/
def val (this : Var) : M W R := getIndexedVal this.vi
/-- var.F90:152-155 `adj` -/
def adj (this : Var) : M W R := getIndexedAdj this.vi
/-- var.F90:157-161 `vi_index` -/
def viIndex (this : Var) : M W Nat := variIndex this.vi
/-- var.F90:163-167 `set_chain` -/
def setChain (this : Var) (c : Chain) : M W Unit := setIndexedChain this.vi c
/-- var.F90:105-109 `set_var_0d`: `x = r` -/
def assign (this : Var) (d : R) : M W Unit := setIndexedVal this.vi d

/-- var.F90:111-118 `set_var_1d` (and column by column var.F90:129-136 `set_var_2d`):
`do i = 1, size(this)`, reading `from(i)` -/
def assign1d : List Var → List R → M W Unit
  | [], _ => pure ()
  | _ :: _, [] => fail .oob
  | v :: vs, d :: ds => do v.assign d; assign1d vs ds

/-- var.F90:120-127 `set_var_1d_from_0d`, var.F90:138-145 -/
def assign1dFrom0d (vs : List Var) (d : R) : M W Unit := vs.forM fun v => v.assign d

end Var

/-- var.F90:47-51 `new_var_val`: `var(d)` -/
def newVar (d : R) : M W Var := do
  let k ← newVariVal d
  pure ⟨k⟩
/-- var.F90:53-56 `new_var`: `var()` -/
def newVar0 : M W Var := do
  let k ← newVari0
  pure ⟨k⟩
/-- elementwise `var(x)` of an array (`new_var_val` is elemental) (var.F90:47-51) -/
def newVars (xs : List R) : M W (List Var) := xs.mapM newVar
/-- var.F90:58-63 `new_var_val_op`: `var(d, op)` -/
def newVarOp (d : R) (op : List Var) : M W Var := do
  let ids ← op.mapM Var.viIndex
  let k ← newVariValOp d ids
  pure ⟨k⟩
/-- var.F90:65-70 `new_var_val_opid`: `var(d, ints)` -/
def newVarOpId (d : R) (op : List Nat) : M W Var := do
  let k ← newVariValOp d op
  pure ⟨k⟩
/-- var.F90:72-77 `new_var_val_dop` -/
def newVarDop (d : R) (dop : List R) : M W Var := do
  let k ← newVariValDop d dop
  pure ⟨k⟩
/-- var.F90:79-85 `new_var_val_op_dop`: `var(d, op, dop)` -/
def newVarOpDop (d : R) (op : List Var) (dop : List R) : M W Var := do
  let ids ← op.mapM Var.viIndex
  let k ← newVariValOpDop d ids dop
  pure ⟨k⟩
/-- var.F90:87-94 `new_var_1d` -/
def newVar1d : Nat → M W (List Var)
  | 0 => pure []
  | n + 1 => do
    let v ← newVar0
    let vs ← newVar1d n
    pure (v :: vs)
/-- var.F90:96-103 `new_var_2d`, columns in order -/
def newVar2d (m : Nat) : Nat → M W (List (List Var))
  | 0 => pure []
  | n + 1 => do
    let v ← newVar1d m
    let vs ← newVar2d m n
    pure (v :: vs)

/-- a `class(*)` argument that is a `var` or a real (value_of.F90:15-23) -/
inductive VOrD (R : Type) where
  | v (x : Var)
  | d (x : R)

/-- value_of.F90:15-23 `value_of` -/
def valueOf : VOrD R → M W R
  | .v x => x.val
  | .d x => pure x

/-- arith.F90:81-84 `is_nan_v` -/
def isNanV (v : Var) : M W Bool := do
  let x ← v.val (R := R)
  pure (isNanD x)

end Fz
