import Verif.Model.Ops

/-!
# Variants for matrices and single entries

Procedures of `tape.F90`, `vari.F90` and `var.F90` that no other procedure of the library calls, or that only repeat
the ones for vectors.
-/

namespace Fz
variable {W R : Type} [Arith R] [Rep W R]

/-- tape.F90:123-132 `push_real_2d_array`: `transfer(d, storage)` takes the elements column by column -/
def Tape.pushReal2d (t : Tape W) (d : Mat R) : Except Err (Nat × Tape W) := do
  let id := t.head
  let t ← t.alloc (2 * (d.nrow * d.ncol))
  let t ← t.wrSec id (Tape.realWords d.flat)
  pure (id, { t with head := t.head + 2 * (d.nrow * d.ncol) })

/-- vari.F90:111-115 `vari_at`: the entry itself (the code returns a pointer to it) -/
def variAt (id : Nat) : M W Vari := getVari id

/-- vari.F90:275-278 `set_zero_adj` -/
def Vari.setZeroAdj (this : Vari) : M W Unit := this.setAdj (Arith.zero : R)

/-- vari.F90:285-289 `set_vari_0d`: `entry = r` -/
def Vari.assign (this : Vari) (d : R) : M W Unit := this.setVal d

/-- var.F90:129-136 `set_var_2d`: `do i = lbound(this,2), ubound(this,2)`, reading column `i` of both arrays -/
def Var.assign2d : List (List Var) → List (List R) → M W Unit
  | [], _ => pure ()
  | _ :: _, [] => fail .oob
  | v :: vs, d :: ds => do Var.assign1d v d; assign2d vs ds

/-- var.F90:138-145 `set_var_2d_from_0d` -/
def Var.assign2dFrom0d (vs : List (List Var)) (d : R) : M W Unit := vs.forM fun v => Var.assign1dFrom0d v d

end Fz
