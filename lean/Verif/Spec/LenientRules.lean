import Verif.Spec.LenientOde
import Verif.Spec.Drive

/-!
# Derivatives of programs, without checks of array shapes
-/

namespace Spec
open Fz
variable {W : Type} [Rep W ℝ]

/-- as `derive`, without checks of array shapes -/
noncomputable def deriveL (J : Junk W ℝ) (p : Prog) (env : List Var) (x : List ℝ) (k : Nat) :
    M W (List ℝ × List ℝ) := do
  let xv ← newVars x
  let outs ← p.run (xv ++ env)
  let ys ← vals outs
  (lookV outs k).gradL J
  let df ← adjs xv
  pure (ys, df)

end Spec
