import Verif.Model.Ops

/-!
# `prob/normal_lpdf.F90`, `prob/lognormal_lpdf.F90`
-/

namespace Fz
variable {W R : Type} [Arith R] [Rep W R]
open Arith

/-- arith.F90:49 `log_sqrt_two_pi` -/
def logSqrtTwoPi : R := half *. logTwoPi

namespace Normal
/-- prob/normal_lpdf.F90:54-70 `logp` on values -/
def logp (mu sigma y : R) : R :=
  let inv := one /. sigma
  let ys := (y -. mu) *. inv
  let lp := neg (half *. ys *. ys)
  let lp := lp -. log sigma
  lp -. logSqrtTwoPi
/-- prob/normal_lpdf.F90:72-86 `grad_mu` on values -/
def gradMu (mu sigma y : R) : R :=
  let inv := one /. sigma
  let ys := (y -. mu) *. inv
  ys *. inv
/-- prob/normal_lpdf.F90:104-118 `grad_sigma` on values -/
def gradSigma (mu sigma y : R) : R :=
  let inv := one /. sigma
  let ys := (y -. mu) *. inv
  inv *. ys *. ys -. inv
end Normal

namespace LogNormal
/-- prob/lognormal_lpdf.F90:54-71 `logp` on values -/
def logp (mu sigma y : R) : R :=
  let inv := one /. sigma
  let ys := (log y -. mu) *. inv
  let lp := neg (half *. ys *. ys)
  let lp := lp -. log sigma
  let lp := lp -. log y
  lp -. logSqrtTwoPi
/-- prob/lognormal_lpdf.F90:73-87 `grad_mu` on values -/
def gradMu (mu sigma y : R) : R :=
  let inv := one /. sigma
  let ys := (log y -. mu) *. inv
  ys *. inv
/-- prob/lognormal_lpdf.F90:108-122 `grad_sigma` on values -/
def gradSigma (mu sigma y : R) : R :=
  let inv := one /. sigma
  let ys := (log y -. mu) *. inv
  inv *. ys *. ys -. inv
end LogNormal

/-- prob/normal_lpdf.F90:21-28, prob/lognormal_lpdf.F90:21-28: `mu` and `sigma` variables -/
def lpdfVV (logp gm gs : R → R → R → R) (y : List R) (mu sigma : Var) : M W Var := do
  let m ← mu.val
  let s ← sigma.val
  varWithPartials (fsum (y.map (logp m s))) [mu, sigma]
    [fsum (y.map (gm m s)), fsum (y.map (gs m s))]
/-- prob/normal_lpdf.F90:30-36, prob/lognormal_lpdf.F90:30-36 -/
def lpdfVD (logp gm : R → R → R → R) (y : List R) (mu : Var) (sigma : R) : M W Var := do
  let m ← mu.val
  varWithPartials (fsum (y.map (logp m sigma))) [mu] [fsum (y.map (gm m sigma))]
/-- prob/normal_lpdf.F90:38-44, prob/lognormal_lpdf.F90:38-44 -/
def lpdfDV (logp gs : R → R → R → R) (y : List R) (mu : R) (sigma : Var) : M W Var := do
  let s ← sigma.val
  varWithPartials (fsum (y.map (logp mu s))) [sigma] [fsum (y.map (gs mu s))]
/-- prob/normal_lpdf.F90:46-52, prob/lognormal_lpdf.F90:46-52 -/
def lpdfDD (logp : R → R → R → R) (y : List R) (mu sigma : R) : R := fsum (y.map (logp mu sigma))

/-- prob/normal_lpdf.F90:21-28 -/
def normalLpdfVV (y : List R) (mu sigma : Var) : M W Var :=
  lpdfVV Normal.logp Normal.gradMu Normal.gradSigma y mu sigma
/-- prob/normal_lpdf.F90:30-36 -/
def normalLpdfVD (y : List R) (mu : Var) (sigma : R) : M W Var :=
  lpdfVD Normal.logp Normal.gradMu y mu sigma
/-- prob/normal_lpdf.F90:38-44 -/
def normalLpdfDV (y : List R) (mu : R) (sigma : Var) : M W Var :=
  lpdfDV Normal.logp Normal.gradSigma y mu sigma
/-- prob/normal_lpdf.F90:46-52 -/
def normalLpdfDD (y : List R) (mu sigma : R) : R := lpdfDD Normal.logp y mu sigma
/-- prob/lognormal_lpdf.F90:21-28 -/
def lognormalLpdfVV (y : List R) (mu sigma : Var) : M W Var :=
  lpdfVV LogNormal.logp LogNormal.gradMu LogNormal.gradSigma y mu sigma
/-- prob/lognormal_lpdf.F90:30-36 -/
def lognormalLpdfVD (y : List R) (mu : Var) (sigma : R) : M W Var :=
  lpdfVD LogNormal.logp LogNormal.gradMu y mu sigma
/-- prob/lognormal_lpdf.F90:38-44 -/
def lognormalLpdfDV (y : List R) (mu : R) (sigma : Var) : M W Var :=
  lpdfDV LogNormal.logp LogNormal.gradSigma y mu sigma
/-- prob/lognormal_lpdf.F90:46-52 -/
def lognormalLpdfDD (y : List R) (mu sigma : R) : R := lpdfDD LogNormal.logp y mu sigma

end Fz
