import Verif.Model.Basic

/-!
# `digamma.F90`: Cody, Strecok and Thacher's rational approximation of the digamma function

Modelled as the control flow of digamma.F90:144-237 with the `GO TO`s resolved.  The accuracy of the
rational approximations is C64.
-/

namespace Fz
variable {R : Type} [Arith R]
open Arith

/-- digamma.F90:110 -/
def dgPiov4 : R := lit 78539816339744830962 (-20)
/-- digamma.F90:113-118 -/
def dgP1 : List R :=
  [lit 45104681245762934160 (-22), lit 54932855833000385356 (-19), lit 37646693175929276856 (-17),
   lit 79525490849151998065 (-16), lit 71451595818951933210 (-15), lit 30655976301987365674 (-14),
   lit 63606997788964458797 (-14), lit 58041312783537569993 (-14), lit 16585695029761022321 (-14)]
/-- digamma.F90:119-123 -/
def dgQ1 : List R :=
  [lit 96141654774222358525 (-18), lit 26287715790581193330 (-16), lit 29862497022250277920 (-15),
   lit 16206566091533671639 (-14), lit 43487880712768329037 (-14), lit 54256384537269993733 (-14),
   lit 24242185002017985252 (-14), lit 64155223783576225996 (-27)]
/-- digamma.F90:126-130 -/
def dgP2 : List R :=
  [lit (-27103228277757834192) (-19), lit (-15166271776896121383) (-18),
   lit (-19784554148719218667) (-18), lit (-88100958828312219821) (-19),
   lit (-14479614616899842986) (-19), lit (-73689600332394549911) (-21),
   lit (-65135387732718171306) (-40)]
/-- digamma.F90:131-134 -/
def dgQ2 : List R :=
  [lit 44992760373789365846 (-18), lit 20240955312679931159 (-17), lit 24736979003315290057 (-17),
   lit 10742543875702278326 (-17), lit 17463965060678569906 (-18), lit 88427520398873480342 (-20)]
/-- digamma.F90:137 -/
def dgX01 : R := lit 187 0
/-- digamma.F90:137 -/
def dgX01D : R := lit 128 0
/-- digamma.F90:137 -/
def dgX02 : R := lit 69464496836234126266 (-23)
/-- digamma.F90:140 -/
def dgXinf : R := lit 17 37
/-- digamma.F90:140 -/
def dgXmin1 : R := lit 589 (-41)
/-- digamma.F90:140 -/
def dgXmax1 : R := lit 36 15
/-- digamma.F90:141 -/
def dgXsmall : R := lit 205 (-11)
/-- digamma.F90:141 -/
def dgXlarge : R := lit 204 13

/-- the loops digamma.F90:207-210 and 222-225: `a = (a + c(i)) * x` -/
def dgHorner (a x : R) (c : List R) : R := c.foldl (fun a ci => (a +. ci) *. x) a

/-- `c(i)` for the subscripts 1, 6, 7, 8, 9 that digamma.F90:206, 211, 221 and 226 use -/
def dgAt (c : List R) (i : Nat) : R := c.getD (i - 1) zero

/-- digamma.F90:201-229, from label 200: the approximations on `[0.5, 3]` and beyond 3 -/
def dgPos (x aug : R) : R :=
  if fgt x (lit 3 0) then
    let aug :=
      if flt x dgXlarge then
        let w := one /. (x *. x)
        let den := dgHorner w w (dgQ2.take 5)
        let upper := dgHorner (dgAt dgP2 1 *. w) w ((dgP2.drop 1).take 5)
        (upper +. dgAt dgP2 7) /. (den +. dgAt dgQ2 6)
          -. half /. x +. aug
      else aug
    aug +. log x
  else
    let den := dgHorner x x (dgQ1.take 7)
    let upper := dgHorner (dgAt dgP1 1 *. x) x ((dgP1.drop 1).take 7)
    let den := (upper +. dgAt dgP1 9) /. (den +. dgAt dgQ1 8)
    let x := (x -. dgX01 /. dgX01D) -. dgX02
    den *. x +. aug

/-- digamma.F90:233-234, label 410: error return -/
def dgErr (x : R) : R := if fgt x zero then neg dgXinf else dgXinf

/-- digamma.F90:170-199: `-pi*cotan(pi*x)`, `none` for the jump to 410.  `piov4` is the constant of
line 110, kept as an argument. -/
def dgAug (piov4 x : R) : Option R :=
  let sgn := if flt x zero then piov4 else neg piov4
  let w := fabs x
  let w := w -. ofInt (trunc w)
  let nq := trunc (w *. lit 4 0)
  let w := lit 4 0 *. (w -. ofInt nq *. lit 25 (-2))
  let n := nq / 2
  let w := if n + n ≠ nq then one -. w else w
  let z := piov4 *. w
  let sgn := if n % 2 ≠ 0 then neg sgn else sgn
  let n := (nq + 1) / 2
  if n % 2 = 0 then
    if feq z zero then none else some (sgn *. (lit 4 0 /. tan z))
  else some (sgn *. (lit 4 0 *. tan z))

/-- digamma.F90:144-237 with the constant `piov4` as an argument -/
def digammaWith (piov4 xx : R) : R :=
  let w := fabs xx
  if fge (neg xx) dgXmax1 || flt w dgXmin1 then dgErr xx
  else if fge xx half then dgPos xx zero
  else if fle w dgXsmall then dgPos (one -. xx) (neg (one /. xx))
  else match dgAug piov4 xx with
    | none => dgErr xx
    | some aug => dgPos (one -. xx) aug

/-- digamma.F90:144-237 `digamma` -/
def digamma (xx : R) : R := digammaWith dgPiov4 xx

end Fz
