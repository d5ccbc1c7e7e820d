import Verif.Model.Vari

/-!
# test.F90: the checks that the unit tests are made of

The output that a failing check writes before `stop` is left out.
-/

namespace Fz
variable {R : Type} [Arith R]

/-- how a check ends (the stop codes of test.F90:31, 43, 56, 71, 85, 96, 108, 121, 136) -/
inductive Check where
  | pass
  /-- `stop` with a code -/
  | stop (code : Nat)
  /-- an element outside an array is read -/
  | outside
  deriving DecidableEq, Repr

/-- one check after the other: the first that does not pass ends the program (the loops of test.F90:47-59, 61-75) -/
def Check.andThen : Check → (Unit → Check) → Check
  | .pass, k => k ()
  | c, _ => c

/-- test.F90:6 `ulp_f`.  Simplification: the decimal literal as it stands (a default real literal rounds to 2^-23) -/
def ulpF : R := Arith.lit 11920929 (-14)
/-- test.F90:7 `ulp_d`.  Simplification: the decimal literal as it stands (as a default real literal it loses digits) -/
def ulpD : R := Arith.lit 22204460492503131 (-32)

/-- test.F90:23-33 `expect_near_impl` -/
def expectNear (a b tol : R) : Check := if fge (Arith.fabs (a -. b)) tol then .stop 1 else .pass

/-- test.F90:35-45 `expect_float_eq_impl_0` -/
def expectFloatEq0 (a b : R) : Check :=
  if fge (Arith.fabs (a -. b)) (Arith.lit 4 0 *. ulpF) then .stop 5 else .pass

/-- test.F90:47-59 `expect_float_eq_impl_1`: `do i = 1, size(a)`, reading `b(i)` -/
def expectFloatEq1 : List R → List R → Check
  | [], _ => .pass
  | _ :: _, [] => .outside
  | a :: as, b :: bs =>
    if fge (Arith.fabs (a -. b)) (Arith.lit 4 0 *. ulpF) then .stop 5 else expectFloatEq1 as bs

/-- test.F90:61-75 `expect_float_eq_impl_2`: column by column -/
def expectFloatEq2 : List (List R) → List (List R) → Check
  | [], _ => .pass
  | [] :: as, [] => expectFloatEq2 as []
  | (_ :: _) :: _, [] => .outside
  | a :: as, b :: bs => (expectFloatEq1 a b).andThen fun _ => expectFloatEq2 as bs

/-- test.F90:77-87 `expect_eq_impl` -/
def expectEq (a b : Int) : Check := if ¬ a = b then .stop 3 else .pass

/-- test.F90:89-98 `expect_true_impl` -/
def expectTrue (a : Bool) : Check := if !a then .stop 4 else .pass

/-- test.F90:100-110 `expect_dbl_eq_impl_0` -/
def expectDblEq0 (a b : R) : Check :=
  if fge (Arith.fabs (a -. b)) (Arith.lit 4 0 *. ulpD) then .stop 5 else .pass

/-- test.F90:112-124 `expect_dbl_eq_impl_1` -/
def expectDblEq1 : List R → List R → Check
  | [], _ => .pass
  | _ :: _, [] => .outside
  | a :: as, b :: bs =>
    if fge (Arith.fabs (a -. b)) (Arith.lit 4 0 *. ulpD) then .stop 5 else expectDblEq1 as bs

/-- test.F90:126-140 `expect_dbl_eq_impl_2` -/
def expectDblEq2 : List (List R) → List (List R) → Check
  | [], _ => .pass
  | [] :: as, [] => expectDblEq2 as []
  | (_ :: _) :: _, [] => .outside
  | a :: as, b :: bs => (expectDblEq1 a b).andThen fun _ => expectDblEq2 as bs

end Fz
