/-!
# Solver objects: creation, use, release

cvodes.F90:21-263 seen as a sequence of calls of the SUNDIALS library on the objects that `cvodes_service` points to.
What the calls compute is in `Model/Cvodes.lean`; here only which object is created, used or released when.
-/

namespace Fz

/-- a pointer component: never defined, null, or an object.  Objects are numbered in the order of creation.
(cvodes.F90:21-38) -/
inductive Ptr where
  | undef
  | null
  | addr (n : Nat)
  deriving DecidableEq

/-- what happens to objects (cvodes.F90:62-127) -/
inductive Ev where
  | create (n : Nat)
  | use (p : Ptr)
  | free (p : Ptr)
  deriving DecidableEq

/-- cvodes.F90:21-38 `cvodes_service`; `neq` and `ierr` left out -/
structure Service where
  vec : Ptr
  mem : Ptr
  ctx : Ptr
  mat : Ptr
  ls : Ptr
  sens : Nat
  yS : Ptr

/-- a local variable of this type, with its default initialization (cvodes.F90:33: only `sens`) -/
def Service.fresh : Service := ⟨.undef, .undef, .undef, .undef, .undef, 0, .undef⟩

/-- which of the finalizations of the Fortran standard (2018, 7.5.6.3) the compiler makes, besides that of local
variables at the end of a procedure: of the left-hand side of an assignment before it is defined, and of the result
of a function after the statement that contains the reference
(`final`: cvodes.F90:36; the statements concerned: cvodes.F90:144, 183, 237) -/
structure Policy where
  lhs : Bool
  result : Bool

/-- all of them, as the standard demands (cvodes.F90:144, 183, 237) -/
def Policy.standard : Policy := ⟨true, true⟩

/-- neither of them, as gfortran before version 13 (cvodes.F90:144, 183, 237) -/
def Policy.old : Policy := ⟨false, false⟩

/-- how `new_cvodes_service` ends: normally, or at one of its three `stop` statements (cvodes.F90:69, 82, 88) -/
inductive Setup where
  | ok
  | noVector
  | noMemory
  | initError
  deriving DecidableEq

/-- what `new_cvodes_service` does before it stops; `k` objects exist already (cvodes.F90:62-89) -/
def stopEvents (k : Nat) : Setup → List Ev
  | .ok => []
  | .noVector => [.create k, .use (.addr k)]
  | .noMemory => [.create k, .use (.addr k), .create (k + 1), .use (.addr k), .create (k + 2), .use (.addr (k + 1)),
      .use (.addr (k + 2)), .use (.addr k), .create (k + 3), .use (.addr k)]
  | .initError => [.create k, .use (.addr k), .create (k + 1), .use (.addr k), .create (k + 2), .use (.addr (k + 1)),
      .use (.addr (k + 2)), .use (.addr k), .create (k + 3), .use (.addr k), .create (k + 4), .use (.addr (k + 4)),
      .use (.addr (k + 1))]

/-- cvodes.F90:51-112 `new_cvodes_service`; `k` objects exist already.  The vectors of sensitivities are one object. -/
def newService (k ns : Nat) : Service × List Ev :=
  let ctx := Ptr.addr k
  let vec := Ptr.addr (k + 1)
  let mat := Ptr.addr (k + 2)
  let ls := Ptr.addr (k + 3)
  let mem := Ptr.addr (k + 4)
  let yS := Ptr.addr (k + 5)
  let base : List Ev :=
    [.create k,                                               -- 62 FSUNContext_Create
     .use ctx, .create (k + 1),                               -- 66 FN_VMake_Serial
     .use ctx, .create (k + 2),                               -- 72 FSUNDenseMatrix
     .use vec, .use mat, .use ctx, .create (k + 3),           -- 75 FSUNLinSol_Dense
     .use ctx, .create (k + 4),                               -- 79 FCVodeCreate
     .use mem, .use vec,                                      -- 85 FCVodeInit
     .use mem,                                                -- 91 FCVodeSetUserData
     .use mem, .use ls, .use mat]                             -- 93 FCVodeSetLinearSolver
  if ns > 0 then
    (⟨vec, mem, ctx, mat, ls, ns, yS⟩,
      base ++ [.use vec, .create (k + 5)] ++                  -- 99 FN_VCloneVectorArray
        (List.replicate ns [.use yS, .use yS, .use yS]).flatten ++  -- 100-107
        [.use mem, .use yS])                                  -- 108 FCVodeSensInit
  else
    (⟨vec, mem, ctx, mat, ls, 0, .undef⟩, base)

/-- cvodes.F90:114-128 `free_cvodes_service`; `FCVodeFree` sets the pointer to null, and does nothing if it is null -/
def freeService (s : Service) : List Ev :=
  (if s.mem = .null then [] else [.free s.mem]) ++ [.free s.ls, .free s.mat, .free s.vec] ++
    (if s.sens > 0 then [.free s.yS] else []) ++ [.free s.ctx]

/-- `serv = new_cvodes_service(...)`, cvodes.F90:144, 183, 237: the pointers are copied; the copy made, the result of
the function may be finalized -/
def makeService (pol : Policy) (k ns : Nat) : Service × List Ev :=
  let (r, ev) := newService k ns
  (r, ev ++ (if pol.lhs then freeService .fresh else []) ++ (if pol.result then freeService r else []))

/-- the loop over the output times, cvodes.F90:149-156, 191-208, 245-262: one flag for every output time says whether
`FCVode` succeeds; otherwise the program stops.  `sens`: with sensitivities. -/
def outLoop (s : Service) (sens : Bool) (neq ns : Nat) : List Bool → List Ev × Bool
  | [] => ([], true)
  | ok :: l =>
    let call : List Ev := [.use s.mem, .use s.vec]
    if ok then
      let read : List Ev := if sens then
          [.use s.mem, .use s.yS] ++
            (List.replicate neq ((List.replicate ns [Ev.use s.yS, .use s.yS]).flatten ++ [.use s.vec])).flatten
        else []
      let (rest, done) := outLoop s sens neq ns l
      (call ++ read ++ rest, done)
    else (call, false)

/-- cvodes.F90:130-263 the three versions of `cvodes_sol`: what happens to objects, and whether the call returns
(`false`: the program stops because of an error flag; a program that stops finalizes nothing) -/
def solEvents (pol : Policy) (k : Nat) (sens : Bool) (neq ns : Nat) (setup : Setup) (flags : List Bool) :
    List Ev × Bool :=
  if setup = .ok then
    let (s, ev) := makeService pol k ns
    let opts : List Ev := (if sens then [.use s.mem] else []) ++ [.use s.mem]   -- 145; 185, 187; 239, 241
    let (loop, done) := outLoop s sens neq ns flags
    (ev ++ opts ++ loop ++ (if done then freeService s else []), done)
  else (stopEvents k setup, false)

end Fz
