import Verif.Spec.LenientOde
import Verif.Spec.Algo
import Verif.Spec.Orderly

/-!
# Functions that solve differential equations on the way

A user's function may call `cvodes_sol` any number of times, between other operations, on initial values or
parameters that it has computed, may look at values and go on as they tell, and may be differentiated by `gradient` or
`jacobian`.
-/

namespace Spec
open Fz Arith

/-- an initial value problem: the solver, initial time and output times, the right-hand side on numbers and on
variables, the number of words of the tape that the variables of one call of the right-hand side may take; and, not part
of the program, what is to be solved for: for every output time the state as a function of the initial values or of the
parameters -/
structure Ivp (σ : Type) where
  sv : Solver ℝ σ
  t0 : ℝ
  ts : List ℝ
  f : ℝ → List ℝ → List ℝ
  p : ℝ → Prog
  words : Nat
  sol : List (List ℝ → List ℝ)

/-- a function: as `Prog`, and solutions of differential equations; results are referred to by index, a solution appends
its components, output time by output time -/
inductive Flow (σ : Type) where
  | ret (outs : List Nat)
  | op (i : Instr) (k : Flow σ)
  | ifVV (o : Rel) (i j : Nat) (p q : Flow σ)
  | ifVD (o : Rel) (i : Nat) (d : ℝ) (p q : Flow σ)
  /-- look at the value of a result (`x%val()`) and go on as it tells -/
  | look (i : Nat) (k : ℝ → Flow σ)
  /-- `cvodes_sol` with the results `is` as initial values -/
  | init (e : Ivp σ) (is : List Nat) (k : Flow σ)
  /-- `cvodes_sol` with the initial values `y` and the results `is` as parameters -/
  | par (e : Ivp σ) (y : List ℝ) (is : List Nat) (k : Flow σ)

variable {σ : Type}

/-- the states at all output times, one after the other -/
def Ivp.states (e : Ivp σ) (z : List ℝ) : List ℝ := e.sol.flatMap fun φ => φ z

open Classical in
/-- what the function means: the solver does not appear -/
noncomputable def Flow.sem : Flow σ → List ℝ → List ℝ
  | .ret outs, xs => outs.map (Spec.look xs)
  | .op i k, xs => k.sem (xs ++ i.sem xs)
  | .ifVV o i j p q, xs => if o.holds (Spec.look xs i) (Spec.look xs j) then p.sem xs else q.sem xs
  | .ifVD o i d p q, xs => if o.holds (Spec.look xs i) d then p.sem xs else q.sem xs
  | .look i k, xs => (k (Spec.look xs i)).sem xs
  | .init e is k, xs => k.sem (xs ++ e.states (is.map (Spec.look xs)))
  | .par e _ is k, xs => k.sem (xs ++ e.states (is.map (Spec.look xs)))

section
variable {W : Type} [Rep W ℝ]

/-- the function on variables -/
noncomputable def Flow.runL (J : Junk W ℝ) : Flow σ → List Var → M W (List Var)
  | .ret outs, env => pure (outs.map (lookV env))
  | .op i k, env => do
    let vs ← i.run env
    k.runL J (env ++ vs)
  | .ifVV o i j p q, env => do
    if ← relVV (R := ℝ) o.op (lookV env i) (lookV env j) then p.runL J env else q.runL J env
  | .ifVD o i d p q, env => do
    if ← relVD o.op (lookV env i) d then p.runL J env else q.runL J env
  | .look i k, env => do
    let v ← (lookV env i).val
    (k v).runL J env
  | .init e is k, env => do
    let yt ← cvodesSolY0L J e.sv e.t0 (is.map (lookV env)) e.ts e.f (odeY e.p [])
    k.runL J (env ++ yt.flatten)
  | .par e y is k, env => do
    let r ← cvodesSolParL J e.sv e.t0 y e.ts (is.map (lookV env)) e.f (odeP e.p [])
    k.runL J (env ++ r.1.flatten)

/-- as `gradient` wants it; `env` are variables of the caller -/
noncomputable def Flow.scalarL (J : Junk W ℝ) (fl : Flow σ) (env : List Var) : List Var → M W Var := fun xv => do
  let outs ← fl.runL J (xv ++ env)
  pure (lookV outs 0)

/-- as `jacobian` wants it -/
noncomputable def Flow.vectorL (J : Junk W ℝ) (fl : Flow σ) (env : List Var) : List Var → Nat → M W (List Var) :=
  fun xv _ => fl.runL J (xv ++ env)

end

/-- The solver is right at `z`, at all output times: if its questions are answered correctly it returns the flag 0, the
`n` components of the solution at `z`, and the derivatives of every component with respect to `z`. -/
def Right (pr : Problem) (sv : Solver ℝ σ) (n : Nat) (z : List ℝ) : List ℝ → σ → List (List ℝ → List ℝ) → Prop
  | [], _, [] => True
  | t :: ts, m, φ :: φs =>
      (∀ r, Solves pr (sv.step m t) r → r.1 = 0 ∧ r.2.1 = φ z ∧ r.2.2.1.length = z.length ∧
        (∀ v ∈ r.2.2.1, v.length = n) ∧
        ∀ i < n, IsGradAt (fun w => (φ w).getD i 0) z (r.2.2.1.map fun v => v.getD i 0)) ∧
      ∀ y yS m', Solves pr (sv.step m t) (0, y, yS, m') → Right pr sv n z ts m' φs
  | _, _, _ => False

/-- The initial value problem `pr` can be solved at `z` for `n` unknowns, from a tape of `hd` words: there is room; the
right-hand side, with the parameters `q`, is differentiable at all points the solver asks about; the solver is right. -/
def Ivp.Ok (e : Ivp σ) (pr : Problem) (q : List ℝ) (n : Nat) (z : List ℝ) (m : σ) (hd : Nat) : Prop :=
  (∀ u, (e.p u).Mild) ∧ hd + e.ts.length * (n * (6 + 3 * z.length)) + e.words ≤ tapeLimit ∧
  AsksAll pr e.sv (CallableL e.p q n z.length e.words hd e.ts.length) e.ts m ∧ Right pr e.sv n z e.ts m e.sol ∧
  ∀ φ ∈ e.sol, ∀ w, w.length = z.length → (φ w).length = n

/-- Small changes do not matter at `xs`: what the function does if it sees a value near `a` instead of `a` means the same
near `xs`. -/
def Steadily (k : ℝ → Flow σ) (a : ℝ) (xs : List ℝ) : Prop :=
  ∃ δ > 0, ∀ b, |b - a| < δ → ∀ zs : List ℝ, zs.length = xs.length → (∀ j, |look zs j - look xs j| < δ) →
    (k b).sem zs = (k a).sem zs

/-- The function can be differentiated at `xs`, from a tape of `hd` words: every instruction can, as in `Prog.Ok`; no
comparison is between equal numbers; small changes of a value that is looked at do not change what the function does next;
every problem can be solved; there is room, and the tape is not exactly full at the end (C36). -/
def Flow.Ok : Flow σ → Nat → List ℝ → Prop
  | .ret outs, hd, xs => (∀ i ∈ outs, i < xs.length) ∧ ∀ j, hd ≠ 12288 * 2 ^ j + 1
  | .op i k, hd, xs => i.Mild ∧ i.Ok xs ∧ hd + i.cost xs ≤ tapeLimit ∧ k.Ok (hd + i.cost xs) (xs ++ i.sem xs)
  | .ifVV o i j p q, hd, xs => i < xs.length ∧ j < xs.length ∧ Spec.look xs i ≠ Spec.look xs j ∧
      (o.holds (Spec.look xs i) (Spec.look xs j) → p.Ok hd xs) ∧ (¬ o.holds (Spec.look xs i) (Spec.look xs j) → q.Ok hd xs)
  | .ifVD o i d p q, hd, xs => i < xs.length ∧ Spec.look xs i ≠ d ∧
      (o.holds (Spec.look xs i) d → p.Ok hd xs) ∧ (¬ o.holds (Spec.look xs i) d → q.Ok hd xs)
  | .look i k, hd, xs => i < xs.length ∧ Steadily k (Spec.look xs i) xs ∧ (k (Spec.look xs i)).Ok hd xs
  | .init e is k, hd, xs => (∀ i ∈ is, i < xs.length) ∧ 0 < is.length ∧
      e.Ok (initProblem e.f e.p) [] is.length (is.map (Spec.look xs))
        (e.sv.init e.t0 (is.map (Spec.look xs)) (unitVectors is.length)) hd ∧
      k.Ok (hd + e.ts.length * (is.length * (6 + 3 * is.length))) (xs ++ e.states (is.map (Spec.look xs)))
  | .par e y is k, hd, xs => (∀ i ∈ is, i < xs.length) ∧ is.length = 3 ∧
      e.Ok (paramProblem e.f e.p (is.map (Spec.look xs))) (is.map (Spec.look xs)) y.length (is.map (Spec.look xs))
        (e.sv.init e.t0 y (List.replicate 3 (List.replicate y.length 0))) hd ∧
      k.Ok (hd + e.ts.length * (y.length * (6 + 3 * 3))) (xs ++ e.states (is.map (Spec.look xs)))

/-- a program as such a function -/
def Prog.flow : Prog → Flow σ
  | .ret outs => .ret outs
  | .op i k => .op i k.flow
  | .ifVV o i j p q => .ifVV o i j p.flow q.flow
  | .ifVD o i d p q => .ifVD o i d p.flow q.flow

/-- so is a function that looks at values (`Spec/Algo.lean`) -/
def Algo.flow : Algo → Flow σ
  | .ret outs => .ret outs
  | .op i k => .op i k.flow
  | .look i k => .look i fun v => (k v).flow

/-! ## histories -/

section
variable {W : Type} [Rep W ℝ]

/-- a correct call of `gradient` or `jacobian` of such a function at `x`, where the variables `is` of the caller have the
values `ys`; the right-hand sides are differentiated in a second nested region -/
def Flow.ProperL (c : Client W) (is : List Nat) (ys x : List ℝ) (fl : Flow σ) : Prop :=
  c.marks.length < 9 ∧ (∀ i ∈ is, i < c.env.length) ∧
  (vals (is.map (nth c.env)) : M W (List ℝ)) c.st = .ok (ys, c.st) ∧ c.st.tape.head + 6 * x.length ≤ tapeLimit ∧
  fl.Ok (c.st.tape.head + 6 * x.length) (x ++ ys) ∧ fl.sem (x ++ ys) ≠ []

/-- the same for functions that look at values; what is carried out at the point has room, and the tape is not left
exactly full -/
def Algo.ProperL (c : Client W) (is : List Nat) (ys x : List ℝ) (a : Algo) : Prop :=
  c.marks.length < 9 ∧ (∀ i ∈ is, i < c.env.length) ∧
  (vals (is.map (nth c.env)) : M W (List ℝ)) c.st = .ok (ys, c.st) ∧ (a.path (x ++ ys)).Mild ∧ a.Ok (x ++ ys) ∧
  a.sem (x ++ ys) ≠ [] ∧ c.st.tape.head + (6 * x.length + (a.path (x ++ ys)).cost (x ++ ys)) ≤ tapeLimit ∧
  ∀ j, c.st.tape.head + (6 * x.length + (a.path (x ++ ys)).cost (x ++ ys)) ≠ 12288 * 2 ^ j + 1

/-- a correct call of `cvodes_sol` on the initial values `is`, which are `z` -/
def Ivp.ProperY (c : Client W) (is : List Nat) (z : List ℝ) (e : Ivp σ) : Prop :=
  c.marks.length < 10 ∧ (∀ i ∈ is, i < c.env.length) ∧ 0 < is.length ∧
  (vals (is.map (nth c.env)) : M W (List ℝ)) c.st = .ok (z, c.st) ∧ (∀ u, (e.p u).Mild) ∧
  c.st.tape.head + e.ts.length * (is.length * (6 + 3 * is.length)) + e.words ≤ tapeLimit ∧
  AsksAll (initProblem e.f e.p) e.sv (CallableL e.p [] is.length is.length e.words c.st.tape.head e.ts.length) e.ts
    (e.sv.init e.t0 z (unitVectors is.length)) ∧
  Succeeds (initProblem e.f e.p) e.sv is.length is.length e.ts (e.sv.init e.t0 z (unitVectors is.length))

/-- a correct call of `cvodes_sol` from `y` with the three parameters `is`, which are `z` -/
def Ivp.ProperP (c : Client W) (y : List ℝ) (is : List Nat) (z : List ℝ) (e : Ivp σ) : Prop :=
  c.marks.length < 10 ∧ (∀ i ∈ is, i < c.env.length) ∧ is.length = 3 ∧
  (vals (is.map (nth c.env)) : M W (List ℝ)) c.st = .ok (z, c.st) ∧ (∀ u, (e.p u).Mild) ∧
  c.st.tape.head + e.ts.length * (y.length * (6 + 3 * 3)) + e.words ≤ tapeLimit ∧
  AsksAll (paramProblem e.f e.p z) e.sv (CallableL e.p z y.length 3 e.words c.st.tape.head e.ts.length) e.ts
    (e.sv.init e.t0 y (List.replicate 3 (List.replicate y.length 0))) ∧
  Succeeds (paramProblem e.f e.p z) e.sv y.length 3 e.ts (e.sv.init e.t0 y (List.replicate 3 (List.replicate y.length 0)))

/-- as `OrderlyL`, in real arithmetic: the functions of `Spec/Deep.lean` with inner calls at any depth, and the
differential equations and functions of this file, besides -/
inductive OrderlyS : Client W → Prop where
  | start : OrderlyS Client.init
  | call {c c' : Client W} (J : Junk W ℝ) (k : Call ℝ) (h : OrderlyS c) (hk : k.ProperL c) (e : k.execL J c = .ok c') :
      OrderlyS c'
  | ask {c : Client W} {s : St W} (J : Junk W ℝ) (q : Ask ℝ) (is : List Nat) (ys : List ℝ) (r : Answer ℝ)
      (h : OrderlyS c) (hq : q.ProperL c is ys) (e : q.callL J (is.map (nth c.env)) c.st = .ok (r, s)) :
      OrderlyS ⟨s, c.env, c.marks⟩
  | init {τ : Type} {c : Client W} {s : St W} (J : Junk W ℝ) (i : Ivp τ) (is : List Nat) (z : List ℝ) (yt : List (List Var))
      (h : OrderlyS c) (hi : i.ProperY c is z)
      (e : cvodesSolY0L J i.sv i.t0 (is.map (nth c.env)) i.ts i.f (odeY i.p []) c.st = .ok (yt, s)) :
      OrderlyS ⟨s, c.env ++ yt.flatten, c.marks⟩
  | par {τ : Type} {c : Client W} {s : St W} (J : Junk W ℝ) (i : Ivp τ) (y : List ℝ) (is : List Nat) (z : List ℝ)
      (r : List (List Var) × List ℝ) (h : OrderlyS c) (hi : i.ProperP c y is z)
      (e : cvodesSolParL J i.sv i.t0 y i.ts (is.map (nth c.env)) i.f (odeP i.p []) c.st = .ok (r, s)) :
      OrderlyS ⟨s, c.env ++ r.1.flatten, c.marks⟩
  | gradient {τ : Type} {c : Client W} {s : St W} (J : Junk W ℝ) (fl : Flow τ) (is : List Nat) (ys x : List ℝ)
      (r : ℝ × List ℝ) (h : OrderlyS c) (hf : fl.ProperL c is ys x)
      (e : gradientL J (fl.scalarL J (is.map (nth c.env))) x c.st = .ok (r, s)) : OrderlyS ⟨s, c.env, c.marks⟩
  | jacobian {τ : Type} {c : Client W} {s : St W} (J : Junk W ℝ) (fl : Flow τ) (is : List Nat) (ys x : List ℝ)
      (r : List ℝ × List (List ℝ)) (h : OrderlyS c) (hf : fl.ProperL c is ys x)
      (e : jacobianL J (fl.vectorL J (is.map (nth c.env))) (fl.sem (x ++ ys)).length x c.st = .ok (r, s)) :
      OrderlyS ⟨s, c.env, c.marks⟩
  | odeY {τ : Type} {c : Client W} {s : St W} (J : Junk W ℝ) (p : Ode ℝ τ) (is es : List Nat) (z ys : List ℝ)
      (yt : List (List Var)) (h : OrderlyS c) (hp : p.ProperY c is es z ys)
      (e : p.callY J (is.map (nth c.env)) (es.map (nth c.env)) c.st = .ok (yt, s)) :
      OrderlyS ⟨s, c.env ++ yt.flatten, c.marks⟩
  | odeP {τ : Type} {c : Client W} {s : St W} (J : Junk W ℝ) (p : Ode ℝ τ) (y : List ℝ) (is es : List Nat)
      (q ys : List ℝ) (r : List (List Var) × List ℝ) (h : OrderlyS c) (hp : p.ProperP c y is es q ys)
      (e : p.callP J y (is.map (nth c.env)) (es.map (nth c.env)) c.st = .ok (r, s)) :
      OrderlyS ⟨s, c.env ++ r.1.flatten, c.marks⟩
  | planGradient {c : Client W} {s : St W} (J : Junk W ℝ) (f : Plan ℝ) (is : List Nat) (ys x : List ℝ) (r : ℝ × List ℝ)
      (h : OrderlyS c) (hf : f.ProperL c is ys x) (ha : f.Apart) (hk : f.Careful) (hr : f.bookGradient ys x ≠ none)
      (e : gradientL J (f.scalarL J (is.map (nth c.env))) x c.st = .ok (r, s)) : OrderlyS ⟨s, c.env, c.marks⟩
  | planJacobian {c : Client W} {s : St W} (J : Junk W ℝ) (f : Plan ℝ) (is : List Nat) (ys x : List ℝ)
      (r : List ℝ × List (List ℝ)) (h : OrderlyS c) (hf : f.ProperL c is ys x) (hk : f.Careful) (hx : x ++ ys ≠ [])
      (e : jacobianL J (f.vectorL J (is.map (nth c.env))) (f.bookJacobian ys x).1.length x c.st = .ok (r, s)) :
      OrderlyS ⟨s, c.env, c.marks⟩
  | deepGradient {c : Client W} {s : St W} (J : Junk W ℝ) (f : Deep ℝ) (is : List Nat) (ys x : List ℝ) (r : ℝ × List ℝ)
      (h : OrderlyS c) (hf : f.ProperL c is ys x) (ha : f.Apart True) (hk : f.Careful True)
      (hr : f.bookGradient ys x ≠ none)
      (e : gradientL J (f.scalarL J (is.map (nth c.env))) x c.st = .ok (r, s)) : OrderlyS ⟨s, c.env, c.marks⟩
  | deepJacobian {c : Client W} {s : St W} (J : Junk W ℝ) (f : Deep ℝ) (is : List Nat) (ys x : List ℝ)
      (r : List ℝ × List (List ℝ)) (h : OrderlyS c) (hf : f.ProperL c is ys x) (hk : f.Careful True)
      (hx : x ++ ys ≠ [])
      (e : jacobianL J (f.vectorL J (is.map (nth c.env))) (f.bookJacobian ys x).1.length x c.st = .ok (r, s)) :
      OrderlyS ⟨s, c.env, c.marks⟩

end

end Spec
