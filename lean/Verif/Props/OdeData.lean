import Verif.Props.OdeArgs

/-!
# C27, C58: `cvodes_sol` without variables

The calls that complete are exactly those in which the solver reports success at every output time without asking for
sensitivities (none are set up).  `example/ode/data.F90` is such a call.
-/

namespace Props
open Fz Spec

variable {W : Type} [Rep W ℝ] [LawfulRep W ℝ] {σ : Type}

theorem data_answer {f : ℝ → List ℝ → List ℝ} {call : Solving ℝ σ} {r : Int × List ℝ × List (List ℝ) × σ}
    (h : Solves ⟨f, fun _ _ _ _ => False⟩ call r) (s : St W) : answer (newCvsRhs f) call s = .ok (r, s) := by
  induction h with
  | done => rfl
  | rhs _ ih => exact ih
  | sens h => exact h.elim

theorem data_loop_ok {sv : Solver ℝ σ} {f : ℝ → List ℝ → List ℝ} {ts : List ℝ} {mem : σ}
    {sol : List (List ℝ × List (List ℝ))} (h : SolvesAll ⟨f, fun _ _ _ _ => False⟩ sv ts mem sol) :
    ∀ (y : List ℝ) (s : St W), dataLoop sv (newCvsRhs f) ts mem y s =
      .ok ((sol.map Prod.fst, (sol.map Prod.fst).getLastD y), s) := by
  induction h with
  | nil => intro y s; rfl
  | cons h1 _ ih =>
    intro y s
    unfold dataLoop
    rw [bind_ok (data_answer h1 s)]
    simp only [ne_eq, not_true_eq_false, if_false]
    rw [bind_ok (ih _ s), List.map_cons, List.getLastD_cons]
    rfl

/-- **C27**, without variables: in every state, for every solver, right-hand side and list of output times, the call
completes exactly if the solver succeeds at all output times, and then returns its solutions. -/
theorem C27_data_completes (sv : Solver ℝ σ) (f : ℝ → List ℝ → List ℝ) (t0 : ℝ) (y ts : List ℝ) (s : St W)
    (l : List (List ℝ)) :
    (∃ y1 s', cvodesSolData sv t0 y ts f s = .ok ((l, y1), s')) ↔
      ∃ sol, SolvesAll ⟨f, fun _ _ _ _ => False⟩ sv ts (sv.init t0 y []) sol ∧ l = sol.map Prod.fst := by
  refine ⟨fun ⟨y1, s', e⟩ => (C27_data sv f t0 y ts e).2, ?_⟩
  rintro ⟨sol, h, rfl⟩
  exact ⟨_, _, data_loop_ok h y s⟩

/-! ## example/ode/data.F90 -/

/-- example/ode/data.F90:7, 11-16: `params = [0.2, 0.1]`, `fy(1) = y(2)`, `fy(2) = t * y(1) * sum(params)`, for two
components (as in line 27); the other equation is not used -/
noncomputable def dataRhs (t : ℝ) : List ℝ → List ℝ
  | [y1, y2] => [y2, Arith.mul (Arith.mul t y1) (fsum [Arith.lit 2 (-1), Arith.lit 1 (-1)])]
  | y => y

/-- the solver is told `(y2, 3/10 t y1)`, that is `y1'' = 3/10 t y1`, whenever it asks about two components -/
structure Airy (f : ℝ → List ℝ → List ℝ) : Prop where
  eq : ∀ t y1 y2, f t [y1, y2] = [y2, 3 / 10 * t * y1]

/-- **C58**, the example with an ODE without variables: the right-hand side is that of `y1'' = 3/10 t y1`, and in every
state, for all initial values and output times and every solver that succeeds with it, the call completes, returns the
solver's solutions at the output times in their order and changes nothing on the tape. -/
theorem C58_data (sv : Solver ℝ σ) (t0 y1 y2 : ℝ) (ts : List ℝ) (s : St W) :
    Airy dataRhs ∧
    (∀ sol, SolvesAll ⟨dataRhs, fun _ _ _ _ => False⟩ sv ts (sv.init t0 [y1, y2] []) sol →
      ∃ y', cvodesSolData sv t0 [y1, y2] ts dataRhs s = .ok ((sol.map Prod.fst, y'), s)) ∧
    ∀ l y' s', cvodesSolData sv t0 [y1, y2] ts dataRhs s = .ok ((l, y'), s') → s' = s ∧ l.length = ts.length := by
  refine ⟨⟨fun t y1 y2 => ?_⟩, fun sol h => ⟨_, data_loop_ok h _ s⟩, fun l y' s' e =>
    ⟨(C27_data sv dataRhs t0 _ ts e).1, (C50_data_partial sv dataRhs t0 _ ts e).1⟩⟩
  simp only [dataRhs, fsum, Arith.sumOf, List.sum_cons, List.sum_nil, Arith.mul, Arith.lit]
  norm_num
  ring

/-- the numbers of the example with the Euler method: `y(0) = (1.2, 1.8)`, output times 1, 2, 3 -/
example (s : St ℝ) : ∃ y', cvodesSolData euler0 0 [1.2, 1.8] [1, 2, 3] dataRhs s =
    .ok (([[3, 1.8], [4.8, 2.7], [7.5, 5.58]], y'), s) := by
  obtain ⟨h, h2, -⟩ := C58_data (W := ℝ) euler0 0 1.2 1.8 [1, 2, 3] s
  refine h2 [([3, 1.8], []), ([4.8, 2.7], []), ([7.5, 5.58], [])] (.cons (m' := (1, [3, 1.8])) (.rhs ?_)
    (.cons (m' := (2, [4.8, 2.7])) (.rhs ?_) (.cons (m' := (3, [7.5, 5.58])) (.rhs ?_) .nil)))
  all_goals
    simp only [euler0, h.eq]
    convert Solves.done using 3 <;> norm_num

end Props
