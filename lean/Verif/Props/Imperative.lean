import Verif.Proof.Imperative
import Verif.Props.Algo
import Verif.Props.Storage

/-!
# C77: code written for reals, with variables that change

A function with an array of local variables that are changed by assignments, in loops and branches
(`Spec/Imperative.lean`), differentiated by writing `type(var)` for `real`.
-/

set_option linter.unusedSectionVars false

namespace Props
open Fz Spec

section reals
variable {W : Type} [Rep W ℝ] [LawfulRep W ℝ] {p : Proc}

theorem env_length {vs : List Var} {ys : List ℝ} {s s' : St W} (h : (vals vs : M W (List ℝ)) s = .ok (ys, s')) :
    ys.length = vs.length := by
  unfold vals at h
  exact mapM_length _ _ h

theorem proc_gradient (hn : p.body.NoReal) {env : List Var} {ys x : List ℝ} (hl : ys.length = env.length) :
    (gradient (p.scalarFn env) x : M W (ℝ × List ℝ)) = gradient ((p.algo (x ++ ys).length).scalarFn env) x := by
  refine gradient_congr fun xv hx => ?_
  have e : (x ++ ys).length = (xv ++ env).length := by simp [hx, hl]
  show (p.run (xv ++ env) >>= _ : M W Var) = ((p.algo (x ++ ys).length).run (xv ++ env) >>= _)
  rw [e, proc_run p hn]

theorem proc_jacobian (hn : p.body.NoReal) {env : List Var} {ys x : List ℝ} (hl : ys.length = env.length) (n : Nat) :
    (jacobian (p.vectorFn env) n x : M W _) = jacobian ((p.algo (x ++ ys).length).vectorFn env) n x := by
  refine jacobian_congr fun xv hx => ?_
  have e : (x ++ ys).length = (xv ++ env).length := by simp [hx, hl]
  show (p.run (xv ++ env) : M W _) = (p.algo (x ++ ys).length).run (xv ++ env)
  rw [e, proc_run p hn]

theorem sem_near (hn : p.body.NoReal) {x z ys : List ℝ} (hz : z.length = x.length) :
    (p.algo (x ++ ys).length).sem (z ++ ys) = p.sem (z ++ ys) := by
  rw [show (x ++ ys).length = (z ++ ys).length by simp [hz]]
  exact proc_sem p hn _

theorem grad_near {f g : List ℝ → ℝ} {x df : List ℝ} (h : IsGradAt f x df) (e : ∀ z, z.length = x.length → f z = g z) :
    IsGradAt g x df := by
  refine ⟨h.1, h.2.congr_of_eventuallyEq (Filter.Eventually.of_forall fun t => ?_)⟩
  exact (e _ (by simp)).symm

/-- **C77**: `gradient` of a function written for reals, with `type(var)` for `real`, returns the value that the
function has for reals and its partial derivatives: with any sequence of assignments of results of operations, of copies,
of loops and of decisions that do not change nearby.

Missing from the full property: functions that assign a real to a variable (`C77_refuted`). -/
theorem C77_gradient_partial {h : List (Call ℝ)} {c : Client W} (hr : Reach h c) {ys : List ℝ}
    (hys : vals c.env c.st = .ok (ys, c.st)) (x : List ℝ) (hn : p.body.NoReal) (hok : p.Ok (x ++ ys))
    (hst : p.body.Stable (x ++ ys)) (hk : p.outs ≠ [])
    (hroom : c.st.tape.head + (6 * x.length + p.body.cost (x ++ ys)) ≤ tapeLimit) {y : ℝ} {df : List ℝ} {s' : St W}
    (hrun : gradient (p.scalarFn c.env) x c.st = .ok ((y, df), s')) :
    y = (p.sem (x ++ ys)).getD 0 0 ∧ IsGradAt (fun z => (p.sem (z ++ ys)).getD 0 0) x df := by
  have hroom' : Room c.st ((p.algo (x ++ ys).length).path (x ++ ys)) x ys := by
    unfold Room
    rw [proc_cost p hn]
    exact hroom
  have ho := proc_ok p hn hok
  have hs := C67_stable hr hys x ho (proc_stable p hn hst) hroom'
  rw [proc_gradient hn (env_length hys)] at hrun
  obtain ⟨h1, h2⟩ := C67_gradient hr hys x ho hs (by rw [proc_sem p hn]; simpa [Proc.sem] using hk) hroom' hrun
  rw [proc_sem p hn] at h1
  exact ⟨h1, grad_near h2 fun z hz => by rw [sem_near hn hz]⟩

/-- **C77**: `jacobian` likewise. -/
theorem C77_jacobian_partial {h : List (Call ℝ)} {c : Client W} (hr : Reach h c) {ys : List ℝ}
    (hys : vals c.env c.st = .ok (ys, c.st)) (x : List ℝ) (n : Nat) (hn : p.body.NoReal) (hok : p.Ok (x ++ ys))
    (hst : p.body.Stable (x ++ ys)) (hroom : c.st.tape.head + (6 * x.length + p.body.cost (x ++ ys)) ≤ tapeLimit)
    {o : List ℝ} {rows : List (List ℝ)} {s' : St W}
    (hrun : jacobian (p.vectorFn c.env) n x c.st = .ok ((o, rows), s')) :
    n = p.outs.length ∧ o = p.sem (x ++ ys) ∧ rows.length = n ∧
      ∀ i (hi : i < rows.length), IsGradAt (fun z => (p.sem (z ++ ys)).getD i 0) x rows[i] := by
  have hroom' : Room c.st ((p.algo (x ++ ys).length).path (x ++ ys)) x ys := by
    unfold Room
    rw [proc_cost p hn]
    exact hroom
  have ho := proc_ok p hn hok
  have hs := C67_stable hr hys x ho (proc_stable p hn hst) hroom'
  rw [proc_jacobian hn (env_length hys)] at hrun
  obtain ⟨h1, h2, h3, h4⟩ := C67_jacobian hr hys x n ho hs hroom' hrun
  rw [proc_sem p hn] at h1 h2
  exact ⟨by simpa [Proc.sem] using h1, h2, h3, fun i hi => grad_near (h4 i hi) fun z hz => by rw [sem_near hn hz]⟩

/-- **C77**: from the start of the program the call of `gradient` completes, unless the tape is left exactly full
(C36). -/
theorem C77_completes_partial (x : List ℝ) (hn : p.body.NoReal) (hok : p.Ok x) (hst : p.body.Stable x) (hk : p.outs ≠ [])
    (hroom : 1 + (6 * x.length + p.body.cost x) ≤ tapeLimit) (h0 : 0 < 6 * x.length + p.body.cost x)
    (hfull : ∀ j, 6 * x.length + p.body.cost x ≠ 12288 * 2 ^ j) :
    ∃ df s', gradient (p.scalarFn []) x (St.init : St W) = .ok (((p.sem x).getD 0 0, df), s') ∧
      IsGradAt (fun z => (p.sem z).getD 0 0) x df := by
  have ho := proc_ok p hn hok
  rw [← proc_cost p hn] at hroom h0 hfull
  obtain ⟨df, s', e, -, h2⟩ := C67_gradient_completes (W := W) x ho
    (by rw [proc_sem p hn]; simpa [Proc.sem] using hk) hroom h0 hfull
  have e' := proc_gradient (W := W) hn (env := []) (ys := []) (x := x) rfl
  rw [List.append_nil] at e'
  rw [proc_sem p hn] at e
  refine ⟨df, s', by rw [e']; exact e, ?_⟩
  have hs : (p.algo x.length).Steady x [] :=
    C67_stable (W := W) (h := []) (c := Client.init) ⟨by simp, rfl⟩ (ys := []) rfl x (by rw [List.append_nil]; exact ho)
      (by rw [List.append_nil]; exact proc_stable p hn hst) (by
        unfold Room
        rw [List.append_nil]
        exact hroom)
  exact grad_near (h2 hs) fun z hz => by rw [← hz, proc_sem p hn]

/-! ## a real assigned to a variable -/

/-- `t = x; t = d; return x` -/
noncomputable def overwritten (d : ℝ) : Proc := ⟨.seq (.copy 1 0) (.real 1 d), [0]⟩

theorem overwritten_ok (a b d : ℝ) : (overwritten d).Ok [a, b] := by
  simp [overwritten, Proc.Ok, Stmt.Ok, Stmt.sem, move]

/-- for reals it returns its argument -/
theorem overwritten_sem (a b d : ℝ) : (overwritten d).sem [a, b] = [a] := by
  simp [overwritten, Proc.sem, Stmt.sem, move, look]

/-- **C77**: a real that is assigned to a copy of a variable is assigned to the variable too, and to all other copies: the
function `t = x; t = d; return x` returns its argument for reals; with variables it returns `d`, and the caller's variable
is changed as well. -/
theorem C77_refuted {h : List (Call ℝ)} {c : Client W} (hr : Reach h c) {v t : Var} (hv : v ∈ existing c.st) (d : ℝ) :
    ∃ (s' : St W) (w : View ℝ), (overwritten d).run [v, t] c.st = .ok ([v], s') ∧ seen c.st v = .ok w ∧
      seen s' v = .ok { w with val := d } ∧ (overwritten d).sem [w.val, 0] = [w.val] := by
  obtain ⟨s', e, -, ⟨w, h1, h2⟩, -⟩ := C13_assign hr hv d
  refine ⟨s', w, ?_, h1, h2, overwritten_sem _ _ _⟩
  show (((do (lookV [v, v] 1).assign d; pure [v, v]) : M W (List Var)) >>= fun v => pure ([0].map (lookV v))) c.st = _
  rw [bind_assoc']
  exact bind_ok e

/-! The hypotheses are met: by the product of any number of arguments up to 800, computed in a loop into a local variable;
and by `overwritten`, with a variable made at the start of the program. -/

/-- `p = var(1.0); do k = 1, n; p = p * x(k); end do; return p` -/
noncomputable def prodLoop (n : Nat) : Proc :=
  ⟨.seq (.declare (.const 1)) (.loop n fun k => .call [n] (.bin .mul n k)), [n]⟩

theorem prodLoop_step (x : List ℝ) (q : ℝ) {k : Nat} (hk : k < x.length) :
    (Stmt.call [x.length] (.bin .mul x.length k)).sem (x ++ [q]) = x ++ [q * look x k] := by
  have e : look (x ++ [q]) k = look x k := by
    unfold look
    simp [List.getD_eq_getElem?_getD, List.getElem?_append_left hk]
  have e' : look (x ++ [q]) x.length = q := by simp [look, List.getD_eq_getElem?_getD]
  simp only [Stmt.sem, Instr.sem, e, e', writeAt, Bin.fn]
  simp

theorem prodLoop_loop (x : List ℝ) : ∀ k ≤ x.length,
    (Stmt.loop k fun k => .call [x.length] (.bin .mul x.length k)).sem (x ++ [1]) = x ++ [(x.take k).prod] ∧
    (Stmt.loop k fun k => .call [x.length] (.bin .mul x.length k)).Ok (x ++ [1]) ∧
    (Stmt.loop k fun k => .call [x.length] (.bin .mul x.length k)).Stable (x ++ [1]) ∧
    (Stmt.loop k fun k => .call [x.length] (.bin .mul x.length k)).NoReal ∧
    (Stmt.loop k fun k => .call [x.length] (.bin .mul x.length k)).cost (x ++ [1]) = 8 * k
  | 0, _ => ⟨by simp [Stmt.loop, Stmt.sem], trivial, trivial, trivial, rfl⟩
  | k + 1, hk => by
    obtain ⟨h1, h2, h3, h4, h5⟩ := prodLoop_loop x k (by omega)
    have hk' : k < x.length := by omega
    refine ⟨?_, ⟨h2, ?_⟩, ⟨h3, trivial⟩, ⟨h4, trivial⟩, ?_⟩
    · simp only [Stmt.loop]
      show (Stmt.call [x.length] (.bin .mul x.length k)).sem _ = _
      rw [h1, prodLoop_step x _ hk', List.prod_take_succ x k hk']
      simp [look, List.getD_eq_getElem?_getD, hk']
    · rw [h1]
      refine ⟨⟨?_, ?_, ?_⟩, ?_, rfl⟩
      · simp
      · simp; omega
      · trivial
      · simp
    · simp only [Stmt.loop, Stmt.cost, h5, Instr.cost]
      omega

/-- the gradient of a product computed in a loop, for any number of arguments -/
theorem prodLoop_gradient (x : List ℝ) (h0 : x ≠ []) (hl : x.length ≤ 800) :
    ∃ df s', gradient ((prodLoop x.length).scalarFn []) x (St.init : St W) = .ok ((x.prod, df), s') ∧
      IsGradAt (fun z => ((prodLoop x.length).sem z).getD 0 0) x df := by
  obtain ⟨h1, h2, h3, h4, h5⟩ := prodLoop_loop x x.length le_rfl
  have hsem : (prodLoop x.length).body.sem x = x ++ [x.prod] := by
    rw [List.take_length] at h1
    exact h1
  have hc : (prodLoop x.length).body.cost x = 6 + 8 * x.length := by
    show (Instr.const 1).cost x + Stmt.cost _ (x ++ [1]) = _
    rw [h5]
    rfl
  have hv : ((prodLoop x.length).sem x).getD 0 0 = x.prod := by
    simp only [Proc.sem, hsem]
    simp [look, prodLoop, List.getD_eq_getElem?_getD]
  have := C77_completes_partial (W := W) (p := prodLoop x.length) x ⟨trivial, h4⟩
    ⟨⟨trivial, h2⟩, by rw [hsem]; simp [prodLoop]⟩ ⟨trivial, h3⟩ (by simp [prodLoop])
    (by rw [hc]; have : 12000 ≤ tapeLimit := by decide
        omega) (by omega)
    (fun j => by
      rw [hc]
      have := Nat.one_le_two_pow (n := j)
      omega)
  rwa [hv] at this

/-- the other hypotheses of `C77_gradient_partial` and `C77_jacobian_partial` at the start of the program -/
example : Reach ([] : List (Call ℝ)) (Client.init : Client W) ∧
    (vals (Client.init : Client W).env : M W (List ℝ)) (Client.init : Client W).st = .ok ([], (Client.init : Client W).st) :=
  ⟨⟨by simp, rfl⟩, rfl⟩

/-- of `C77_refuted`: a variable with value 2, to which 5 is assigned -/
example : ∃ c : Client ℝ, Reach demo c ∧ (⟨1⟩ : Var) ∈ existing c.st ∧
    ∃ (s' : St ℝ) (w : View ℝ), (overwritten 5).run [⟨1⟩, ⟨2⟩] c.st = .ok ([⟨1⟩], s') ∧ seen c.st ⟨1⟩ = .ok w ∧
      seen s' ⟨1⟩ = .ok { w with val := 5 } := by
  obtain ⟨c, c', hr, hx, hh, he, he'⟩ := demo_next
  have hv : (⟨1⟩ : Var) ∈ existing c.st := by simp [he]
  obtain ⟨s', w, h1, h2, h3, -⟩ := C77_refuted hr (t := ⟨2⟩) hv 5
  exact ⟨c, hr, hv, s', w, h1, h2, h3⟩

end reals
end Props
