import Verif.Proof.Replay
import Verif.Spec.Drive

/-!
# Programs over the reals are user functions of the general kind
-/

set_option linter.unusedSectionVars false

namespace Spec
open Fz

/-- the unary function among all functions of one variable -/
def Un.toFn : Un → Fn
  | .pos => .pos | .neg => .neg | .abs => .abs | .sin => .sin | .cos => .cos | .tan => .tan | .asin => .asin
  | .acos => .acos | .atan => .atan | .sinh => .sinh | .cosh => .cosh | .tanh => .tanh | .asinh => .asinh
  | .acosh => .acosh | .atanh => .atanh | .sqrt => .sqrt | .inv => .inv | .square => .square
  | .invSqrt => .invSqrt | .exp => .exp | .log => .log | .logit => .logit | .invLogit => .invLogit
  | .erf => .erf | .erfc => .erfc

/-- read several values -/
def Code.lookAll {R : Type} : List Nat → (List R → Code R) → Code R
  | [], k => k []
  | i :: is, k => .look i fun x => lookAll is fun xs => k (x :: xs)

/-- an instruction, and then `k` -/
noncomputable def Instr.code : Instr → Code ℝ → Code ℝ
  | .const d, k => .make (.new d) k
  | .un f i, k => .make (.fn f.toFn i) k
  | .bin f i j, k => .make (.bin f i j) k
  | .binVD f i d, k => .make (.binVD f i d) k
  | .binDV f d i, k => .make (.binDV f d i) k
  | .sum is, k => .make (.sum is) k
  | .norm2 is, k => .make (.norm2 is) k
  | .logSumExp is, k => .make (.logSumExp is) k
  | .dotVV is js, k => .make (.dotVV is js) k
  | .dotVD is ds, k => .make (.dotVD is ds) k
  | .dotDV ds is, k => .make (.dotDV ds is) k
  | .matmulVV a b, k => .make (.matmulVV a b) k
  | .matmulVD a b, k => .make (.matmulVD a b) k
  | .matmulDV a b, k => .make (.matmulDV a b) k
  | .lpdfVV d ys m s, k => .make (.lpdfVV d ys m s) k
  | .lpdfVD d ys m s, k => .make (.lpdfVD d ys m s) k
  | .lpdfDV d ys m s, k => .make (.lpdfDV d ys m s) k
  | .partials φ dφ is, k => .lookAll is fun xs => .make (.partials (φ xs) is (dφ xs)) k
  | .user φ r is ds, k => .lookAll is fun xs => .make (.user (φ xs) r is ds) k

/-- the program as a user function -/
noncomputable def Prog.code : Prog → Code ℝ
  | .ret outs => .ret outs
  | .op i k => i.code k.code
  | .ifVV o i j p q => .look i fun x => .look j fun y => if o.op.cmp x y then p.code else q.code
  | .ifVD o i d p q => .look i fun x => if o.op.cmp x d then p.code else q.code

/-- the variables an instruction names -/
def Instr.names : Instr → List Nat
  | .const _ => []
  | .un _ i | .binVD _ i _ | .binDV _ _ i => [i]
  | .bin _ i j => [i, j]
  | .sum is | .norm2 is | .logSumExp is | .dotVD is _ | .dotDV _ is | .partials _ _ is
  | .user _ _ is _ => is
  | .dotVV is js => is ++ js
  | .matmulVV a b => a.list ++ b.list
  | .matmulVD a _ => a.list
  | .matmulDV _ b => b.list
  | .lpdfVV _ _ m s => [m, s]
  | .lpdfVD _ _ m _ => [m]
  | .lpdfDV _ _ _ s => [s]

/-- with `n` variables at the start, only variables are named that exist -/
def Prog.Scoped : Prog → Nat → Prop
  | .ret outs, n => ∀ i ∈ outs, i < n
  | .op i k, n => (∀ j ∈ i.names, j < n) ∧ k.Scoped (n + i.arity)
  | .ifVV _ i j p q, n => i < n ∧ j < n ∧ p.Scoped n ∧ q.Scoped n
  | .ifVD _ i _ p q, n => i < n ∧ p.Scoped n ∧ q.Scoped n

/-- `hypot` with a real zero is not used, and extents of arrays are default integers -/
def Instr.Sane : Instr → Prop
  | .binVD .hypot _ d => d ≠ 0
  | .binDV .hypot d _ => d ≠ 0
  | .matmulVV a b => a.nrow < 2 ^ 31 ∧ a.ncol < 2 ^ 31 ∧ b.nrow < 2 ^ 31 ∧ b.ncol < 2 ^ 31
  | .matmulVD a b => a.nrow < 2 ^ 31 ∧ a.ncol < 2 ^ 31 ∧ b.nrow < 2 ^ 31 ∧ b.ncol < 2 ^ 31
  | .matmulDV a b => a.nrow < 2 ^ 31 ∧ a.ncol < 2 ^ 31 ∧ b.nrow < 2 ^ 31 ∧ b.ncol < 2 ^ 31
  | _ => True

/-- the same for all instructions of a program -/
def Prog.Sane : Prog → Prop
  | .ret _ => True
  | .op i k => i.Sane ∧ k.Sane
  | .ifVV _ _ _ p q => p.Sane ∧ q.Sane
  | .ifVD _ _ _ p q => p.Sane ∧ q.Sane

/-- every path returns `n` outputs -/
def Prog.Outs : Prog → Nat → Prop
  | .ret outs, n => outs.length = n
  | .op _ k, n => k.Outs n
  | .ifVV _ _ _ p q, n => p.Outs n ∧ q.Outs n
  | .ifVD _ _ _ p q, n => p.Outs n ∧ q.Outs n

end Spec

namespace Fz
open Arith Spec

theorem lookAll_sane {R : Type} [Arith R] : ∀ {is : List Nat} {k : List R → Code R}, (∀ xs, (k xs).Sane) →
    (Code.lookAll is k).Sane := by
  intro is
  induction is with
  | nil => intro k h; exact h []
  | cons i is ih => intro k h x; exact ih fun xs => h (x :: xs)

theorem Prog.code_sane : ∀ {p : Prog}, p.Sane → p.code.Sane := by
  intro p
  induction p with
  | ret _ => intro _; trivial
  | op i k ih =>
    rintro ⟨h1, h2⟩
    have hz : ∀ d : ℝ, d ≠ 0 → fne d (Arith.zero : ℝ) = true := by
      intro d hd
      simpa [fne, Arith.feq, Arith.zero] using hd
    cases i with
    | partials φ dφ is => exact lookAll_sane fun xs => ⟨trivial, ih h2⟩
    | user φ r is ds => exact lookAll_sane fun xs => ⟨trivial, ih h2⟩
    | binVD f i d => cases f <;> first | exact ⟨trivial, ih h2⟩ | exact ⟨hz d h1, ih h2⟩
    | binDV f d i => cases f <;> first | exact ⟨trivial, ih h2⟩ | exact ⟨hz d h1, ih h2⟩
    | matmulVV a b => exact ⟨h1, ih h2⟩
    | matmulVD a b => exact ⟨h1, ih h2⟩
    | matmulDV a b => exact ⟨h1, ih h2⟩
    | _ => exact ⟨trivial, ih h2⟩
  | ifVV o i j p q ih1 ih2 =>
    rintro ⟨h1, h2⟩ x y
    dsimp only
    split
    · exact ih1 h1
    · exact ih2 h2
  | ifVD o i d p q ih1 ih2 =>
    rintro ⟨h1, h2⟩ x
    dsimp only
    split
    · exact ih1 h1
    · exact ih2 h2

variable {W : Type} [Rep W ℝ]

theorem bind_congr_ok {α β : Type} {m : M W α} {f g : α → M W β} {s : St W}
    (h : ∀ a t, m s = .ok (a, t) → f a t = g a t) : (m >>= f) s = (m >>= g) s := by
  cases e : m s with
  | error x => rw [bind_err e, bind_err e]
  | ok q => rw [bind_ok (a := q.1) (s' := q.2) e, bind_ok (a := q.1) (s' := q.2) e, h q.1 q.2 e]

theorem bind_assoc' {α β γ : Type} (m : M W α) (f : α → M W β) (g : β → M W γ) :
    ((m >>= f) >>= g) = m >>= fun x => f x >>= g := by
  funext s
  cases e : m s with
  | error x => rw [bind_err (bind_err e), bind_err e]
  | ok q =>
    rw [bind_ok (a := q.1) (s' := q.2) e]
    cases e2 : f q.1 q.2 with
    | error x => rw [bind_err ((bind_ok e).trans e2), bind_err e2]
    | ok q' => rw [bind_ok (a := q'.1) (s' := q'.2) ((bind_ok e).trans e2), bind_ok (a := q'.1) (s' := q'.2) e2]

theorem single_len {m : M W Var} {s s' : St W} {vs : List Var} (h : single m s = .ok (vs, s')) : vs.length = 1 := by
  unfold single at h
  obtain ⟨v, s1, -, h⟩ := bind_inv h
  cases h
  rfl

theorem matmulLoop_len {c : Chain} {la lb : Nat} {f : Nat → Nat → ℝ} : ∀ {ps : List (Nat × Nat)} {s s' : St W} {vs : List Var},
    (matmulLoop c la lb f ps : M W _) s = .ok (vs, s') → vs.length = ps.length := by
  intro ps
  induction ps with
  | nil => intro s s' vs h; cases h; rfl
  | cons p ps ih =>
    intro s s' vs h
    obtain ⟨i, j⟩ := p
    unfold matmulLoop at h
    obtain ⟨v, s1, -, h⟩ := bind_inv h
    obtain ⟨_, s2, -, h⟩ := bind_inv h
    obtain ⟨ws, s3, e, h⟩ := bind_inv h
    cases h
    simp [ih e]

theorem matPairs_len (m n : Nat) : (matPairs m n).length = m * n := by
  simp [matPairs, List.length_flatMap, Nat.mul_comm]

theorem instr_len {i : Instr} {env : List Var} {s s' : St W} {vs : List Var} (h : i.run env s = .ok (vs, s')) :
    vs.length = i.arity := by
  cases i with
  | matmulVV a b =>
    unfold Instr.run matmulVV at h
    obtain ⟨_, _, -, h⟩ := bind_inv h
    obtain ⟨_, _, -, h⟩ := bind_inv h
    obtain ⟨_, _, -, h⟩ := bind_inv h
    obtain ⟨_, _, -, h⟩ := bind_inv h
    split at h
    · rw [matmulLoop_len h, matPairs_len]; rfl
    · cases h
  | matmulVD a b =>
    unfold Instr.run matmulVD at h
    obtain ⟨_, _, -, h⟩ := bind_inv h
    obtain ⟨_, _, -, h⟩ := bind_inv h
    obtain ⟨_, _, -, h⟩ := bind_inv h
    split at h
    · rw [matmulLoop_len h, matPairs_len]; rfl
    · cases h
  | matmulDV a b =>
    unfold Instr.run matmulDV at h
    obtain ⟨_, _, -, h⟩ := bind_inv h
    obtain ⟨_, _, -, h⟩ := bind_inv h
    obtain ⟨_, _, -, h⟩ := bind_inv h
    split at h
    · rw [matmulLoop_len h, matPairs_len]; rfl
    · cases h
  | _ => exact single_len h

theorem lookAll_run : ∀ {is : List Nat} {k : List ℝ → Code ℝ} {env : List Var}, (∀ i ∈ is, i < env.length) →
    ((Code.lookAll is k).run env : M W _) = (vals (is.map (lookV env)) >>= fun xs => (k xs).run env) := by
  intro is
  induction is with
  | nil => intro k env _; rfl
  | cons i is ih =>
    intro k env hi
    show (if i < env.length then _ else _) = _
    rw [if_pos (hi i (by simp))]
    unfold vals
    rw [List.map_cons, List.mapM_cons, bind_assoc']
    congr 1
    funext x
    rw [ih fun j hj => hi j (by simp [hj]), bind_assoc']
    rfl

theorem instr_code {i : Instr} {k : Code ℝ} {env : List Var} (hi : ∀ j ∈ i.names, j < env.length) :
    ((i.code k).run env : M W _) = (i.run env >>= fun vs => k.run (env ++ vs)) := by
  have key : ∀ m : Make ℝ, m.args = i.names → (m.call env : M W _) = i.run env →
      ((Code.make m k).run env : M W _) = (i.run env >>= fun vs => k.run (env ++ vs)) := by
    intro m h1 h2
    show (if ∀ j ∈ m.args, j < env.length then _ else _) = _
    rw [if_pos (by rw [h1]; exact hi), h2]
  cases i with
  | partials φ dφ is =>
    show ((Code.lookAll is fun xs => Code.make (Make.partials (φ xs) is (dφ xs)) k).run env : M W _) = _
    rw [lookAll_run (is := is) hi]
    show _ = (((vals (is.map (lookV env)) >>= fun xs => varWithPartials (φ xs) (is.map (lookV env)) (dφ xs)) >>=
      fun v => pure [v]) >>= fun vs => k.run (env ++ vs) : M W _)
    rw [bind_assoc', bind_assoc']
    congr 1
    funext xs
    show (if ∀ j ∈ (Make.partials (φ xs) is (dφ xs) : Make ℝ).args, j < env.length then _ else _) = _
    rw [if_pos (show ∀ j ∈ (Make.partials (φ xs) is (dφ xs) : Make ℝ).args, j < env.length from hi)]
    show (single _ >>= _) = _
    unfold single
    rw [bind_assoc']
    rfl
  | user φ r is ds =>
    show ((Code.lookAll is fun xs => Code.make (Make.user (φ xs) r is ds) k).run env : M W _) = _
    rw [lookAll_run (is := is) hi]
    show _ = (((vals (is.map (lookV env)) >>= fun xs => userOp (φ xs) r (is.map (lookV env)) ds) >>=
      fun v => pure [v]) >>= fun vs => k.run (env ++ vs) : M W _)
    rw [bind_assoc', bind_assoc']
    congr 1
    funext xs
    show (if ∀ j ∈ (Make.user (φ xs) r is ds : Make ℝ).args, j < env.length then _ else _) = _
    rw [if_pos (show ∀ j ∈ (Make.user (φ xs) r is ds : Make ℝ).args, j < env.length from hi)]
    show (single _ >>= _) = _
    unfold single
    rw [bind_assoc']
    rfl
  | un f i => exact key _ rfl (by cases f <;> rfl)
  | bin f i j => exact key _ rfl (by cases f <;> rfl)
  | binVD f i d => exact key _ rfl (by cases f <;> rfl)
  | binDV f d i => exact key _ rfl (by cases f <;> rfl)
  | lpdfVV d ys m s => exact key _ rfl (by cases d <;> rfl)
  | lpdfVD d ys m s => exact key _ rfl (by cases d <;> rfl)
  | lpdfDV d ys m s => exact key _ rfl (by cases d <;> rfl)
  | _ => exact key _ rfl rfl

/-- the program and its code do the same -/
theorem Prog.code_run : ∀ {p : Prog} {env : List Var} (s : St W), p.Scoped env.length →
    (p.code.run env : M W _) s = p.run env s := by
  intro p
  induction p with
  | ret outs =>
    intro env s h
    show (if ∀ i ∈ outs, i < env.length then _ else _ : M W _) s = _
    rw [if_pos (show ∀ i ∈ outs, i < env.length from h)]
    rfl
  | op i k ih =>
    rintro env s ⟨h1, h2⟩
    show (i.code k.code).run env s = (i.run env >>= fun vs => k.run (env ++ vs)) s
    rw [instr_code h1]
    refine bind_congr_ok fun vs t e => ih t ?_
    rw [List.length_append, instr_len e]
    exact h2
  | ifVV o i j p q ih1 ih2 =>
    rintro env s ⟨h1, h2, h3, h4⟩
    show (if i < env.length then _ else _ : M W _) s = (relVV o.op (lookV env i) (lookV env j) >>= fun b => if b then p.run env else q.run env) s
    rw [if_pos h1]
    unfold relVV
    rw [bind_assoc']
    refine bind_congr_ok fun x t e => ?_
    show (if j < env.length then _ else _ : M W _) t = _
    rw [if_pos h2, bind_assoc']
    refine bind_congr_ok fun y t' e' => ?_
    show (if o.op.cmp x y = true then p.code else q.code).run env t' = (if o.op.cmp x y = true then p.run env else q.run env) t'
    split
    · exact ih1 t' h3
    · exact ih2 t' h4
  | ifVD o i d p q ih1 ih2 =>
    rintro env s ⟨h1, h3, h4⟩
    show (if i < env.length then _ else _ : M W _) s = (relVD o.op (lookV env i) d >>= fun b => if b then p.run env else q.run env) s
    rw [if_pos h1]
    unfold relVD
    rw [bind_assoc']
    refine bind_congr_ok fun x t e => ?_
    show (if o.op.cmp x d = true then p.code else q.code).run env t = (if o.op.cmp x d = true then p.run env else q.run env) t
    split
    · exact ih1 t h3
    · exact ih2 t h4

theorem Prog.run_len : ∀ {p : Prog} {n : Nat} {env outs : List Var} {s s' : St W}, p.Outs n →
    p.run env s = .ok (outs, s') → outs.length = n := by
  intro p
  induction p with
  | ret os => intro n env outs s s' h e; cases e; rw [List.length_map]; exact h
  | op i k ih =>
    intro n env outs s s' h e
    obtain ⟨vs, t, -, e⟩ := bind_inv (m := i.run env) (f := fun vs => k.run (env ++ vs)) e
    exact ih h e
  | ifVV o i j p q ih1 ih2 =>
    intro n env outs s s' h e
    obtain ⟨b, t, -, e⟩ := bind_inv (m := relVV (R := ℝ) o.op (lookV env i) (lookV env j))
      (f := fun b => if b then p.run env else q.run env) e
    split at e
    · exact ih1 h.1 e
    · exact ih2 h.2 e
  | ifVD o i d p q ih1 ih2 =>
    intro n env outs s s' h e
    obtain ⟨b, t, -, e⟩ := bind_inv (m := relVD o.op (lookV env i) d)
      (f := fun b => if b then p.run env else q.run env) e
    split at e
    · exact ih1 h.1 e
    · exact ih2 h.2 e

theorem Prog.code_entry {p : Prog} {n i : Nat} {env xv : List Var} (hs : p.Scoped (xv ++ env).length) (ho : p.Outs n)
    (hi : i < n) : (p.code.entry i env xv : M W Var) = (p.run (xv ++ env) >>= fun outs => pure (lookV outs i)) := by
  funext s
  unfold Code.entry
  have e := Prog.code_run s hs
  cases e1 : p.run (xv ++ env) s with
  | error x => rw [bind_err (e.trans e1), bind_err e1]
  | ok q =>
    obtain ⟨o, t⟩ := q
    have hl := Prog.run_len ho e1
    rw [bind_ok (e.trans e1), bind_ok e1, List.getElem?_eq_getElem (by omega)]
    simp [lookV, List.getD_eq_getElem?_getD, List.getElem?_eq_getElem (show i < o.length by omega)]

theorem Prog.code_scalar {p : Prog} {n : Nat} {env xv : List Var} (hs : p.Scoped (xv ++ env).length) (ho : p.Outs n)
    (hn : 0 < n) : (p.code.scalar env xv : M W Var) = p.scalarFn env xv := by
  funext s
  unfold Code.scalar Prog.scalarFn
  have e := Prog.code_run s hs
  cases e1 : p.run (xv ++ env) s with
  | error x => rw [bind_err (e.trans e1), bind_err e1]
  | ok q =>
    obtain ⟨o, t⟩ := q
    have hl := Prog.run_len ho e1
    rw [bind_ok (e.trans e1), bind_ok e1]
    cases o with
    | nil => simp at hl; omega
    | cons v o => rfl

end Fz
