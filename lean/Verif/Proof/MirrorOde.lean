import Verif.Proof.MirrorRun
import Verif.Proof.OdeSolTotal
import Verif.Proof.Rules
import Verif.Spec.LenientOde

/-!
# Solutions of differential equations and their twins
-/

set_option linter.unusedSectionVars false

namespace Fz
open Arith Spec

section generic
variable {W R : Type} [Arith R] [Rep W R] {T : Nat → Prop} {s t t' : St W}

theorem blind_deref {α : Type} (o : Option α) : Blind T (deref o : M W α) := by
  cases o
  · exact blind_fail _
  · exact .pure _

theorem blind_sensDots (yvar : List Var) (yS : List (List R)) (i : Nat) : ∀ (js : List Nat) (out : Nat → Nat → R),
    Blind T (sensDots yvar yS i js out : M W (Nat → Nat → R))
  | [], _ => .pure _
  | _ :: js, _ => .bind (blind_deref _) fun _ => .bind (blind_adjs _) fun _ => .bind (blind_confN _ _) fun _ =>
      blind_sensDots yvar yS i js _

theorem blind_sensPars (pvar : List Var) (off i : Nat) : ∀ (js : List Nat) (out : Nat → Nat → R),
    Blind T (sensPars pvar off i js out : M W (Nat → Nat → R))
  | [], _ => .pure _
  | _ :: js, _ => .bind (blind_deref _) fun _ => .bind (blind_adj _) fun _ => blind_sensPars pvar off i js _

theorem blind_gather (yS : List (List R)) (i : Nat) : ∀ (l : List Nat) (g0 : List R),
    Blind T (gather yS i l g0 : M W (List R))
  | [], _ => .pure _
  | _ :: l, _ => .bind (blind_deref _) fun _ => .bind (blind_deref _) fun _ => .ite (blind_gather yS i l _) (blind_fail _)

theorem blind_solVars (ops : List Var) (ns : Nat) (y : List R) (yS : List (List R)) : ∀ l : List Nat,
    Blind T (solVars ops ns y yS l : M W (List Var))
  | [] => .pure _
  | _ :: l => .bind (blind_gather _ _ _ _) fun _ => .bind (blind_deref _) fun _ => .bind (blind_partials _ _ _) fun _ =>
      .bind (blind_solVars ops ns y yS l) fun _ => .pure _

theorem blind_relVV (o : RelOp) (v w : Var) : Blind T (relVV (R := R) o v w : M W Bool) :=
  .bind (blind_val v) fun _ => .bind (blind_val w) fun _ => .pure _

theorem blind_query (v : Var) : Blind T (query v : M W (View R)) :=
  .bind (blind_val v) fun _ => .bind (blind_adj v) fun _ => blind_getVari _ fun _ _ _ =>
    .bind (blind_readTape _) fun _ => .bind (blind_readTape _) fun _ => .pure _

end generic

variable {W : Type} [Rep W ℝ] [LawfulRep W ℝ] {T : Nat → Prop}
variable {s t s' t' : St W} {g g' : Graph ℝ} {val adj val' adj' : Nat → ℝ}

theorem blind_one {m : M W Var} (h : Blind T m) : Blind T (Spec.one m) := .bind h fun _ => .pure _

theorem blind_un (f : Un) (v : Var) : Blind T (f.api v : M W Var) := by
  cases f
  case pos => exact blind_fn .pos v
  case abs => exact blind_fn .abs v
  case acosh => exact blind_fn .acosh v
  case atanh => exact blind_fn .atanh v
  all_goals exact blind_unary _ (by trivial) v

theorem blind_instr {i : Instr} (h : i.Mild) (env : List Var) : Blind T (i.run env : M W (List Var)) := by
  cases i with
  | const d => exact blind_one (blind_newVar d)
  | un f i => exact blind_one (blind_un f _)
  | bin f i j => exact blind_one (by cases f <;> exact blind_binary _ (by trivial) _ _)
  | binVD f i d => exact blind_one (by cases f; exacts [blind_binVD .add _ _, blind_binVD .sub _ _, blind_binVD .mul _ _, blind_binVD .div _ _, blind_binVD .pow _ _, blind_binVD .hypot _ _])
  | binDV f d i => exact blind_one (by cases f; exacts [blind_binDV .add _ _, blind_binDV .sub _ _, blind_binDV .mul _ _, blind_binDV .div _ _, blind_binDV .pow _ _, blind_binDV .hypot _ _])
  | sum is => exact blind_one (blind_reduceV _ (by trivial) _)
  | norm2 is => exact blind_one (blind_reduceV _ (by trivial) _)
  | logSumExp is => exact blind_one (blind_reduceV _ (by trivial) _)
  | dotVV is js =>
    exact blind_one (.bind (blind_vals _) fun _ => .bind (blind_vals _) fun _ =>
      .ite (blind_chained (blind_newVarOp _ _) (by trivial)) (blind_fail _))
  | dotVD is ds =>
    exact blind_one (.bind (blind_vals _) fun _ =>
      .ite (blind_chained (blind_newVarOpDop _ _ _) (by trivial)) (blind_fail _))
  | dotDV ds is =>
    exact blind_one (.bind (blind_vals _) fun _ =>
      .ite (blind_chained (blind_newVarOpDop _ _ _) (by trivial)) (blind_fail _))
  | matmulVV a b => exact h.elim
  | matmulVD a b => exact h.elim
  | matmulDV a b => exact h.elim
  | lpdfVV d ys m s =>
    cases d <;> exact blind_one (.bind (blind_val _) fun _ => .bind (blind_val _) fun _ => blind_partials _ _ _)
  | lpdfVD d ys m s => cases d <;> exact blind_one (.bind (blind_val _) fun _ => blind_partials _ _ _)
  | lpdfDV d ys m s => cases d <;> exact blind_one (.bind (blind_val _) fun _ => blind_partials _ _ _)
  | partials φ dφ is => exact blind_one (.bind (blind_vals _) fun _ => blind_partials _ _ _)
  | user φ r is ds => exact blind_one (.bind (blind_vals _) fun _ => blind_userOp _ h _ _)

theorem blind_prog : ∀ {p : Prog}, p.Mild → ∀ env : List Var, Blind T (p.run env : M W (List Var))
  | .ret _, _, _ => .pure _
  | .op _ _, h, _ => .bind (blind_instr h.1 _) fun _ => blind_prog h.2 _
  | .ifVV _ _ _ _ _, h, _ => .bind (blind_relVV _ _ _) fun _ => .ite (blind_prog h.1 _) (blind_prog h.2 _)
  | .ifVD _ _ _ _ _, h, _ => .bind (blind_relVD _ _ _) fun _ => .ite (blind_prog h.1 _) (blind_prog h.2 _)

theorem sensRowsL_mirror {yvar pvar : List Var} {yS : List (List ℝ)} (hle : g.nodes.length ≤ g'.nodes.length)
    (hsep : ∀ nd ∈ g.nodes, ∀ nd' ∈ g'.nodes.drop g.nodes.length, nd'.pos ≠ nd.pos)
    (hf : ∀ nd ∈ g'.nodes, nd.Fits val') (hy : ∀ v ∈ yvar, g'.Has v) (hp : ∀ v ∈ pvar, g'.Has v)
    {ns m : Nat} {par : Bool} :
    ∀ (fvs : List Var) (i : Nat) {s t t' : St W} {a : Nat → ℝ} (out : Nat → Nat → ℝ) {out' : Nat → Nat → ℝ},
    (∀ v ∈ fvs, g'.Has v) → Akin T s t → Inv t g' val' a → InRegion t g →
    (sensRows yvar pvar yS ns m par i fvs out : M W (Nat → Nat → ℝ)) t = .ok (out', t') →
    ∃ s', (∀ J : Junk W ℝ, (sensRowsL J yvar pvar yS ns m par i fvs out : M W (Nat → Nat → ℝ)) s = .ok (out', s')) ∧
      Akin T s' t' := by
  intro fvs
  induction fvs with
  | nil => intro i s t t' a out out' _ h _ _ e; cases e; exact ⟨s, fun _ => rfl, h⟩
  | cons fv fvs ih =>
    intro i s t t' a out out' hfv h hi hr e
    have hv := hfv fv (by simp)
    unfold sensRows at e
    obtain ⟨u1, t1, e1, k1⟩ := bind_inv e
    obtain ⟨-, m1, rfl, i1⟩ := gradNested_run hi (fun nd hn => Or.inr (hf nd hn)) hv hr.pos hr.le hr.start hle e1
    obtain ⟨s1, f1, A1⟩ := gradNestedL_mirror h hi hf hv hr.pos hr.le (by rw [hr.start]; omega) e1
    obtain ⟨o2, t2, e2, k2⟩ := bind_inv k1
    obtain ⟨s2, f2, A2⟩ := blind_sensDots _ _ _ _ _ _ _ _ _ A1 e2
    obtain ⟨rfl, -, -⟩ := sensDots_ok i1 hy i _ _ _ e2
    obtain ⟨o3, t3, e3, k3⟩ := bind_inv k2
    have hb : Blind T (if par then sensPars pvar (ns - m) i (List.range m) o2 else pure o2 : M W (Nat → Nat → ℝ)) :=
      .ite (blind_sensPars _ _ _ _ _) (.pure _)
    obtain ⟨s3, f3, A3⟩ := hb _ _ _ _ A2 e3
    have h3 : t3 = t.withMem m1 := by
      cases par with
      | false => cases e3; rfl
      | true =>
        simp only [if_true] at e3
        exact (sensPars_ok i1 hp _ i _ _ _ List.nodup_range e3).1
    subst h3
    obtain ⟨m2, a2, e4, i2, -, -⟩ := zeroRegion_ok i1 hr.withMem hle hsep
    obtain ⟨s4, f4, A4⟩ := blind_zeroNested _ _ _ _ A3 e4
    rw [bind_ok e4] at k3
    obtain ⟨s5, f5, A5⟩ := ih (i + 1) o3 (fun v hv => hfv v (by simp [hv])) A4 i2 hr.withMem.withMem k3
    refine ⟨s5, fun J => ?_, A5⟩
    unfold sensRowsL
    rw [bind_ok (f1 J), bind_ok f2, bind_ok f3, bind_ok f4, f5 J]

omit [Rep W ℝ] [LawfulRep W ℝ] in
theorem setSensRhsL_y {R : Type} [Arith R] [Rep W R] (J : Junk W R) (n : Nat) (f : R → List R → List R)
    (fy : R → List Var → List Var → M W (List Var)) (t : R)
    (y : List R) (yS : List (List R)) (out : Nat → Nat → R) (hn : n = y.length) :
    setSensRhsL J (newCvsRhsYvar true n f fy) t y yS out = (do
      beginNested
      let yv ← newVars y
      let fv ← newVars (List.replicate n zero)
      let fv ← fy t yv fv
      let fv ← confN n fv
      let out ← sensRowsL J yv [] yS n 0 false 0 fv out
      endNested
      pure out) := by
  subst hn
  simp [setSensRhsL, newCvsRhsYvar, deref]

omit [Rep W ℝ] [LawfulRep W ℝ] in
theorem setSensRhsL_p {R : Type} [Arith R] [Rep W R] (J : Junk W R) (b : Bool) (ns n : Nat) (pv : List R)
    (f : R → List R → List R)
    (fp : R → List Var → List Var → List Var → M W (List Var)) (t : R) (y : List R) (yS : List (List R))
    (out : Nat → Nat → R) (hn : n = y.length) (hb : ¬ (b = true ∧ ns = n)) :
    setSensRhsL J (newCvsRhsPvar b ns pv f fp) t y yS out = (do
      beginNested
      let yv ← newVars y
      let fv ← newVars (List.replicate n zero)
      let qv ← newVars pv
      let qv ← confN 3 qv
      let fv ← fp t yv fv qv
      let fv ← confN n fv
      let out ← sensRowsL J yv qv yS ns (if b then ns - n else ns) true 0 fv out
      endNested
      pure out) := by
  subst hn
  have h : (!(b && ns == y.length)) = true := by
    cases b <;> simp_all
  simp [setSensRhsL, newCvsRhsPvar, deref, h]
  rfl

theorem setSensL_y {P : ℝ → Prog} {u : ℝ} {y : List ℝ} (hA : Akin T s t) (h : Fine t g val adj 0 True)
    (hmild : (P u).Mild) {f : ℝ → List ℝ → List ℝ}
    (hok : (P u).Ok (y ++ List.replicate y.length 0)) (hroom : Room t (P u) (y ++ List.replicate y.length 0) [])
    {S : List (List ℝ)} {out out' : Nat → Nat → ℝ}
    (e : setSensRhs (newCvsRhsYvar true y.length f (odeY P [])) u y S out t = .ok (out', t')) :
    ∃ s', (∀ J : Junk W ℝ, setSensRhsL J (newCvsRhsYvar true y.length f (odeY P [])) u y S out s = .ok (out', s')) ∧
      Akin T s' t' := by
  rw [setSensRhs_y _ _ _ _ _ _ _ rfl] at e
  obtain ⟨⟨⟩, t0, e0, k1⟩ := bind_inv e
  obtain ⟨hl, rfl⟩ := begin_run e0
  obtain ⟨yv, t1, e1, k2⟩ := bind_inv k1
  obtain ⟨fv, t2, e2, k3⟩ := bind_inv k2
  obtain ⟨o, t3, e3, k4⟩ := bind_inv k3
  obtain ⟨o', t4, e4, k5⟩ := bind_inv k4
  obtain ⟨hlen, rfl, rfl⟩ := confN_inv e4
  obtain ⟨ou, t5, e5, k6⟩ := bind_inv k5
  obtain ⟨⟨⟩, t6, e6, k7⟩ := bind_inv k6
  cases k7
  have hnew : (newVars (y ++ List.replicate y.length 0) : M W (List Var)) t.begun = .ok (yv ++ fv, t2) := by
    rw [newVars_append, bind_ok e1]
    have e2' : (newVars (List.replicate y.length (0 : ℝ)) : M W (List Var)) t1 = .ok (fv, t2) := e2
    rw [bind_ok e2']; rfl
  obtain ⟨xv, outs, s1', s', f1, f2, g', val', adj', D', ε', r⟩ := ranC (ys := []) (env := []) h.inv.begun (by simp) rfl
    (by simpa using hok) hroom
  rw [hnew] at f1
  cases f1
  change (P u).run (yv ++ fv ++ []) t2 = _ at e3
  rw [e3] at f2
  cases f2
  have hf := r.fine (h.weak (m := (y ++ List.replicate y.length (0 : ℝ)).length) (Or.inr trivial)
    (fun _ => trivial : (P u).hasConst → True)).begun
  have hx : ∀ v ∈ yv ++ fv, g'.Has v := fun v hv => by
    obtain ⟨k, hk, rfl⟩ := List.getElem_of_mem hv
    exact (r.xs k hk).1
  have hsep : ∀ nd ∈ g.nodes, ∀ nd' ∈ g'.nodes.drop g.nodes.length, nd'.pos ≠ nd.pos := fun nd hn nd' hn' => by
    have := (r.zero nd' hn').1
    have := h.inv.node_lt hn
    simp only [St.begun] at *
    omega
  obtain ⟨s0, b0, A0⟩ := blind_begin _ _ _ _ hA e0
  obtain ⟨s1, b1, A1⟩ := blind_newVars _ _ _ _ _ A0 e1
  obtain ⟨s2, b2, A2⟩ := blind_newVars _ _ _ _ _ A1 e2
  obtain ⟨s3, b3, A3⟩ := blind_prog hmild _ _ _ _ _ A2 e3
  obtain ⟨s5, b5, A5⟩ := sensRowsL_mirror r.pre.nodes.length_le hsep hf (fun v hv => hx v (by simp [hv])) (by simp) _ 0 out
    (fun v hv => by
      obtain ⟨k, hk, rfl⟩ := List.getElem_of_mem hv
      exact (r.os k hk).has) A3 r.sim.inv (sens_begun h.inv hl r.keep) e5
  obtain ⟨s6, b6, A6⟩ := blind_end _ _ _ _ A5 e6
  refine ⟨s6, fun J => ?_, A6⟩
  have b3' : (odeY P [] u yv fv : M W (List Var)) s2 = .ok (_, s3) := b3
  rw [setSensRhsL_y _ _ _ _ _ _ _ _ rfl, bind_ok b0, bind_ok b1, bind_ok b2, bind_ok b3',
    bind_ok (confN_ok hlen _), bind_ok (b5 J), bind_ok b6]
  rfl

theorem setSensL_p {P : ℝ → Prog} {u : ℝ} {y q : List ℝ} (hA : Akin T s t) (h : Fine t g val adj 0 True)
    (hmild : (P u).Mild) {f : ℝ → List ℝ → List ℝ}
    (hok : (P u).Ok (y ++ List.replicate y.length 0 ++ q))
    (hroom : Room t (P u) (y ++ List.replicate y.length 0 ++ q) []) {b : Bool} {ns : Nat}
    (hb : ¬ (b = true ∧ ns = y.length))
    {S : List (List ℝ)} {out out' : Nat → Nat → ℝ}
    (e : setSensRhs (newCvsRhsPvar b ns q f (odeP P [])) u y S out t = .ok (out', t')) :
    ∃ s', (∀ J : Junk W ℝ, setSensRhsL J (newCvsRhsPvar b ns q f (odeP P [])) u y S out s = .ok (out', s')) ∧
      Akin T s' t' := by
  rw [setSensRhs_p _ _ _ _ _ _ _ _ _ _ rfl hb] at e
  obtain ⟨⟨⟩, t0, e0, k1⟩ := bind_inv e
  obtain ⟨hl, rfl⟩ := begin_run e0
  obtain ⟨yv, t1, e1, k2⟩ := bind_inv k1
  obtain ⟨fv, t2, e2, k3⟩ := bind_inv k2
  obtain ⟨qv, t2', e2', k4⟩ := bind_inv k3
  obtain ⟨qv', t2'', e2'', k5⟩ := bind_inv k4
  obtain ⟨hql, rfl, rfl⟩ := confN_inv e2''
  obtain ⟨o, t3, e3, k6⟩ := bind_inv k5
  obtain ⟨o', t4, e4, k7⟩ := bind_inv k6
  obtain ⟨hlen, rfl, rfl⟩ := confN_inv e4
  obtain ⟨ou, t5, e5, k8⟩ := bind_inv k7
  obtain ⟨⟨⟩, t6, e6, k9⟩ := bind_inv k8
  cases k9
  have hnew : (newVars (y ++ List.replicate y.length 0 ++ q) : M W (List Var)) t.begun = .ok (yv ++ fv ++ qv', t2'') := by
    have e2x : (newVars (List.replicate y.length (0 : ℝ)) : M W (List Var)) t1 = .ok (fv, t2) := e2
    have e12 : (newVars (y ++ List.replicate y.length 0) : M W (List Var)) t.begun = .ok (yv ++ fv, t2) := by
      rw [newVars_append, bind_ok e1, bind_ok e2x]; rfl
    rw [newVars_append, bind_ok e12, bind_ok e2']; rfl
  obtain ⟨xv, outs, s1', s', f1, f2, g', val', adj', D', ε', r⟩ := ranC (ys := []) (env := []) h.inv.begun (by simp) rfl
    (by simpa using hok) hroom
  rw [hnew] at f1
  cases f1
  change (P u).run (yv ++ fv ++ qv' ++ []) _ = _ at e3
  rw [e3] at f2
  cases f2
  have hf := r.fine (h.weak (m := (y ++ List.replicate y.length (0 : ℝ) ++ q).length) (Or.inr trivial)
    (fun _ => trivial : (P u).hasConst → True)).begun
  have hx : ∀ v ∈ yv ++ fv ++ qv', g'.Has v := fun v hv => by
    obtain ⟨k, hk, rfl⟩ := List.getElem_of_mem hv
    exact (r.xs k hk).1
  have hsep : ∀ nd ∈ g.nodes, ∀ nd' ∈ g'.nodes.drop g.nodes.length, nd'.pos ≠ nd.pos := fun nd hn nd' hn' => by
    have := (r.zero nd' hn').1
    have := h.inv.node_lt hn
    simp only [St.begun] at *
    omega
  obtain ⟨s0, b0, A0⟩ := blind_begin _ _ _ _ hA e0
  obtain ⟨s1, b1, A1⟩ := blind_newVars _ _ _ _ _ A0 e1
  obtain ⟨s2, b2, A2⟩ := blind_newVars _ _ _ _ _ A1 e2
  obtain ⟨s2', b2', A2'⟩ := blind_newVars _ _ _ _ _ A2 e2'
  obtain ⟨s3, b3, A3⟩ := blind_prog hmild _ _ _ _ _ A2' e3
  obtain ⟨s5, b5, A5⟩ := sensRowsL_mirror r.pre.nodes.length_le hsep hf (fun v hv => hx v (by simp [hv]))
    (fun v hv => hx v (by simp [hv])) _ 0 out
    (fun v hv => by
      obtain ⟨k, hk, rfl⟩ := List.getElem_of_mem hv
      exact (r.os k hk).has) A3 r.sim.inv (sens_begun h.inv hl r.keep) e5
  obtain ⟨s6, b6, A6⟩ := blind_end _ _ _ _ A5 e6
  refine ⟨s6, fun J => ?_, A6⟩
  have b3' : (odeP P [] u yv fv qv' : M W (List Var)) s2' = .ok (_, s3) := b3
  rw [setSensRhsL_p _ _ _ _ _ _ _ _ _ _ _ rfl hb, bind_ok b0, bind_ok b1, bind_ok b2, bind_ok b2', bind_ok (confN_ok hql _),
    bind_ok b3', bind_ok (confN_ok hlen _), bind_ok (b5 J), bind_ok b6]
  rfl

/-! ## the solver -/

theorem leafSafe_takes {c : Chain} (h : c.Takes 0 ([] : List ℝ)) : LeafSafe c := fun v a => h v a [] rfl

/-- the twin `t` of `s` has no chain procedures left behind -/
structure Shade (k0 : Nat) (s t : St W) (g : Graph ℝ) (val adj : Nat → ℝ) : Prop where
  akin : Akin (fun k => k0 ≤ k) s t
  fine : Fine t g val adj 0 True
  le : k0 ≤ t.vhead

variable {k0 : Nat}

theorem Shade.of (hA : Akin (fun k => k0 ≤ k) s t) (hi : Inv t g val adj) (hf : ∀ nd ∈ g.nodes, nd.Fits val)
    (hle : k0 ≤ t.vhead) : Shade k0 s (scrub t) g val adj :=
  ⟨hA.scrub fun _ hk => hle.trans hk, ⟨hi.scrub, hf, fun k hk _ => leafSafe_takes (hi.scrub_clean k hk)⟩, hle⟩

/-- calls for the sensitivity right-hand side complete, correctly, when the tape has `hd` words -/
def SensL (W : Type) [Rep W ℝ] [LawfulRep W ℝ] (pr : Problem) (ok : ℝ → List ℝ → List (List ℝ) → Prop)
    (ode : CvsRhs W ℝ) (k0 hd lv : Nat) : Prop :=
  ∀ ⦃g : Graph ℝ⦄ ⦃val adj : Nat → ℝ⦄ ⦃s t : St W⦄ ⦃u : ℝ⦄ ⦃y : List ℝ⦄ ⦃S : List (List ℝ)⦄
    (out : Nat → Nat → ℝ), Shade k0 s t g val adj → t.tape.head = hd → t.level = lv → ok u y S →
    ∃ out' s' t', (∀ J : Junk W ℝ, setSensRhsL J ode u y S out s = .ok (out', s')) ∧
      pr.sens u y S (vecs ode.ns y.length out') ∧ Shade k0 s' t' g val adj ∧ t'.tape.head = hd ∧ t'.level = lv ∧
      ∀ k ≤ lv, t'.nestTape k = t.nestTape k ∧ t'.nestVari k = t.nestVari k

theorem answerL_total {pr : Problem} {ok : ℝ → List ℝ → List (List ℝ) → Prop} {ode : CvsRhs W ℝ} {hd lv : Nat}
    {σ : Type} (hf : pr.f = ode.f) (hs : SensL W pr ok ode k0 hd lv) :
    ∀ (call : Solving ℝ σ) {s t : St W}, Shade k0 s t g val adj → t.tape.head = hd → t.level = lv → Asks pr ok call →
    ∃ r s' t', (∀ J : Junk W ℝ, answerL J ode call s = .ok (r, s')) ∧ Solves pr call r ∧ Shade k0 s' t' g val adj ∧
      t'.tape.head = hd ∧ t'.level = lv ∧ ∀ k ≤ lv, t'.nestTape k = t.nestTape k ∧ t'.nestVari k = t.nestVari k := by
  intro call
  induction call with
  | done e y yS mem =>
    intro s t h h1 h2 _
    exact ⟨_, s, t, fun _ => rfl, .done, h, h1, h2, fun _ _ => ⟨rfl, rfl⟩⟩
  | rhs u y k ih =>
    intro s t h h1 h2 ha
    obtain ⟨r, s', t', e, h3⟩ := ih _ h h1 h2 ha
    refine ⟨r, s', t', fun J => ?_, .rhs h3.1, h3.2⟩
    unfold answerL
    rw [← hf]; exact e J
  | sens u y yS k ih =>
    intro s t h h1 h2 ha
    obtain ⟨out', s1, t1, e1, hp, h3, h4, h5, hn⟩ := hs (fun _ _ => zero) h h1 h2 ha.1
    obtain ⟨r, s', t', e, h6, h7, h8, h9, h10⟩ := ih _ h3 h4 h5 (ha.2 _ hp)
    refine ⟨r, s', t', fun J => ?_, .sens hp h6, h7, h8, h9, fun k hk => ?_⟩
    swap
    · rw [(h10 k hk).1, (h10 k hk).2]
      exact hn k hk
    unfold answerL
    rw [bind_ok (e1 J)]; exact e J

theorem Rated.move {D ε : Nat → ℝ →L[ℝ] ℝ} {u : Var} (H : Rated s g val adj D ε u) (hi : Inv t g val adj) :
    Rated t g val adj D ε u := ⟨⟨hi, H.sim.rules⟩, H.has, H.eps, H.fits⟩

theorem solLoopL_total {u : Var} {pr : Problem} {ok : ℝ → List ℝ → List (List ℝ) → Prop} {ode : CvsRhs W ℝ} {lv : Nat}
    {σ : Type} (hf : pr.f = ode.f) (sv : Solver ℝ σ) (n : Nat) {ops : List Var} (hns : ode.ns = ops.length) :
    ∀ (ts : List ℝ) (mem : σ) {s t : St W} {g : Graph ℝ} {val adj : Nat → ℝ} {D ε : Nat → ℝ →L[ℝ] ℝ} {y0 : List ℝ},
    Shade k0 s t g val adj → Rated t g val adj D ε u → t.level = lv →
    (∀ v ∈ ops, g.Has v) → t.tape.head + ts.length * (n * (6 + 3 * ops.length)) ≤ cap →
    (∀ k < ts.length, SensL W pr ok ode k0 (t.tape.head + k * (n * (6 + 3 * ops.length))) lv) →
    AsksAll pr sv ok ts mem → Succeeds pr sv n ops.length ts mem →
    ∃ yt y1 s' t' sol g' val' adj' D' ε', (∀ J : Junk W ℝ, solLoopL J sv ode ops n ts mem y0 s = .ok ((yt, y1), s')) ∧
      SolvesAll pr sv ts mem sol ∧ y1 = (sol.map Prod.fst).getLastD y0 ∧ Shade k0 s' t' g' val' adj' ∧
      Rated t' g' val' adj' D' ε' u ∧ Later t g val adj D t' g' val' adj' D' ∧ yt.length = ts.length ∧
      sol.length = ts.length ∧
      ∀ k (h1 : k < yt.length) (h2 : k < sol.length), yt[k].length = n ∧ sol[k].1.length = n ∧ ∀ i (hi : i < yt[k].length),
        Shows g' val' D' yt[k][i] (sol[k].1.getD i 0) (sensSum sol[k].2 ops (fun v => D (g.pos v) 1) i) := by
  intro ts
  induction ts with
  | nil =>
    intro mem s t g val adj D ε y0 h H _ _ _ _ _ _
    exact ⟨[], y0, s, t, [], g, val, adj, D, ε, fun _ => rfl, .nil, rfl, h, H, Later.refl, rfl, rfl,
      fun k h1 => by simp at h1⟩
  | cons t0 ts ih =>
    intro mem s t g val adj D ε y0 h H hlv hops room hs ha hg
    have hlen : (t0 :: ts).length * (n * (6 + 3 * ops.length)) =
        n * (6 + 3 * ops.length) + ts.length * (n * (6 + 3 * ops.length)) := by
      simp [Nat.succ_mul, Nat.add_comm]
    rw [hlen] at room
    have hs0 := hs 0 (by simp)
    rw [Nat.zero_mul, Nat.add_zero] at hs0
    obtain ⟨⟨ierr, y, yS, mem'⟩, s1, t1, e1, hsol, h1, hh1, hl1, -⟩ := answerL_total hf
      hs0 (sv.step mem t0) h rfl hlv ha.1
    obtain ⟨rfl, hyn, hS, hS'⟩ := hg.1 _ hsol
    simp only at hyn hS hS'
    have H1 := H.move h1.fine.inv
    obtain ⟨vs, t2, e2, hlt⟩ := solVars_total hS (fun v hv => (hS' v hv).trans hyn.symm) (List.range n) h1.fine.inv hops
      (fun i hi => by rw [hyn]; exact List.mem_range.mp hi) (by rw [hh1, List.length_range]; omega)
    obtain ⟨g2, val2, adj2, D2, ε2, H2, L2, hh2, hl2, sh2⟩ := solVars_later y yS (List.range n) H1 hops
      (by rw [hh1, List.length_range]; omega) e2
    obtain ⟨s2, f2, A2⟩ := blind_solVars _ _ _ _ _ _ _ _ _ h1.akin e2
    rw [List.length_range] at hh2 hl2
    have hv2 : k0 ≤ t2.vhead := by
      have a1 := h1.le
      have a2 := h1.fine.inv.vhead
      have a3 := H2.sim.inv.vhead
      have := L2.pre.nodes.length_le
      omega
    have h3 := Shade.of A2 H2.sim.inv H2.fits hv2
    have hlv2 : (scrub t2).level = lv := by
      show t2.level = lv
      omega
    have hb : (scrub t2).tape.head = t.tape.head + n * (6 + 3 * ops.length) := by
      show t2.tape.head = _
      omega
    obtain ⟨rest, y1, s3, t3, sol, g3, val3, adj3, D3, ε3, e3, S3, hy3, h4, H3, L3, b1, b2, b3⟩ := ih mem' (y0 := y) h3
      (H2.move h3.fine.inv) hlv2 (fun v hv => L2.pre.has (hops v hv)) (by omega)
      (fun k hk => by
        have := hs (k + 1) (by simpa using hk)
        rw [hb]
        rw [Nat.succ_mul, Nat.add_comm (k * _), ← Nat.add_assoc] at this
        exact this) (ha.2 y yS mem' hsol) (hg.2 y yS mem' hsol)
    have L1 : Later t g val adj D t1 g val adj D :=
      ⟨Graph.Prefix.refl g, fun _ _ => rfl, fun _ _ => rfl, fun _ _ => rfl, by omega⟩
    have L2' : Later t1 g val adj D (scrub t2) g2 val2 adj2 D2 := ⟨L2.pre, L2.dd, L2.vv, L2.aa, L2.le⟩
    refine ⟨vs :: rest, y1, s3, t3, (y, yS) :: sol, g3, val3, adj3, D3, ε3, fun J => ?_, .cons hsol S3,
      by rw [List.map_cons, List.getLastD_cons]; exact hy3, h4, H3, (L1.trans L2').trans L3, by simp [b1],
      by simp [b2], fun k k1 k2 => ?_⟩
    · unfold solLoopL
      rw [bind_ok (e1 J)]
      simp only [ne_eq, not_true_eq_false, if_false]
      have f2' : solVars ops ode.ns y yS (List.range n) s1 = .ok (vs, s2) := by rw [hns]; exact f2
      rw [bind_ok f2', bind_ok (e3 J)]
      rfl
    · cases k with
      | zero =>
        refine ⟨hl2, hyn, fun i hi => ?_⟩
        obtain ⟨c1, c2⟩ := sh2 i (by simpa [hl2] using hi) hi
        rw [List.getElem_range] at c1 c2
        exact c2.later (H2.move h3.fine.inv).sim.inv L3
      | succ k =>
        obtain ⟨c1, c2, c3⟩ := b3 k (by simpa using k1) (by simpa using k2)
        refine ⟨c1, c2, fun i hi => ?_⟩
        have c4 := c3 i hi
        rw [sensSum_later H1.sim.inv L2 hops] at c4
        exact c4

theorem sensL_y {f : ℝ → List ℝ → List ℝ} {P : ℝ → Prog} {n K hd h0 m k lv : Nat} (hlv : lv < maxNestedStack)
    (hk : k < m) (hhd : hd = h0 + k * (n * (6 + 3 * n))) (hn : 0 < n)
    (hroom : hd + K ≤ cap) (hm : ∀ u, (P u).Mild) :
    SensL W (initProblem f P) (CallableL P [] n n K h0 m) (newCvsRhsYvar true n f (odeY P [])) k0 hd lv := by
  intro g val adj s t u y S out hi hh hl hok
  obtain ⟨⟨rfl, hS, h1, h2⟩, hS', hlen, hfull⟩ := hok
  simp only [List.append_nil] at h1 h2
  have hroom' : Room t (P u) (y ++ List.replicate y.length 0) [] := by
    have : cap = tapeLimit := rfl
    simp only [Room, List.append_nil, List.length_append, List.length_replicate, List.length_nil] at *
    omega
  obtain ⟨out', t', val', a, e, hf, -, hnest⟩ := setSens_y_total (ys := []) (env := []) (P := P) (u := u) (y := y)
    (hi.fine.weak (Or.inr trivial) (fun _ => trivial)) (by omega) (by simp) rfl f (by simpa using h1) hroom'
    (by simpa using hlen) ⟨by omega, fun j => by
      rw [hh, hhd]
      simpa using hfull k hk j⟩ hS hS' out
  obtain ⟨b1, b2, b3, b4, a', b5, b6⟩ := setSens_y (env := []) (ys := []) hi.fine.inv (fun nd hn => Or.inr (hi.fine.fits nd hn))
    (by simp) rfl (by simpa using h1) hroom' hS e
  obtain rfl := b6 rfl
  obtain ⟨s', e', hA⟩ := setSensL_y hi.akin hi.fine (hm u) (by simpa using h1) hroom' e
  exact ⟨out', s', scrub t', e', b1, Shade.of hA b5 hi.fine.fits (by rw [b4]; exact hi.le), by
    show t'.tape.head = _
    omega, by
    show t'.level = _
    omega, fun k hk => hnest k (by omega)⟩

theorem sensL_p {f : ℝ → List ℝ → List ℝ} {P : ℝ → Prog} {q : List ℝ} {n K hd h0 m k lv : Nat} (hq : q.length = 3)
    (hlv : lv < maxNestedStack) (hk : k < m) (hhd : hd = h0 + k * (n * (6 + 3 * q.length)))
    (hroom : hd + K ≤ cap) (hm : ∀ u, (P u).Mild) :
    SensL W (paramProblem f P q) (CallableL P q n q.length K h0 m) (newCvsRhsPvar false q.length q f (odeP P [])) k0 hd lv := by
  intro g val adj s t u y S out hi hh hl hok
  have hok' := hok.1
  obtain ⟨⟨rfl, hS, h1, h2⟩, hS', hlen, hfull⟩ := hok
  have hroom' : Room t (P u) (y ++ List.replicate y.length 0 ++ q) [] := by
    have : cap = tapeLimit := rfl
    simp only [Room, List.append_nil, List.length_append, List.length_replicate, List.length_nil] at *
    omega
  obtain ⟨out', t', val', a, e, hf, -, hnest⟩ := setSens_p_total (ys := []) (env := []) (P := P) (u := u) (y := y) hq
    (hi.fine.weak (Or.inr trivial) (fun _ => trivial)) (by omega) (by simp) rfl f (by simpa using h1) hroom'
    (by simpa using hlen) ⟨by omega, fun j => by
      rw [hh, hhd]
      have := hfull k hk j
      rw [hq] at this ⊢
      simpa using this⟩ (b := false) (by simpa using hq) hS hS' out
  obtain ⟨-, -, b2, b3, b4, a', b5, b6⟩ := setSens_p (env := []) (ys := []) hi.fine.inv (fun nd hn => Or.inr (hi.fine.fits nd hn))
    (by simp) rfl (by simpa using h1) hroom' (by simp) hS e
  obtain rfl := b6 rfl
  obtain ⟨c1, -, -⟩ := sensOk_p (W := W) (f := f) hi.fine.inv hi.fine.fits (by rw [hh]; exact hroom) hok' e
  obtain ⟨s', e', hA⟩ := setSensL_p hi.akin hi.fine (hm u) (by simpa using h1) hroom' (by simp) e
  exact ⟨out', s', scrub t', e', c1, Shade.of hA b5 hi.fine.fits (by rw [b4]; exact hi.le), by
    show t'.tape.head = _
    omega, by
    show t'.level = _
    omega, fun k hk => hnest k (by omega)⟩

end Fz
