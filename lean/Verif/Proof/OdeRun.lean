import Verif.Proof.Ode
import Verif.Proof.Total

/-!
# Calls of the sensitivity right-hand side
-/

set_option linter.unusedSectionVars false

namespace Fz
open Arith Spec

section generic
variable {W R : Type} [Arith R] [Rep W R]

theorem setSensRhs_y (n : Nat) (f : R → List R → List R) (fy : R → List Var → List Var → M W (List Var)) (t : R)
    (y : List R) (yS : List (List R)) (out : Nat → Nat → R) (hn : n = y.length) :
    setSensRhs (newCvsRhsYvar true n f fy) t y yS out = (do
      beginNested
      let yv ← newVars y
      let fv ← newVars (List.replicate n zero)
      let fv ← fy t yv fv
      let fv ← confN n fv
      let out ← sensRows yv [] yS n 0 false 0 fv out
      endNested
      pure out) := by
  subst hn
  simp [setSensRhs, newCvsRhsYvar, deref]

theorem setSensRhs_p (b : Bool) (ns n : Nat) (pv : List R) (f : R → List R → List R)
    (fp : R → List Var → List Var → List Var → M W (List Var)) (t : R) (y : List R) (yS : List (List R))
    (out : Nat → Nat → R) (hn : n = y.length) (hb : ¬ (b = true ∧ ns = n)) :
    setSensRhs (newCvsRhsPvar b ns pv f fp) t y yS out = (do
      beginNested
      let yv ← newVars y
      let fv ← newVars (List.replicate n zero)
      let qv ← newVars pv
      let qv ← confN 3 qv
      let fv ← fp t yv fv qv
      let fv ← confN n fv
      let out ← sensRows yv qv yS ns (if b then ns - n else ns) true 0 fv out
      endNested
      pure out) := by
  subst hn
  have h : (!(b && ns == y.length)) = true := by
    cases b <;> simp_all
  simp [setSensRhs, newCvsRhsPvar, deref, h]
  rfl

theorem newVars_len : ∀ (x : List R) {xv : List Var} {s s' : St W},
    (newVars x : M W (List Var)) s = .ok (xv, s') → xv.length = x.length := by
  intro x
  unfold newVars
  induction x with
  | nil => intro xv s s' e; cases e; rfl
  | cons a x ih =>
    intro xv s s' e
    rw [List.mapM_cons] at e
    obtain ⟨v, s1, e1, e⟩ := bind_inv e
    obtain ⟨vs, s2, e2, e⟩ := bind_inv e
    cases e
    simp [ih e2]

end generic

variable {W : Type} [Rep W ℝ] [LawfulRep W ℝ] {lf : Prop}
variable {s s' t t' : St W} {g g' : Graph ℝ} {val adj val' adj' : Nat → ℝ}
variable {x ys : List ℝ} {p : Prog} {D' ε' : Nat → (Fin x.length → ℝ) →L[ℝ] ℝ} {xv outs : List Var}

/-- what sensitivity `j` is about -/
def sensSrc (par : Bool) (off : Nat) (j : Nat) : Option Nat := if par ∧ off ≤ j then some (j - off) else none

theorem isSens_of_rows {n ns m : Nat} {y q : List ℝ} {S : List (List ℝ)} {out : Nat → Nat → ℝ} {par : Bool}
    (hn : n = y.length) (hS : S.length = ns)
    (rows : ∀ i < n, ∃ df, IsGradAt (p.out ys i) (y ++ List.replicate n 0 ++ q) df ∧ ∀ j < ns, ∃ v, S[j]? = some v ∧
      v.length = n ∧ out j i = (List.zipWith (· * ·) (df.take n) v).sum +
        if par ∧ ns - m ≤ j then (df.drop (2 * n)).getD (j - (ns - m)) 0 else 0) :
    IsSensRhs (odeFn p n ys) y q (sensSrc par (ns - m)) S (vecs ns n out) := by
  subst hn
  refine ⟨by simp [vecs, hS], fun j hj => ?_⟩
  rw [hS] at hj
  have e : (vecs ns y.length out).getD j [] = (List.range y.length).map fun i => out j i := by
    simp [vecs, List.getD_eq_getElem?_getD, hj]
  rw [e]
  refine ⟨by simp, fun i hi => ?_⟩
  obtain ⟨df, h1, h2⟩ := rows i hi
  obtain ⟨v, a1, a2, a3⟩ := h2 j hj
  have hl := h1.1
  simp only [List.length_append, List.length_replicate] at hl
  refine ⟨df.take y.length, df.drop (2 * y.length), by simp; omega, ?_, ?_⟩
  · have := isGradAt_dropMid h1
    rw [List.length_replicate, show y.length + y.length = 2 * y.length by omega] at this
    exact this
  · have e2 : ((List.range y.length).map fun i => out j i).getD i 0 = out j i := by
      simp [List.getD_eq_getElem?_getD, hi]
    rw [e2, a3, List.getD_eq_getElem?_getD (l := S), a1, Option.getD_some]
    congr 1
    unfold sensSrc
    split <;> rfl

/-- a completed call of the sensitivity right-hand side, initial values being varied -/
theorem setSens_y (h : Inv s g val adj) (hcok : ∀ nd ∈ g.nodes, nd.ChainOK ∨ nd.Fits val) {env : List Var}
    (he : ∀ v ∈ env, g.Has v) (hys : ys = env.map fun v => val (g.pos v)) {f : ℝ → List ℝ → List ℝ} {P : ℝ → Prog}
    {u : ℝ} {y : List ℝ} (hok : (P u).Ok (y ++ List.replicate y.length 0 ++ ys))
    (hroom : Room s (P u) (y ++ List.replicate y.length 0) ys) {S : List (List ℝ)} (hS : S.length = y.length)
    {out out' : Nat → Nat → ℝ} {t : St W}
    (e : setSensRhs (newCvsRhsYvar true y.length f (odeY P env)) u y S out s = .ok (out', t)) :
    IsSensRhs (odeFn (P u) y.length ys) y [] (fun _ => none) S (vecs y.length y.length out') ∧
    t.level = s.level ∧ t.tape.head = s.tape.head ∧ t.vhead = s.vhead ∧
    ∃ a, Inv t g val a ∧ (env = [] → a = adj) := by
  rw [setSensRhs_y _ _ _ _ _ _ _ rfl] at e
  obtain ⟨⟨⟩, s0, e0, k1⟩ := bind_inv e
  obtain ⟨hl, rfl⟩ := begin_run e0
  obtain ⟨yv, s1, e1, k2⟩ := bind_inv k1
  obtain ⟨fv, s2, e2, k3⟩ := bind_inv k2
  obtain ⟨o, s3, e3, k4⟩ := bind_inv k3
  obtain ⟨o', s4, e4, k5⟩ := bind_inv k4
  obtain ⟨hlen, rfl, rfl⟩ := confN_inv e4
  obtain ⟨ou, s5, e5, k6⟩ := bind_inv k5
  obtain ⟨⟨⟩, s6, e6, k7⟩ := bind_inv k6
  cases k7
  have hnew : (newVars (y ++ List.replicate y.length 0) : M W (List Var)) s.begun = .ok (yv ++ fv, s2) := by
    rw [newVars_append, bind_ok e1]
    have e2' : (newVars (List.replicate y.length (0 : ℝ)) : M W (List Var)) s1 = .ok (fv, s2) := e2
    rw [bind_ok e2']; rfl
  have hyl := newVars_len _ e1
  obtain ⟨xv, outs, s1', s', f1, f2, g', val', adj', D', ε', r⟩ := ranC h.begun he hys hok hroom
  rw [hnew] at f1
  cases f1
  change (P u).run (yv ++ fv ++ env) s2 = _ at e3
  rw [e3] at f2
  cases f2
  obtain ⟨⟨a, i1⟩, a1, a2, a3, rows⟩ := sens_rows (n := y.length) (par := false) h hcok hl r (Nat.zero_le _)
    (by rw [List.take_left' hyl]) (fun h => nomatch h) (fun _ => rfl) e5 e6
  refine ⟨?_, a1, a2, a3, ?_⟩
  · have := isSens_of_rows (m := 0) (par := false) (q := []) (y := y) (ns := y.length) (out := out') (p := P u) (ys := ys) rfl hS (fun i hi => by
      obtain ⟨df, b1, b2⟩ := rows i (by omega)
      refine ⟨df, by simpa using b1, fun j hj => ?_⟩
      obtain ⟨v, c1, c2, c3⟩ := b2 j hj
      exact ⟨v, c1, c2.trans hyl, c3⟩)
    have hsrc : sensSrc false (y.length - 0) = fun _ => none := by funext j; simp [sensSrc]
    rwa [hsrc] at this
  · by_cases hen : env = []
    · subst hen
      have : ys = [] := by simpa using hys
      subst this
      refine ⟨adj, ?_, fun _ => rfl⟩
      exact sens_sealed (n := y.length) (par := false) h hcok hl (by simpa using hok) hroom hnew e3 (Nat.zero_le _)
        (by rw [List.take_left' hyl]) (fun h => nomatch h) (fun _ => rfl) e5 e6
    · exact ⟨a, i1, fun h => absurd h hen⟩

/-- the same with parameters -/
theorem setSens_p (h : Inv s g val adj) (hcok : ∀ nd ∈ g.nodes, nd.ChainOK ∨ nd.Fits val) {env : List Var}
    (he : ∀ v ∈ env, g.Has v) (hys : ys = env.map fun v => val (g.pos v)) {f : ℝ → List ℝ → List ℝ} {P : ℝ → Prog}
    {u : ℝ} {y q : List ℝ} (hok : (P u).Ok (y ++ List.replicate y.length 0 ++ q ++ ys))
    (hroom : Room s (P u) (y ++ List.replicate y.length 0 ++ q) ys) {b : Bool} {ns : Nat}
    (hb : ¬ (b = true ∧ ns = y.length)) {S : List (List ℝ)} (hS : S.length = ns)
    {out out' : Nat → Nat → ℝ} {t : St W}
    (e : setSensRhs (newCvsRhsPvar b ns q f (odeP P env)) u y S out s = .ok (out', t)) :
    q.length = 3 ∧
    IsSensRhs (odeFn (P u) y.length ys) y q (sensSrc true (ns - if b then ns - y.length else ns)) S (vecs ns y.length out') ∧
    t.level = s.level ∧ t.tape.head = s.tape.head ∧ t.vhead = s.vhead ∧
    ∃ a, Inv t g val a ∧ (env = [] → a = adj) := by
  rw [setSensRhs_p _ _ _ _ _ _ _ _ _ _ rfl hb] at e
  obtain ⟨⟨⟩, s0, e0, k1⟩ := bind_inv e
  obtain ⟨hl, rfl⟩ := begin_run e0
  obtain ⟨yv, s1, e1, k2⟩ := bind_inv k1
  obtain ⟨fv, s2, e2, k3⟩ := bind_inv k2
  obtain ⟨qv, s2', e2', k4⟩ := bind_inv k3
  obtain ⟨qv', s2'', e2'', k5⟩ := bind_inv k4
  obtain ⟨hql, rfl, rfl⟩ := confN_inv e2''
  obtain ⟨o, s3, e3, k6⟩ := bind_inv k5
  obtain ⟨o', s4, e4, k7⟩ := bind_inv k6
  obtain ⟨hlen, rfl, rfl⟩ := confN_inv e4
  obtain ⟨ou, s5, e5, k8⟩ := bind_inv k7
  obtain ⟨⟨⟩, s6, e6, k9⟩ := bind_inv k8
  cases k9
  have hnew : (newVars (y ++ List.replicate y.length 0 ++ q) : M W (List Var)) s.begun = .ok (yv ++ fv ++ qv', s2'') := by
    have e2x : (newVars (List.replicate y.length (0 : ℝ)) : M W (List Var)) s1 = .ok (fv, s2) := e2
    have e12 : (newVars (y ++ List.replicate y.length 0) : M W (List Var)) s.begun = .ok (yv ++ fv, s2) := by
      rw [newVars_append, bind_ok e1, bind_ok e2x]; rfl
    rw [newVars_append, bind_ok e12, bind_ok e2']; rfl
  have hyl := newVars_len _ e1
  have hfl := newVars_len _ e2
  rw [List.length_replicate] at hfl
  have hpl := newVars_len _ e2'
  obtain ⟨xv, outs, s1', s', f1, f2, g', val', adj', D', ε', r⟩ := ranC h.begun he hys hok hroom
  rw [hnew] at f1
  cases f1
  change (P u).run (yv ++ fv ++ qv' ++ env) _ = _ at e3
  rw [e3] at f2
  cases f2
  have hm : (if b = true then ns - y.length else ns) ≤ ns := by split <;> omega
  have hty : yv = (yv ++ fv ++ qv').take y.length := by
    rw [List.append_assoc, List.take_left' hyl]
  have htq : qv' = (yv ++ fv ++ qv').drop (2 * y.length) := by
    rw [List.drop_left' (by simp; omega)]
  obtain ⟨⟨a, i1⟩, a1, a2, a3, rows⟩ := sens_rows (n := y.length) (par := true) h hcok hl r hm hty (fun _ => htq)
    (fun h => nomatch h) e5 e6
  refine ⟨by omega, ?_, a1, a2, a3, ?_⟩
  · refine isSens_of_rows (par := true) rfl hS fun i hi => ?_
    obtain ⟨df, b1, b2⟩ := rows i (by omega)
    refine ⟨df, b1, fun j hj => ?_⟩
    obtain ⟨v, c1, c2, c3⟩ := b2 j hj
    exact ⟨v, c1, c2.trans hyl, c3⟩
  · by_cases hen : env = []
    · subst hen
      have : ys = [] := by simpa using hys
      subst this
      refine ⟨adj, ?_, fun _ => rfl⟩
      exact sens_sealed (n := y.length) (par := true) h hcok hl (by simpa using hok) hroom hnew e3 hm hty (fun _ => htq)
        (fun h => nomatch h) e5 e6
    · exact ⟨a, i1, fun h => absurd h hen⟩

end Fz
