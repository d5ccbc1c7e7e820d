import Verif.Proof.Mirror

/-!
# Reverse sweeps of a run with chain procedures left behind, and of its twin
-/

set_option linter.unusedSectionVars false

namespace Fz
variable {W R : Type} [Arith R] [Rep W R]
open Arith Spec
variable {T : Nat → Prop}

theorem blind_setByIndex (v : Vari) : ∀ (ps : List Nat) (ds : List R), Blind T (v.setOperandAdjByIndex ps ds : M W Unit)
  | [], _ => .pure _
  | _ :: _, [] => blind_fail _
  | _ :: ps, _ :: ds => .bind (blind_readTape _) fun _ => .bind (blind_modTape _) fun _ => blind_setByIndex v ps ds

theorem blind_setAll (v : Vari) (d : List R) : Blind T (v.setOperandAdjAll d : M W Unit) :=
  .bind (blind_readTape _) fun _ => .ite (blind_fail _) (.bind (blind_readTape _) fun _ => blind_setByIndex v _ _)

theorem blind_conf1 {α : Type} (l : List α) : Blind T (conf1 l : M W α) := by
  unfold conf1
  split
  · exact .pure _
  · exact blind_fail _

theorem blind_conf2 {α : Type} (l : List α) : Blind T (conf2 l : M W (α × α)) := by
  unfold conf2
  split
  · exact .pure _
  · exact blind_fail _

theorem blind_conf4 {α : Type} (l : List α) : Blind T (conf4 l : M W (α × α × α × α)) := by
  unfold conf4
  split
  · exact .pure _
  · exact blind_fail _

theorem blind_confN {α : Type} (n : Nat) (l : List α) : Blind T (confN n l : M W (List α)) :=
  .ite (.pure _) (blind_fail _)

theorem blind_localArr {α : Type} (n : Nat) {m : M W (List α)} (h : Blind T m) : Blind T (localArr n m) :=
  .ite (.pure _) (.bind h fun _ => blind_confN _ _)

theorem blind_chainUn (f : R → R → R) (v : Vari) : Blind T (chainUn f v : M W Unit) :=
  .bind (blind_readTape _) fun _ => .bind (blind_conf1 _) fun _ => .bind (blind_readTape _) fun _ => blind_setAll _ _

theorem blind_chainUnVal (f : R → R → R) (v : Vari) : Blind T (chainUnVal f v : M W Unit) :=
  .bind (blind_readTape _) fun _ => .bind (blind_readTape _) fun _ => blind_setAll _ _

theorem blind_dotVV (v : Vari) (a b : List Nat) : Blind T (chainDotProductVV v a b : M W Unit) :=
  .bind (blind_readTape _) fun _ => .bind (blind_mapM (fun _ => blind_readTape _) _) fun _ =>
    .bind (blind_confN _ _) fun _ => .bind (blind_setByIndex _ _ _) fun _ => .bind (blind_readTape _) fun _ =>
    .bind (blind_mapM (fun _ => blind_readTape _) _) fun _ => blind_setByIndex _ _ _

theorem blind_dotVD (v : Vari) (a : List Nat) (d : List R) : Blind T (chainDotProductVD v a d : M W Unit) :=
  .bind (blind_readTape _) fun _ => blind_setByIndex _ _ _

/-- chain procedures read and write the tape only -/
theorem blind_runChain (v : Vari) : Blind T (runChain v : M W Unit) := by
  unfold runChain
  cases v.chain with
  | dummy => exact .pure _
  | sin | cos | asin | acos | atan | sinh | cosh | tanh | asinh | acosh | atanh | inv | sq | isq | isqrt | log | logit | erf | erfc | logGamma =>
    exact blind_chainUn _ _
  | tan | sqrt | exp | invLogit => exact blind_chainUnVal _ _
  | abs => exact .bind (blind_readTape _) fun _ => .ite (blind_setAll _ _) (.pure _)
  | addVV | addVD | subVV | subVD | subDV => exact .bind (blind_readTape _) fun _ => blind_setAll _ _
  | mulVV =>
    exact .bind (blind_readTape _) fun _ => .bind (blind_conf2 _) fun _ => .bind (blind_readTape _) fun _ => blind_setAll _ _
  | mulVD =>
    exact .bind (blind_readTape _) fun _ => .bind (blind_readTape _) fun _ => .bind (blind_conf1 _) fun _ => blind_setAll _ _
  | divVV =>
    exact .bind (blind_readTape _) fun _ => .bind (blind_conf2 _) fun _ => .bind (blind_readTape _) fun _ =>
      .bind (blind_readTape _) fun _ => blind_setAll _ _
  | divVD =>
    exact .bind (blind_readTape _) fun _ => .bind (blind_conf1 _) fun _ => .bind (blind_readTape _) fun _ => blind_setAll _ _
  | divDV =>
    exact .bind (blind_readTape _) fun _ => .bind (blind_conf1 _) fun _ => .bind (blind_readTape _) fun _ =>
      .bind (blind_readTape _) fun _ => blind_setAll _ _
  | powVV =>
    exact .bind (blind_readTape _) fun _ => .bind (blind_conf2 _) fun _ => .ite (.bind (blind_readTape _) fun _ =>
      .bind (blind_readTape _) fun _ => blind_setAll _ _) (.pure _)
  | powVD =>
    exact .bind (blind_readTape _) fun _ => .bind (blind_conf1 _) fun _ => .bind (blind_readTape _) fun _ =>
      .bind (blind_conf1 _) fun _ => .ite (.bind (blind_readTape _) fun _ =>
      .bind (blind_readTape _) fun _ => blind_setAll _ _) (.pure _)
  | powDV =>
    exact .bind (blind_readTape _) fun _ => .bind (blind_conf1 _) fun _ => .ite (.bind (blind_readTape _) fun _ =>
      .bind (blind_readTape _) fun _ => blind_setAll _ _) (.pure _)
  | hypot | norm2 | logSumExp =>
    exact .bind (blind_readTape _) fun _ => .bind (blind_readTape _) fun _ => .bind (blind_readTape _) fun _ =>
      blind_setAll _ _
  | sum => exact .bind (blind_readTape _) fun _ => .bind (blind_readTape _) fun _ => blind_setAll _ _
  | dotVV => exact .bind (blind_readTape _) fun _ => .bind (blind_readTape _) fun _ => blind_dotVV _ _ _
  | dotVD => exact .bind (blind_readTape _) fun _ => .bind (blind_readTape _) fun _ => blind_dotVD _ _ _
  | matmulVV =>
    exact .bind (blind_readTape _) fun _ => .bind (blind_conf4 _) fun _ => .bind (blind_readTape _) fun _ =>
      .bind (blind_readTape _) fun _ => blind_dotVV _ _ _
  | matmulVD =>
    exact .bind (blind_readTape _) fun _ => .bind (blind_conf4 _) fun _ => .bind (blind_readTape _) fun _ =>
      .bind (blind_readTape _) fun _ => blind_dotVD _ _ _
  | matmulDV =>
    exact .bind (blind_readTape _) fun _ => .bind (blind_conf4 _) fun _ => .bind (blind_readTape _) fun _ =>
      .bind (blind_readTape _) fun _ => blind_dotVD _ _ _
  | eager =>
    exact .bind (blind_readTape _) fun _ => .bind (blind_readTape _) fun _ => .bind (blind_readTape _) fun _ =>
      .bind (blind_confN _ _) fun _ => blind_setAll _ _
  | user r =>
    show Blind T (chainUser r v : M W Unit)
    unfold chainUser
    refine .ite ?_ (blind_fail _)
    cases r with
    | fixed n m es =>
      exact .bind (blind_localArr _ (blind_readTape _)) fun _ => .bind (blind_localArr _ (blind_readTape _)) fun _ =>
        .bind (blind_readTape _) fun _ => .bind (blind_readTape _) fun _ => blind_setAll _ _
    | each m e =>
      exact .bind (blind_readTape _) fun _ => .bind (blind_localArr _ (blind_readTape _)) fun _ =>
        .bind (blind_readTape _) fun _ => .bind (blind_readTape _) fun _ => blind_setAll _ _

section sweeps
variable [LawfulRep W R] {s t t' : St W} {g : Graph R} {val adj : Nat → R}

/-- a marked record has no operands -/
theorem marked_leaf {nd : Node R} (hf : nd.Fits val) (hm : nd.chain = mark) : nd.kind = .plain ∧ nd.ops = [] := by
  obtain ⟨l, hl⟩ := hf (fun _ => zero)
  have hk : nd.kind = .plain := by
    unfold Node.contrib at hl
    split at hl
    · assumption
    all_goals
      rw [hm] at hl
      simp [mark] at hl
  refine ⟨hk, ?_⟩
  unfold Node.contrib at hl
  rw [hk, hm] at hl
  simp only [mark, contribPlain, cUser] at hl
  split at hl
  · rename_i h
    simpa using h.2.2.2
  · cases hl

/-- one step of the sweep -/
theorem runChainL_mirror (h : Akin T s t) (hi : Inv t g val adj) {k : Nat} {nd : Node R}
    (hk : g.nodes[k]? = some nd) (hf : nd.Fits val)
    (e : (runChain ⟨nd.pos, nd.chain⟩ : M W Unit) t = .ok ((), t')) :
    ∃ s', (∀ J : Junk W R, (runChainL J (s.varis (k + 1)) : M W Unit) s = .ok ((), s')) ∧ Akin T s' t' := by
  have htab := hi.tab k nd hk
  have hn : nd ∈ g.nodes := List.mem_of_getElem? hk
  rcases h.slot (k + 1) with hs | ⟨hm, ht⟩
  · have : s.varis (k + 1) = ⟨nd.pos, nd.chain⟩ := by
      have h1 := h.idx (k + 1)
      rw [htab] at h1 hs
      cases hv : s.varis (k + 1)
      rw [hv] at h1 hs
      simp only at h1 hs
      rw [h1, hs]
    rw [this]
    obtain ⟨s', e', h'⟩ := blind_runChain _ _ _ _ _ h e
    exact ⟨s', fun J => refines_runChain J _ _ _ _ e', h'⟩
  · rw [htab] at hm
    obtain ⟨hkd, ho⟩ := marked_leaf hf hm
    have J : Junk W R := fun _ _ _ _ => zero
    have e1 := refines_runChain J _ _ _ _ e
    have e2 := runChainL_leaf J rfl hi hn hkd ho (c := nd.chain) (by rw [show nd.chain = mark from hm]; exact mark_tame)
    rw [e1] at e2
    cases e2
    refine ⟨s, fun J => ?_, h⟩
    have h1 := h.idx (k + 1)
    rw [htab] at h1
    have := runChainL_leaf J h.tape hi hn hkd ho ht
    simp only at h1
    rw [← h1] at this
    exact this

theorem getVari_akin (h : Akin T s t) {k : Nat} {v : Vari} (e : (getVari k : M W Vari) t = .ok (v, t)) :
    (getVari k : M W Vari) s = .ok (s.varis k, s) := by
  unfold getVari at e ⊢
  split at e
  · rename_i hk
    rw [if_pos (by rw [h.nVaris]; exact hk)]
  · cases e

theorem chainLoopL_mirror (hf : ∀ nd ∈ g.nodes, nd.Fits val) (i : Nat) :
    ∀ (n : Nat) {s t t' : St W} {adj : Nat → R}, Akin T s t → Inv t g val adj → i + n ≤ g.nodes.length →
    (chainLoop (i + 1) n : M W Unit) t = .ok ((), t') →
    ∃ s', (∀ J : Junk W R, (chainLoopL J (i + 1) n : M W Unit) s = .ok ((), s')) ∧ Akin T s' t' := by
  intro n
  induction n with
  | zero =>
    intro s t t' adj h _ _ e
    cases e
    exact ⟨s, fun _ => rfl, h⟩
  | succ n ih =>
    intro s t t' adj h hi hle e
    have hlt : i + n < g.nodes.length := by omega
    have hg := hi.getVari (List.getElem?_eq_getElem hlt)
    have hmem : g.nodes[i + n] ∈ g.nodes := List.getElem_mem hlt
    obtain ⟨l, hl⟩ := hf _ hmem adj
    obtain ⟨m, er, iv⟩ := hi.runChain hmem hl
    unfold chainLoop at e
    have e1 : i + 1 + n = i + n + 1 := by omega
    rw [e1] at e
    rw [bind_ok hg, bind_ok er] at e
    obtain ⟨s1, er', h1⟩ := runChainL_mirror h hi (List.getElem?_eq_getElem hlt) (hf _ hmem) er
    obtain ⟨s2, e2, h2⟩ := ih h1 iv (by omega) e
    refine ⟨s2, fun J => ?_, h2⟩
    unfold chainLoopL
    rw [e1, bind_ok (getVari_akin h hg), bind_ok (er' J), e2]

theorem initDep_akin (h : Akin T s t) {k : Nat} {t' : St W}
    (e : ((Vari.initDependent (t.varis k)) : M W Unit) t = .ok ((), t')) :
    ∃ s', ((Vari.initDependent (s.varis k)) : M W Unit) s = .ok ((), s') ∧ Akin T s' t' := by
  unfold Vari.initDependent Vari.setAdj at e ⊢
  rw [h.idx k]
  exact blind_modTape _ _ _ _ _ h e

theorem gradL_mirror (h : Akin T s t) (hi : Inv t g val adj) (hf : ∀ nd ∈ g.nodes, nd.Fits val) {v : Var} (hv : g.Has v) (e : (v.grad : M W Unit) t = .ok ((), t')) :
    ∃ s', (∀ J : Junk W R, (v.gradL J : M W Unit) s = .ok ((), s')) ∧ Akin T s' t' := by
  unfold Var.grad at e
  obtain ⟨nd, hn⟩ : ∃ nd, g.nodes[v.vi - 1]? = some nd := by
    obtain ⟨h1, h2⟩ := hv
    exact ⟨_, List.getElem?_eq_getElem (show v.vi - 1 < g.nodes.length by omega)⟩
  have hvi : v.vi = v.vi - 1 + 1 := by have := hv.1; omega
  have hg := hi.getVari hn
  rw [← hvi] at hg
  have htab := hi.tab _ nd hn
  rw [← hvi] at htab
  rw [bind_ok hg, ← htab] at e
  obtain ⟨u, t1, e1, e2⟩ := bind_inv e
  obtain ⟨s1, e1', h1⟩ := initDep_akin h e1
  have hmem := List.mem_of_getElem? hn
  obtain ⟨m, em, im⟩ := hi.setAdj hmem (one : R)
  have em' : (Vari.initDependent (t.varis v.vi) : M W Unit) t = .ok ((), t.withMem m) := by
    rw [htab]
    exact modTape_ok (f := fun t => t.setAdjAt nd.pos Arith.one) (s := t) em
  rw [em'] at e1
  cases e1
  rw [bind_ok (get_ok _)] at e2
  obtain ⟨s2, e3, h2⟩ := chainLoopL_mirror hf 0 _ h1 im (by
    have := im.vhead
    show 0 + ((t.withMem m).vhead - 1) ≤ _
    omega) e2
  refine ⟨s2, fun J => ?_, h2⟩
  unfold Var.gradL
  rw [bind_ok (getVari_akin h hg), bind_ok e1', bind_ok (get_ok _), h1.vhead]
  exact e3 J

theorem gradNestedL_mirror (h : Akin T s t) (hi : Inv t g val adj) (hf : ∀ nd ∈ g.nodes, nd.Fits val) {v : Var} (hv : g.Has v) (hl : 0 < t.level) (hl' : t.level ≤ maxNestedStack)
    (hn1 : 1 ≤ t.nestVari t.level) (e : (v.gradNested : M W Unit) t = .ok ((), t')) :
    ∃ s', (∀ J : Junk W R, (v.gradNestedL J : M W Unit) s = .ok ((), s')) ∧ Akin T s' t' := by
  unfold Var.gradNested at e
  obtain ⟨nd, hn⟩ : ∃ nd, g.nodes[v.vi - 1]? = some nd := by
    obtain ⟨h1, h2⟩ := hv
    exact ⟨_, List.getElem?_eq_getElem (show v.vi - 1 < g.nodes.length by omega)⟩
  have hvi : v.vi = v.vi - 1 + 1 := by have := hv.1; omega
  have hg := hi.getVari hn
  rw [← hvi] at hg
  have htab := hi.tab _ nd hn
  rw [← hvi] at htab
  rw [bind_ok hg, ← htab] at e
  obtain ⟨u, t1, e1, e2⟩ := bind_inv e
  obtain ⟨s1, e1', h1⟩ := initDep_akin h e1
  have hmem := List.mem_of_getElem? hn
  obtain ⟨m, em, im⟩ := hi.setAdj hmem (one : R)
  have em' : (Vari.initDependent (t.varis v.vi) : M W Unit) t = .ok ((), t.withMem m) := by
    rw [htab]
    exact modTape_ok (f := fun t => t.setAdjAt nd.pos Arith.one) (s := t) em
  rw [em'] at e1
  cases e1
  have hcur : ∀ u : St W, u.level = t.level → u.nestVari = t.nestVari →
      (currNestedVariHead : M W Nat) u = .ok (t.nestVari t.level, u) := by
    intro u h1 h2
    unfold currNestedVariHead
    rw [bind_ok (get_ok _), h1, if_pos hl, h2]
    unfold rdNest
    rw [if_pos ⟨hl, hl'⟩]
    rfl
  rw [bind_ok (hcur (t.withMem m) rfl rfl), bind_ok (get_ok _)] at e2
  obtain ⟨j, hj⟩ : ∃ j, t.nestVari t.level = j + 1 := ⟨t.nestVari t.level - 1, by omega⟩
  rw [hj] at e2
  obtain ⟨s2, e3, h2⟩ : ∃ s2, (∀ J : Junk W R, (chainLoopL J (j + 1) ((t.withMem m).vhead - (j + 1)) : M W Unit) s1 =
      .ok ((), s2)) ∧ Akin T s2 t' := by
    by_cases hle : j ≤ g.nodes.length
    · exact chainLoopL_mirror hf j _ h1 im (by
        have := im.vhead
        show j + ((t.withMem m).vhead - (j + 1)) ≤ _
        omega) e2
    · have h0 : (t.withMem m).vhead - (j + 1) = 0 := by
        have := im.vhead
        omega
      rw [h0] at e2 ⊢
      cases e2
      exact ⟨s1, fun _ => rfl, h1⟩
  refine ⟨s2, fun J => ?_, h2⟩
  unfold Var.gradNestedL
  rw [bind_ok (getVari_akin h hg), bind_ok e1', bind_ok (hcur s1 h1.level h1.nestVari), bind_ok (get_ok _), h1.vhead, hj]
  exact e3 J

end sweeps
end Fz
