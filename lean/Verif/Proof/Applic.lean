import Verif.Proof.Nested

/-!
# When a chain procedure applies

Whether a chain procedure fits a record does not depend on the adjoints, and a chain procedure that
does not fit fails: a sweep that succeeds has only run chain procedures that fit.
-/

set_option linter.unusedSectionVars false

namespace Fz
variable {W R : Type} [Arith R] [Rep W R] [LawfulRep W R]
open Arith

theorem cUn_isSome (f : R → R → R) (a : R) (xs : List R) : (cUn f a xs).isSome = decide (xs.length = 1) := by
  unfold cUn
  split
  · rfl
  · rename_i h
    match xs, h with
    | [], _ => rfl
    | [x], h => exact absurd rfl (h x)
    | _ :: _ :: _, _ => simp

theorem cAll_isSome (n : Nat) (l : List R) : (cAll n l).isSome = decide (n ≤ l.length) := by
  unfold cAll; split <;> simp_all

theorem cBin_isSome (f : R → R → List R) (xs : List R) : (cBin f xs).isSome = decide (xs.length = 2) := by
  unfold cBin
  split
  · rfl
  · rename_i h
    match xs, h with
    | [], _ => rfl
    | [_], _ => rfl
    | [x, y], h => exact absurd rfl (h x y)
    | _ :: _ :: _ :: _, _ => simp

/-- whether the chain procedure fits does not depend on the adjoint -/
theorem contribPlain_isSome (c : Chain) (v a a' : R) (xs ds : List R) :
    (contribPlain c v a xs ds).isSome = (contribPlain c v a' xs ds).isSome := by
  cases c <;> simp only [contribPlain, cUn_isSome, cAll_isSome, cBin_isSome, List.length_cons,
    List.length_nil, List.length_map, Option.isSome_some, Option.isSome_none]
  case mulVD | divVD =>
    unfold cDat
    split <;> simp only [cAll_isSome, List.length_cons, List.length_nil]
  case powVD =>
    split
    · split <;> rfl
    · rfl
  case powDV =>
    split
    · split <;> simp only [cAll_isSome, List.length_cons, List.length_nil, Option.isSome_some]
    · rfl
  case eager => split <;> rfl
  case user r =>
    cases r <;> simp only [cUser] <;> split <;> rfl

theorem contrib_isSome (nd : Node R) (val adj adj' : Nat → R) :
    (nd.contrib val adj).isSome = (nd.contrib val adj').isSome := by
  unfold Node.contrib
  split
  · exact contribPlain_isSome _ _ _ _ _ _
  · split <;> rfl
  · split <;> rfl
  · split <;> rfl

theorem fits_of_some {nd : Node R} {val adj : Nat → R} {l : List R} (h : nd.contrib val adj = some l) :
    nd.Fits val := by
  intro adj'
  have := contrib_isSome nd val adj adj'
  rw [h] at this
  exact Option.isSome_iff_exists.mp this.symm

/-- the chain procedures that `+ 0.0`, `- 0.0`, `* 1.0`, `/ 1.0` put on their operand -/
def Chain.isNeutral (c : Chain) : Prop := c = .addVD ∨ c = .subVD ∨ c = .mulVD ∨ c = .divVD

/-- the chain pointer of a record is one the library can have put there: the chain procedures of the
matrix products only on their entries (or, left over, on records without operands), and on an entry
only these and those of `+ 0.0`, `- 0.0`, `* 1.0`, `/ 1.0` -/
def Node.ChainOK (nd : Node R) : Prop :=
  match nd.kind with
  | .plain => (nd.chain = .matmulVV ∨ nd.chain = .matmulVD ∨ nd.chain = .matmulDV) → nd.ops = []
  | .mmVV _ _ => nd.dops = [] ∧ (nd.chain = .matmulVV ∨ nd.chain.isNeutral)
  | .mmVD _ _ => nd.dops = [] ∧ (nd.chain = .matmulVD ∨ nd.chain.isNeutral)
  | .mmDV _ _ => nd.dops = [] ∧ (nd.chain = .matmulDV ∨ nd.chain.isNeutral)

theorem bind_err' {α β : Type} {m : M W α} {k : α → M W β} {s : St W} (h : ∃ e, m s = .error e) :
    ∃ e, (m >>= k) s = .error e := by
  obtain ⟨e, he⟩ := h
  exact ⟨e, bind_err he⟩

theorem conf1_err {α : Type} {l : List α} (h : l.length ≠ 1) (s : St W) :
    ∃ e, (conf1 l : M W α) s = .error e := by
  match l, h with
  | [], _ => exact ⟨_, rfl⟩
  | [_], h => exact absurd rfl h
  | _ :: _ :: _, _ => exact ⟨_, rfl⟩

theorem conf2_err {α : Type} {l : List α} (h : l.length ≠ 2) (s : St W) :
    ∃ e, (conf2 l : M W (α × α)) s = .error e := by
  match l, h with
  | [], _ => exact ⟨_, rfl⟩
  | [_], _ => exact ⟨_, rfl⟩
  | [_, _], h => exact absurd rfl h
  | _ :: _ :: _ :: _, _ => exact ⟨_, rfl⟩

theorem conf4_err {α : Type} {l : List α} (h : l.length ≠ 4) (s : St W) :
    ∃ e, (conf4 l : M W (α × α × α × α)) s = .error e := by
  match l, h with
  | [], _ => exact ⟨_, rfl⟩
  | [_], _ => exact ⟨_, rfl⟩
  | [_, _], _ => exact ⟨_, rfl⟩
  | [_, _, _], _ => exact ⟨_, rfl⟩
  | [_, _, _, _], h => exact absurd rfl h
  | _ :: _ :: _ :: _ :: _ :: _, _ => exact ⟨_, rfl⟩

namespace Inv
variable {s : St W} {g : Graph R} {val adj : Nat → R} (h : Inv s g val adj) {nd : Node R}
  (hn : nd ∈ g.nodes) (c : Chain)
include h hn

theorem setAll_err {d : List R} (hd : d.length < nd.ops.length) :
    ∃ e, (Vari.setOperandAdjAll ⟨nd.pos, c⟩ d : M W Unit) s = .error e := by
  unfold Vari.setOperandAdjAll
  rw [bind_ok (h.nOpM hn c), if_pos hd]
  exact ⟨_, rfl⟩

theorem cAll_err {xs d : List R} (hl : xs.length = nd.ops.length) (hc : cAll xs.length d = none) :
    ∃ e, (Vari.setOperandAdjAll ⟨nd.pos, c⟩ d : M W Unit) s = .error e := by
  unfold cAll at hc
  split at hc
  · cases hc
  · exact h.setAll_err hn c (by omega)

theorem setByIndex_err (this : Vari) (ps : List Nat) : ∀ (ds : List R) {s : St W} {adj : Nat → R},
    Inv s g val adj → (∀ p ∈ ps, ∃ nd ∈ g.nodes, nd.pos = p) → ds.length < ps.length →
    ∃ e, (this.setOperandAdjByIndex ps ds : M W Unit) s = .error e := by
  clear h hn
  induction ps with
  | nil => intro ds s adj _ _ hl; simp at hl
  | cons p ps ih =>
    intro ds s adj h hp hl
    cases ds with
    | nil => exact ⟨_, rfl⟩
    | cons d ds =>
      obtain ⟨nd', h1, rfl⟩ := hp p (by simp)
      obtain ⟨m, e, i⟩ := h.setAdj h1 (adj nd'.pos +. d)
      unfold Vari.setOperandAdjByIndex
      rw [bind_ok (readTape_ok (h.recIn h1).adjAt), bind_ok (modTape_ok e)]
      exact ih ds i (fun q hq => hp q (by simp [hq])) (by simpa using hl)

omit h hn in
theorem localArr_err {α : Type} {n : Nat} {m : M W (List α)} {l : List α} {s : St W} (hm : m s = .ok (l, s))
    (hl : ¬ (n = 0 ∨ l.length = n)) : ∃ e, (localArr n m : M W (List α)) s = .error e := by
  unfold localArr
  rw [if_neg (fun h => hl (Or.inl h)), bind_ok hm]
  unfold confN
  rw [if_neg (fun h => hl (Or.inr h))]
  exact ⟨_, rfl⟩

theorem chainUn_err (hk : nd.kind = .plain) (f : R → R → R)
    (hc : cUn f (adj nd.pos) (nd.ops.map val) = none) :
    ∃ e, (chainUn f ⟨nd.pos, c⟩ : M W Unit) s = .error e := by
  have := cUn_isSome f (adj nd.pos) (nd.ops.map val)
  rw [hc] at this
  have hl : (nd.ops.map val).length ≠ 1 := by simpa using this
  unfold chainUn
  rw [bind_ok (h.opValM hn c hk)]
  exact bind_err' (conf1_err hl s)

theorem chainUnVal_err (f : R → R → R)
    (hc : cAll (nd.ops.map val).length [f (adj nd.pos) (val nd.pos)] = none) :
    ∃ e, (chainUnVal f ⟨nd.pos, c⟩ : M W Unit) s = .error e := by
  unfold chainUnVal
  rw [bind_ok (h.adjM hn c), bind_ok (h.valM hn c)]
  exact h.cAll_err hn c (by simp) hc

theorem runPlain_err (hk : nd.kind = .plain) (hok : nd.ChainOK)
    (hc : contribPlain nd.chain (val nd.pos) (adj nd.pos) (nd.ops.map val) nd.dops = none) :
    ∃ e, (Fz.runChain ⟨nd.pos, nd.chain⟩ : M W Unit) s = .error e := by
  unfold Node.ChainOK at hok
  rw [hk] at hok
  simp only at hok
  unfold Fz.runChain
  have ops2 : ∀ {f : R → R → List R}, cBin f (nd.ops.map val) = none → (nd.ops.map val).length ≠ 2 := by
    intro f hf
    have := cBin_isSome f (nd.ops.map val)
    rw [hf] at this; simpa using this
  have ops1 : ∀ {f : R → R → R} {a : R}, cUn f a (nd.ops.map val) = none → (nd.ops.map val).length ≠ 1 := by
    intro f a hf
    have := cUn_isSome f a (nd.ops.map val)
    rw [hf] at this; simpa using this
  cases hch : nd.chain <;> rw [hch] at hc <;> simp only [contribPlain] at hc <;> simp only
  case sin | cos | asin | acos | atan | sinh | cosh | tanh | asinh | acosh | atanh | inv | sq | isq | isqrt | log | logit | erf | erfc | logGamma =>
    exact h.chainUn_err hn _ hk _ hc
  case tan | sqrt | exp | invLogit => exact h.chainUnVal_err hn _ _ hc
  case dummy | hypot | norm2 | logSumExp | sum | dotVV => cases hc
  case abs =>
    unfold chainAbs
    split at hc
    · rename_i hnan
      rw [bind_ok (h.valM hn _), if_pos hnan]
      exact h.cAll_err hn _ (by simp) hc
    · cases hc
  case addVV => unfold chainAddVV; rw [bind_ok (h.adjM hn _)]; exact h.cAll_err hn _ (by simp) hc
  case addVD => unfold chainAddVD; rw [bind_ok (h.adjM hn _)]; exact h.cAll_err hn _ (by simp) hc
  case subVV => unfold chainSubVV; rw [bind_ok (h.adjM hn _)]; exact h.cAll_err hn _ (by simp) hc
  case subVD => unfold chainSubVD; rw [bind_ok (h.adjM hn _)]; exact h.cAll_err hn _ (by simp) hc
  case subDV => unfold chainSubDV; rw [bind_ok (h.adjM hn _)]; exact h.cAll_err hn _ (by simp) hc
  case mulVV => unfold chainMulVV; rw [bind_ok (h.opValM hn _ hk)]; exact bind_err' (conf2_err (ops2 hc) s)
  case divVV => unfold chainDivVV; rw [bind_ok (h.opValM hn _ hk)]; exact bind_err' (conf2_err (ops2 hc) s)
  case powVV => unfold chainPowVV; rw [bind_ok (h.opValM hn _ hk)]; exact bind_err' (conf2_err (ops2 hc) s)
  case divDV => unfold chainDivDV; rw [bind_ok (h.opValM hn _ hk)]; exact bind_err' (conf1_err (ops1 hc) s)
  case mulVD =>
    unfold chainMulVD
    rw [bind_ok (h.adjM hn _), bind_ok (h.dataM hn _)]
    unfold cDat at hc
    split at hc
    · rename_i d hd
      rw [hd, bind_ok (conf1_ok d s)]
      exact h.cAll_err hn _ (by simp) hc
    · rename_i hne
      refine bind_err' (conf1_err ?_ s)
      intro hl
      obtain ⟨d, hd⟩ := List.length_eq_one_iff.mp hl
      exact hne d hd
  case divVD =>
    unfold chainDivVD
    rw [bind_ok (h.dataM hn _)]
    unfold cDat at hc
    split at hc
    · rename_i d hd
      rw [hd, bind_ok (conf1_ok d s), bind_ok (h.adjM hn _)]
      exact h.cAll_err hn _ (by simp) hc
    · rename_i hne
      refine bind_err' (conf1_err ?_ s)
      intro hl
      obtain ⟨d, hd⟩ := List.length_eq_one_iff.mp hl
      exact hne d hd
  case powVD =>
    unfold chainPowVD
    rw [bind_ok (h.opValM hn _ hk)]
    split at hc
    · split at hc <;> cases hc
    · rename_i hne
      by_cases hx : (nd.ops.map val).length = 1
      · obtain ⟨x, hx⟩ := List.length_eq_one_iff.mp hx
        rw [hx, bind_ok (conf1_ok x s), bind_ok (h.dataM hn _)]
        refine bind_err' (conf1_err ?_ s)
        intro hl
        obtain ⟨d, hd⟩ := List.length_eq_one_iff.mp hl
        exact hne x d hx hd
      · exact bind_err' (conf1_err hx s)
  case powDV =>
    unfold chainPowDV
    rw [bind_ok (h.dataM hn _)]
    split at hc
    · rename_i d hd
      split at hc
      · rename_i hz
        rw [hd, bind_ok (conf1_ok d s), if_pos hz, bind_ok (h.adjM hn _), bind_ok (h.valM hn _)]
        exact h.cAll_err hn _ (by simp) hc
      · cases hc
    · rename_i hne
      refine bind_err' (conf1_err ?_ s)
      intro hl
      obtain ⟨d, hd⟩ := List.length_eq_one_iff.mp hl
      exact hne d hd
  case dotVD =>
    unfold cAll at hc
    split at hc
    · cases hc
    · rename_i hl
      unfold chainDotVD chainDotProductVD
      rw [bind_ok (h.opIdxM hn _), bind_ok (h.dataM hn _), bind_ok (h.adjM hn _)]
      refine h.setByIndex_err hn _ _ _ h (fun p hp => ?_) (by simpa using hl)
      exact (h.wf.args nd hn p (by simpa [Node.args, hk] using hp)).2
  case matmulVV =>
    unfold chainMatmulVV
    rw [bind_ok (h.opIdxM hn _), hok (by simp [hch])]
    exact bind_err' (conf4_err (by simp) s)
  case matmulVD =>
    unfold chainMatmulVD
    rw [bind_ok (h.opIdxM hn _), hok (by simp [hch])]
    exact bind_err' (conf4_err (by simp) s)
  case matmulDV =>
    unfold chainMatmulDV
    rw [bind_ok (h.opIdxM hn _), hok (by simp [hch])]
    exact bind_err' (conf4_err (by simp) s)
  case eager =>
    split at hc
    · cases hc
    · rename_i hl
      unfold chainEager
      rw [bind_ok (h.nOpM hn _), bind_ok (h.adjM hn _), bind_ok (h.dataM hn _)]
      refine bind_err' ?_
      unfold confN
      rw [if_neg (by simpa using hl)]
      exact ⟨_, rfl⟩
  case user r =>
    unfold chainUser
    by_cases hf : r.fits = true
    · rw [if_pos hf]
      cases r with
      | fixed n m es =>
        simp only [cUser] at hc
        split at hc
        · cases hc
        · rename_i hl
          simp only
          by_cases h1 : n = 0 ∨ (nd.ops.map val).length = n
          · rw [bind_ok (localArr_ok (h.opValM hn _ hk) h1)]
            by_cases h2 : m = 0 ∨ nd.dops.length = m
            · rw [bind_ok (localArr_ok (h.dataM hn _) h2), bind_ok (h.adjM hn _), bind_ok (h.valM hn _)]
              refine h.setAll_err hn _ ?_
              by_contra h3
              refine hl ⟨hf, h1, h2, ?_⟩
              simpa [URule.eval] using h3
            · exact bind_err' (localArr_err (h.dataM hn _) h2)
          · exact bind_err' (localArr_err (h.opValM hn _ hk) h1)
      | each m le =>
        simp only [cUser] at hc
        split at hc
        · cases hc
        · rename_i hl
          simp only
          rw [bind_ok (h.opValM hn _ hk)]
          exact bind_err' (localArr_err (h.dataM hn _) fun h2 => hl ⟨hf, h2⟩)
    · rw [if_neg hf]
      exact ⟨_, rfl⟩

/-- a chain procedure of `+ 0.0` etc. on an entry of a matrix product -/
theorem runOver_err (h4 : nd.ops.length = 4) (hd : nd.dops = [])
    (hc : nd.chain.isNeutral) :
    ∃ e, (Fz.runChain ⟨nd.pos, nd.chain⟩ : M W Unit) s = .error e := by
  unfold Fz.runChain
  rcases hc with hc | hc | hc | hc <;> rw [hc] <;> simp only
  · unfold chainAddVD; rw [bind_ok (h.adjM hn _)]; exact h.setAll_err hn _ (by simp [h4])
  · unfold chainSubVD; rw [bind_ok (h.adjM hn _)]; exact h.setAll_err hn _ (by simp [h4])
  · unfold chainMulVD
    rw [bind_ok (h.adjM hn _), bind_ok (h.dataM hn _), hd]
    exact bind_err' (conf1_err (by simp) s)
  · unfold chainDivVD
    rw [bind_ok (h.dataM hn _), hd]
    exact bind_err' (conf1_err (by simp) s)

/-- a chain procedure that does not fit its record fails -/
theorem runChain_err (hok : nd.ChainOK) (hc : nd.contrib val adj = none) :
    ∃ e, (Fz.runChain ⟨nd.pos, nd.chain⟩ : M W Unit) s = .error e := by
  have hkd := h.wf.kinds nd hn
  unfold Node.contrib at hc
  unfold KindOK at hkd
  split at hc
  · rename_i hk
    exact h.runPlain_err hn hk hok hc
  · rename_i r k hk
    unfold Node.ChainOK at hok
    rw [hk] at hkd hok
    obtain ⟨i, j, la, m, n, ids, lb, k', ids', ho, hb, hb', hi, hj, hr, hcl⟩ := hkd
    have l1 := cmRow_length (h.wf.bgood _ hb).1 hi
    have l2 := cmCol_length (h.wf.bgood _ hb').1 hj
    obtain ⟨hd, hch | hch⟩ := hok
    · rw [if_pos ⟨hch, by rw [hr, hcl, l1, l2]⟩] at hc
      cases hc
    · exact h.runOver_err hn (by simp [ho]) hd hch
  · rename_i r k hk
    unfold Node.ChainOK at hok
    rw [hk] at hkd hok
    obtain ⟨i, j, la, m, n, ids, lb, k', ids', ho, hb, hb', hi, hj, hr, hcl⟩ := hkd
    have l1 := cmRow_length (h.wf.bgood _ hb).1 hi
    have l2 := cmCol_length (h.wf.bgood _ hb').1 hj
    obtain ⟨hd, hch | hch⟩ := hok
    · rw [if_pos ⟨hch, by rw [hr, hcl, l1, l2]⟩] at hc
      cases hc
    · exact h.runOver_err hn (by simp [ho]) hd hch
  · rename_i r k hk
    unfold Node.ChainOK at hok
    rw [hk] at hkd hok
    obtain ⟨i, j, la, m, n, ids, lb, k', ids', ho, hb, hb', hi, hj, hr, hcl⟩ := hkd
    have l1 := cmRow_length (h.wf.bgood _ hb).1 hi
    have l2 := cmCol_length (h.wf.bgood _ hb').1 hj
    obtain ⟨hd, hch | hch⟩ := hok
    · rw [if_pos ⟨hch, by rw [hr, hcl, l1, l2]⟩] at hc
      cases hc
    · exact h.runOver_err hn (by simp [ho]) hd hch

end Inv

variable {s : St W} {g : Graph R} {val adj : Nat → R}

/-- a sweep that completes has only run chain procedures that fit -/
theorem chainLoop_fits (hok : ∀ nd ∈ g.nodes, nd.ChainOK ∨ nd.Fits val) (i : Nat) : ∀ (n : Nat) {s s' : St W}
    {adj : Nat → R}, Inv s g val adj → i + n ≤ g.nodes.length →
    (chainLoop (i + 1) n : M W Unit) s = .ok ((), s') →
    ∀ nd ∈ (g.nodes.drop i).take n, nd.Fits val := by
  intro n
  induction n with
  | zero => intro s s' adj _ _ _ nd hnd; simp at hnd
  | succ n ih =>
    intro s s' adj h hle hrun
    have hlt : i + n < g.nodes.length := by omega
    rw [Inv.take_drop_succ _ _ _ hlt]
    have hmem : g.nodes[i + n] ∈ g.nodes := List.getElem_mem hlt
    have hg := h.getVari (List.getElem?_eq_getElem hlt)
    unfold chainLoop at hrun
    rw [show i + 1 + n = i + n + 1 by omega, bind_ok hg] at hrun
    cases hc : (g.nodes[i + n]).contrib val adj with
    | none =>
      rcases hok _ hmem with hok | hok
      · obtain ⟨e, he⟩ := h.runChain_err hmem hok hc
        rw [bind_err he] at hrun
        cases hrun
      · obtain ⟨l, hl⟩ := hok adj
        rw [hc] at hl; cases hl
    | some l =>
      obtain ⟨m, e, iv⟩ := h.runChain hmem hc
      rw [bind_ok e] at hrun
      intro nd hnd
      rcases List.mem_append.mp hnd with hnd | hnd
      · exact ih iv (by omega) hrun nd hnd
      · simp only [List.mem_singleton] at hnd
        rw [hnd]
        exact fits_of_some hc

end Fz
