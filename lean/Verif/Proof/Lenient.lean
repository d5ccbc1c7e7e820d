import Verif.Model.Lenient
import Verif.Proof.LiveRun

/-!
# Chain procedures without checks of array shapes: agreement, and records without operands

`runChainL` does what `runChain` does where the latter does not fail, and does nothing on a record without operands,
whatever chain procedure it has (except those of matrix products).
-/

set_option linter.unusedSectionVars false

namespace Fz
variable {W R : Type} [Arith R] [Rep W R]
open Arith Spec

/-- `m'` does what `m` does, where `m` does not fail -/
def Refines {α : Type} (m' m : M W α) : Prop := ∀ s a s', m s = .ok (a, s') → m' s = .ok (a, s')

theorem Refines.rfl {α : Type} {m : M W α} : Refines m m := fun _ _ _ h => h

theorem Refines.bind {α β : Type} {m' m : M W α} {k' k : α → M W β} (h : Refines m' m) (hk : ∀ a, Refines (k' a) (k a)) :
    Refines (m' >>= k') (m >>= k) := by
  intro s b s' e
  obtain ⟨a, s1, e1, e2⟩ := bind_inv e
  rw [bind_ok (h _ _ _ e1)]
  exact hk _ _ _ _ e2

theorem refines_fill1 (J : Junk W R) (this : Vari) (k : Nat) (l : List R) : Refines (fill1 J this k l) (conf1 l) := by
  intro s a s' e
  match l, e with
  | [x], e => cases e; rfl

theorem refines_fill2 (J : Junk W R) (this : Vari) (k : Nat) (l : List R) : Refines (fill2 J this k l) (conf2 l) := by
  intro s a s' e
  match l, e with
  | [x, y], e => cases e; rfl

theorem refines_fillN (J : Junk W R) (this : Vari) (k n : Nat) (l : List R) :
    Refines (fillN J this k n l) (confN n l) := by
  intro s a s' e
  unfold confN at e
  split at e
  · rename_i hl
    cases e
    unfold fillN
    have : (List.range n).map (fun i => l.getD i (J this k s i)) = l := by
      refine List.ext_getElem (by simp [hl]) fun i h1 h2 => ?_
      simp [List.getD_eq_getElem?_getD, h2]
    rw [this]
  · cases e

theorem refines_localArr (J : Junk W R) (this : Vari) (k n : Nat) (m : M W (List R)) :
    Refines (localArrL J this k n m) (localArr n m) := by
  unfold localArrL localArr
  split
  · exact .rfl
  · exact .bind .rfl fun l => refines_fillN J this k n l

theorem refines_chainUn (J : Junk W R) (f : R → R → R) (this : Vari) : Refines (chainUnL J f this) (chainUn f this) :=
  .bind .rfl fun _ => .bind (refines_fill1 _ _ _ _) fun _ => .rfl

/-- **agreement** -/
theorem refines_runChain (J : Junk W R) (this : Vari) : Refines (runChainL J this) (runChain this) := by
  unfold runChainL runChain
  cases this.chain <;> simp only
  case sin | cos | asin | acos | atan | sinh | cosh | tanh | asinh | acosh | atanh | inv | sq | isq | isqrt | log | logit | erf | erfc | logGamma =>
    exact refines_chainUn _ _ _
  case mulVV => exact .bind .rfl fun _ => .bind (refines_fill2 _ _ _ _) fun _ => .rfl
  case mulVD => exact .bind .rfl fun _ => .bind .rfl fun _ => .bind (refines_fill1 _ _ _ _) fun _ => .rfl
  case divVV => exact .bind .rfl fun _ => .bind (refines_fill2 _ _ _ _) fun _ => .rfl
  case divVD => exact .bind .rfl fun _ => .bind (refines_fill1 _ _ _ _) fun _ => .rfl
  case divDV => exact .bind .rfl fun _ => .bind (refines_fill1 _ _ _ _) fun _ => .rfl
  case powVV => exact .bind .rfl fun _ => .bind (refines_fill2 _ _ _ _) fun _ => .rfl
  case powVD =>
    exact .bind .rfl fun _ => .bind (refines_fill1 _ _ _ _) fun _ => .bind .rfl fun _ => .bind (refines_fill1 _ _ _ _) fun _ => .rfl
  case powDV => exact .bind .rfl fun _ => .bind (refines_fill1 _ _ _ _) fun _ => .rfl
  case eager => exact .bind .rfl fun _ => .bind .rfl fun _ => .bind .rfl fun _ => .bind (refines_fillN _ _ _ _ _) fun _ => .rfl
  case user r =>
    unfold chainUserL chainUser
    split
    · cases r with
      | fixed n m es =>
        exact .bind (refines_localArr _ _ _ _ _) fun _ => .bind (refines_localArr _ _ _ _ _) fun _ => .rfl
      | each m e => exact .bind .rfl fun _ => .bind (refines_localArr _ _ _ _ _) fun _ => .rfl
    · exact .rfl
  all_goals exact .rfl

/-- chain procedures that leave a record without operands alone -/
def Chain.Tame : Chain → Prop
  | .matmulVV | .matmulVD | .matmulDV => False
  | .user r => r.fits = true
  | _ => True

theorem Chain.Tame.notMM {c : Chain} (h : c.Tame) : c.notMM := by
  cases c <;> simp_all [Chain.Tame, Chain.notMM]

section leaf
variable [LawfulRep W R] {s t : St W} {g : Graph R} {val adj : Nat → R} {nd : Node R}

theorem readTape_akin {α : Type} {f : Tape W → Except Err α} {a : α} (ht : s.tape = t.tape)
    (e : readTape f t = .ok (a, t)) : readTape f s = .ok (a, s) := by
  unfold readTape at e ⊢
  rw [ht]
  split at e
  · cases e; rfl
  · cases e

theorem setAll_leaf (ht : s.tape = t.tape) (h : Inv t g val adj) (hn : nd ∈ g.nodes) (ho : nd.ops = []) (c : Chain) (d : List R) :
    (Vari.setOperandAdjAll ⟨nd.pos, c⟩ d : M W Unit) s = .ok ((), s) := by
  unfold Vari.setOperandAdjAll
  have en : (Vari.nOperand ⟨nd.pos, c⟩ : M W Nat) s = .ok (nd.ops.length, s) := readTape_akin ht (h.nOpM hn c)
  rw [bind_ok en, ho]
  have e : (Vari.operandIndex ⟨nd.pos, c⟩ : M W (List Nat)) s = .ok (nd.ops, s) := readTape_akin ht (h.opIdxM hn c)
  rw [ho] at e
  rw [if_neg (by simp), bind_ok e]
  rfl

/-- **on a record without operands** nothing happens -/
theorem runChainL_leaf (J : Junk W R) (ht : s.tape = t.tape) (h : Inv t g val adj) (hn : nd ∈ g.nodes) (hk : nd.kind = .plain)
    (ho : nd.ops = []) {c : Chain} (hc : c.Tame) : (runChainL J ⟨nd.pos, c⟩ : M W Unit) s = .ok ((), s) := by
  have ea : (Vari.adj ⟨nd.pos, c⟩ : M W R) s = .ok (adj nd.pos, s) := readTape_akin ht (h.adjM hn c)
  have ev : (Vari.val ⟨nd.pos, c⟩ : M W R) s = .ok (val nd.pos, s) := readTape_akin ht (h.valM hn c)
  have en : (Vari.nOperand ⟨nd.pos, c⟩ : M W Nat) s = .ok (nd.ops.length, s) := readTape_akin ht (h.nOpM hn c)
  have ei : (Vari.operandIndex ⟨nd.pos, c⟩ : M W (List Nat)) s = .ok (nd.ops, s) := readTape_akin ht (h.opIdxM hn c)
  have ed : (Vari.dataOperand ⟨nd.pos, c⟩ : M W (List R)) s = .ok (nd.dops, s) := readTape_akin ht (h.dataM hn c)
  have eo : (Vari.operandVal ⟨nd.pos, c⟩ : M W (List R)) s = .ok (nd.ops.map val, s) := readTape_akin ht (h.opValM hn c hk)
  have es := fun d => setAll_leaf ht h hn ho c d
  rw [ho] at en ei eo
  simp only [List.map_nil, List.length_nil] at en ei eo
  have un : ∀ f : R → R → R, (chainUnL J f ⟨nd.pos, c⟩ : M W Unit) s = .ok ((), s) := by
    intro f
    unfold chainUnL fill1
    rw [bind_ok eo, bind_ok rfl, bind_ok ea]
    exact es _
  have uv : ∀ f : R → R → R, (chainUnVal f ⟨nd.pos, c⟩ : M W Unit) s = .ok ((), s) := by
    intro f
    unfold chainUnVal
    rw [bind_ok ea, bind_ok ev]
    exact es _
  have loc : ∀ k n (m : M W (List R)) l, m s = .ok (l, s) → ∃ l', (localArrL J ⟨nd.pos, c⟩ k n m : M W (List R)) s = .ok (l', s) := by
    intro k n m l hm
    unfold localArrL
    split
    · exact ⟨_, rfl⟩
    · rw [bind_ok hm]
      exact ⟨_, rfl⟩
  cases c with
  | matmulVV => exact hc.elim
  | matmulVD => exact hc.elim
  | matmulDV => exact hc.elim
  | dummy => rfl
  | sin => exact un _
  | cos => exact un _
  | asin => exact un _
  | acos => exact un _
  | atan => exact un _
  | sinh => exact un _
  | cosh => exact un _
  | tanh => exact un _
  | asinh => exact un _
  | acosh => exact un _
  | atanh => exact un _
  | inv => exact un _
  | sq => exact un _
  | isq => exact un _
  | isqrt => exact un _
  | log => exact un _
  | logit => exact un _
  | erf => exact un _
  | erfc => exact un _
  | logGamma => exact un _
  | tan => exact uv _
  | sqrt => exact uv _
  | exp => exact uv _
  | invLogit => exact uv _
  | abs =>
    simp only [runChainL, runChain, chainAbs]
    rw [bind_ok ev]
    split
    · exact es _
    · rfl
  | addVV => simp only [runChainL, runChain, chainAddVV]; rw [bind_ok ea]; exact es _
  | addVD => simp only [runChainL, runChain, chainAddVD]; rw [bind_ok ea]; exact es _
  | subVV => simp only [runChainL, runChain, chainSubVV]; rw [bind_ok ea]; exact es _
  | subVD => simp only [runChainL, runChain, chainSubVD]; rw [bind_ok ea]; exact es _
  | subDV => simp only [runChainL, runChain, chainSubDV]; rw [bind_ok ea]; exact es _
  | mulVV =>
    simp only [runChainL, chainMulVVL, fill2]
    rw [bind_ok eo, bind_ok rfl]
    dsimp only
    rw [bind_ok ea]
    exact es _
  | mulVD =>
    simp only [runChainL, chainMulVDL, fill1]
    rw [bind_ok ea, bind_ok ed, bind_ok rfl]
    exact es _
  | divVV =>
    simp only [runChainL, chainDivVVL, fill2]
    rw [bind_ok eo, bind_ok rfl]
    dsimp only
    rw [bind_ok ea, bind_ok ev]
    exact es _
  | divVD =>
    simp only [runChainL, chainDivVDL, fill1]
    rw [bind_ok ed, bind_ok rfl, bind_ok ea]
    exact es _
  | divDV =>
    simp only [runChainL, chainDivDVL, fill1]
    rw [bind_ok eo, bind_ok rfl, bind_ok ea, bind_ok ev]
    exact es _
  | powVV =>
    simp only [runChainL, chainPowVVL, fill2]
    rw [bind_ok eo, bind_ok rfl]
    dsimp only
    split
    · rw [bind_ok ea, bind_ok ev]
      exact es _
    · rfl
  | powVD =>
    simp only [runChainL, chainPowVDL, fill1]
    rw [bind_ok eo, bind_ok rfl, bind_ok ed, bind_ok rfl]
    split
    · rw [bind_ok ea, bind_ok ev]
      exact es _
    · rfl
  | powDV =>
    simp only [runChainL, chainPowDVL, fill1]
    rw [bind_ok ed, bind_ok rfl]
    split
    · rw [bind_ok ea, bind_ok ev]
      exact es _
    · rfl
  | hypot => simp only [runChainL, runChain, chainHypot]; rw [bind_ok eo, bind_ok ea, bind_ok ev]; exact es _
  | norm2 => simp only [runChainL, runChain, chainHypot]; rw [bind_ok eo, bind_ok ea, bind_ok ev]; exact es _
  | logSumExp => simp only [runChainL, runChain, chainLogSumExp]; rw [bind_ok eo, bind_ok ea, bind_ok ev]; exact es _
  | sum => simp only [runChainL, runChain, chainSum]; rw [bind_ok en, bind_ok ea]; exact es _
  | dotVV =>
    simp only [runChainL, runChain, chainDotVV]
    rw [bind_ok en, bind_ok ei]
    simp only [List.take_nil, List.drop_nil, chainDotProductVV]
    rw [bind_ok ea, bind_ok (a := ([] : List R)) (s' := s) rfl, bind_ok (a := ([] : List R)) (s' := s) rfl,
      bind_ok (a := ()) (s' := s) rfl, bind_ok ea, bind_ok (a := ([] : List R)) (s' := s) rfl]
    rfl
  | dotVD =>
    simp only [runChainL, runChain, chainDotVD]
    rw [bind_ok ei, bind_ok ed]
    simp only [chainDotProductVD]
    rw [bind_ok ea]
    rfl
  | eager =>
    simp only [runChainL, chainEagerL, fillN]
    rw [bind_ok en, bind_ok ea, bind_ok ed, bind_ok rfl]
    exact es _
  | user r =>
    have hf : r.fits = true := hc
    simp only [runChainL, chainUserL]
    rw [if_pos hf]
    cases r with
    | fixed n m es' =>
      obtain ⟨l1, e1⟩ := loc 0 n _ _ eo
      obtain ⟨l2, e2⟩ := loc 1 m _ _ ed
      simp only
      rw [bind_ok e1, bind_ok e2, bind_ok ea, bind_ok ev]
      exact es _
    | each m e =>
      obtain ⟨l2, e2⟩ := loc 1 m _ _ ed
      simp only
      rw [bind_ok eo, bind_ok e2, bind_ok ea, bind_ok ev]
      exact es _

end leaf
end Fz
