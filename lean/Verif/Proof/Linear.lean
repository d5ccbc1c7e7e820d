import Verif.Proof.GradTop

/-!
# Sweeps are linear in the adjoints; tangents exist for any sources
-/

set_option linter.unusedSectionVars false

namespace Fz
open Arith Spec

/-- contributions are multiples of the adjoint -/
theorem contribPlain_linear (c : Chain) (v : ℝ) (xs ds : List ℝ) :
    ∃ cs : List ℝ, ∀ a l, contribPlain c v a xs ds = some l → l = cs.map fun k => a * k := by
  have un : ∀ (f : ℝ → ℝ → ℝ), (∀ a x, f a x = a * f 1 x) →
      ∃ cs : List ℝ, ∀ a l, cUn f a xs = some l → l = cs.map fun k => a * k := by
    intro f hf
    match xs with
    | [x] =>
      refine ⟨[f 1 x], fun a l e => ?_⟩
      simp only [cUn, Option.some.injEq] at e
      subst e
      simp [hf a x]
    | [] => exact ⟨[], fun a l e => by simp [cUn] at e⟩
    | _ :: _ :: _ => exact ⟨[], fun a l e => by simp [cUn] at e⟩
  have all : ∀ (f : ℝ → List ℝ) (cs : List ℝ), (∀ a, f a = cs.map fun k => a * k) →
      ∃ cs : List ℝ, ∀ a l, cAll xs.length (f a) = some l → l = cs.map fun k => a * k := by
    intro f cs hf
    refine ⟨cs, fun a l e => ?_⟩
    unfold cAll at e
    split at e
    · simp only [Option.some.injEq] at e
      rw [← e, hf]
    · cases e
  have bin : ∀ (f : ℝ → ℝ → ℝ → List ℝ), (∀ x y, ∃ cs : List ℝ, ∀ a, f a x y = cs.map fun k => a * k) →
      ∃ cs : List ℝ, ∀ a l, cBin (f a) xs = some l → l = cs.map fun k => a * k := by
    intro f hf
    match xs with
    | [x, y] =>
      obtain ⟨cs, h⟩ := hf x y
      refine ⟨cs, fun a l e => ?_⟩
      simp only [cBin, Option.some.injEq] at e
      rw [← e, h]
    | [] => exact ⟨[], fun a l e => by simp [cBin] at e⟩
    | [_] => exact ⟨[], fun a l e => by simp [cBin] at e⟩
    | _ :: _ :: _ :: _ => exact ⟨[], fun a l e => by simp [cBin] at e⟩
  have dat : ∀ (f : ℝ → ℝ → ℝ), (∀ a d, f a d = a * f 1 d) →
      ∃ cs : List ℝ, ∀ a l, cDat xs.length (f a) ds = some l → l = cs.map fun k => a * k := by
    intro f hf
    match ds with
    | [d] =>
      obtain ⟨cs, h⟩ := all (fun a => [f a d]) [f 1 d] (fun a => by simp [hf a d])
      exact ⟨cs, fun a l e => h a l e⟩
    | [] => exact ⟨[], fun a l e => by simp [cDat] at e⟩
    | _ :: _ :: _ => exact ⟨[], fun a l e => by simp [cDat] at e⟩
  have mp : ∀ (f : ℝ → ℝ → ℝ) (us : List ℝ), (∀ a x, f a x = a * f 1 x) →
      ∃ cs : List ℝ, ∀ a l, some (us.map (f a)) = some l → l = cs.map fun k => a * k := by
    intro f us hf
    refine ⟨us.map (f 1), fun a l e => ?_⟩
    simp only [Option.some.injEq] at e
    rw [← e, List.map_map]
    exact List.map_congr_left fun x _ => hf a x
  have none' : ∃ cs : List ℝ, ∀ (a : ℝ) (l : List ℝ), (none : Option (List ℝ)) = some l →
      l = cs.map fun k => a * k := ⟨[], fun a l e => by cases e⟩
  have nil' : ∃ cs : List ℝ, ∀ (a : ℝ) (l : List ℝ), some ([] : List ℝ) = some l →
      l = cs.map fun k => a * k := ⟨[], fun a l e => by cases e; rfl⟩
  have nn : isNanD v = false := by simp [isNanD, fne]
  cases c <;> simp only [contribPlain, rAdd, rSub, rMul, rDiv, rNeg, nn]
  case dummy => exact nil'
  case abs => exact nil'
  case tan => exact all _ [1 + v * v] (fun a => by simp)
  case sqrt => exact all _ [1 / 2 / v] (fun a => by simp; ring)
  case exp => exact all _ [v] (fun a => by simp)
  case invLogit => exact all _ [v * (1 - v)] (fun a => by simp; ring)
  case addVV => exact all _ [1, 1] (fun a => by simp)
  case addVD => exact all _ [1] (fun a => by simp)
  case subVV => exact all _ [1, -1] (fun a => by simp)
  case subVD => exact all _ [1] (fun a => by simp)
  case subDV => exact all _ [-1] (fun a => by simp)
  case mulVV =>
    exact bin (fun a x y => [y * a, x * a]) fun x y => ⟨[y, x], fun a => by simp [mul_comm]⟩
  case mulVD => exact dat _ fun a d => by ring
  case divVV =>
    refine bin (fun a _ y => [a / y, -(v * a / y)]) fun x y => ⟨[1 / y, -(v / y)], fun a => ?_⟩
    simp only [List.map_cons, List.map_nil]
    congr 1
    · ring
    · congr 1; ring
  case divVD => exact dat _ fun a d => by ring
  case powVV =>
    refine bin (fun a x y => if fne x zero = true then [a * y * v / x, a * v * log x] else []) fun x y => ?_
    by_cases hx : fne x zero = true
    · refine ⟨[y * v / x, v * log x], fun a => ?_⟩
      simp only [hx, if_true, List.map_cons, List.map_nil]
      congr 1
      · ring
      · congr 1; ring
    · exact ⟨[], fun a => by rw [if_neg hx]; rfl⟩
  case powVD =>
    match xs, ds with
    | [x], [d] =>
      simp only
      split
      · refine ⟨[d * v / x], fun a l e => ?_⟩
        cases e
        simp only [List.map_cons, List.map_nil]
        congr 1; ring
      · exact nil'
    | [], _ => exact none'
    | [_], [] => exact none'
    | [_], _ :: _ :: _ => exact none'
    | _ :: _ :: _, _ => exact none'
  case powDV =>
    match ds with
    | [d] =>
      simp only
      split
      · exact all _ [v * log d] (fun a => by simp; ring)
      · exact nil'
    | [] => exact none'
    | _ :: _ :: _ => exact none'
  case hypot => exact mp (fun a x => a * x / v) xs fun a x => by ring
  case sum =>
    refine ⟨List.replicate xs.length 1, fun a l e => ?_⟩
    cases e
    simp
  case norm2 => exact mp (fun a x => a * x / v) xs fun a x => by ring
  case logSumExp => exact mp (fun a x => a * exp (x - v)) xs fun a x => by ring
  case dotVV =>
    refine ⟨cDot 1 (xs.length / 2) xs, fun a l e => ?_⟩
    cases e
    simp [cDot, Function.comp_def]
  case dotVD =>
    exact all _ ds (fun a => rfl)
  case matmulVV => exact none'
  case matmulVD => exact none'
  case matmulDV => exact none'
  case eager =>
    split
    · exact mp (fun a x => a * x) ds fun a x => by ring
    · exact none'
  case user r =>
    cases r with
    | fixed n m es =>
      simp only [cUser]
      split
      · refine ⟨(URule.fixed n m es).eval 1 v (locArr n xs) (locArr m ds), fun a l e => ?_⟩
        cases e
        exact URule.eval_linear _ a _ _ _
      · exact none'
    | each m le =>
      simp only [cUser]
      split
      · refine ⟨(URule.each m le).eval 1 v xs (locArr m ds), fun a l e => ?_⟩
        cases e
        exact URule.eval_linear _ a _ _ _
      · exact none'
  all_goals exact un _ fun a x => by ring

theorem contrib_linear (nd : Node ℝ) (val : Nat → ℝ) :
    ∃ cs : List ℝ, ∀ adj l, nd.contrib val adj = some l → l = cs.map fun k => adj nd.pos * k := by
  unfold Node.contrib
  cases nd.kind with
  | plain =>
    obtain ⟨cs, h⟩ := contribPlain_linear nd.chain (val nd.pos) (nd.ops.map val) nd.dops
    exact ⟨cs, fun adj l e => h _ l e⟩
  | mmVV r c =>
    refine ⟨cDot 1 r.length ((r ++ c).map val), fun adj l e => ?_⟩
    simp only at e
    split at e
    · cases e
      simp [cDot, Function.comp_def]
    · cases e
  | mmVD r d =>
    refine ⟨d, fun adj l e => ?_⟩
    simp only at e
    split at e
    · cases e; rfl
    · cases e
  | mmDV d c =>
    refine ⟨d, fun adj l e => ?_⟩
    simp only at e
    split at e
    · cases e; rfl
    · cases e

variable {V : Type} [AddCommGroup V] [Module ℝ V]

/-- tangents obeying the rules exist for any sources -/
theorem exists_tangent (val : Nat → ℝ) (ε : Nat → V) : ∀ (l : List (Node ℝ)),
    (l.Pairwise fun a b => a.pos < b.pos) → (∀ nd ∈ l, ∀ p ∈ nd.args, p < nd.pos) →
    ∃ D : Nat → V, ∀ nd ∈ l, Rule val D ε nd := by
  intro l
  induction l using List.reverseRecOn with
  | nil => intros; exact ⟨fun _ => 0, by simp⟩
  | append_singleton l nd ih =>
    intro hs ha
    have hs' := List.pairwise_append.mp hs
    obtain ⟨D, hD⟩ := ih hs'.1 (fun x hx => ha x (List.mem_append_left _ hx))
    obtain ⟨cs, hcs⟩ := contrib_linear nd val
    refine ⟨fun q => if q = nd.pos then ε nd.pos + zsum cs nd.args D else D q, fun x hx => ?_⟩
    rcases List.mem_append.mp hx with hx | hx
    · have hlt : x.pos < nd.pos := hs'.2.2 x hx nd (by simp)
      refine Rule.congr (hD x hx) rfl (if_neg (by omega)) rfl (fun _ _ => rfl) fun p hp => if_neg ?_
      have := ha x (List.mem_append_left _ hx) p hp
      omega
    · simp only [List.mem_singleton] at hx
      subst hx
      intro adj c hc
      rw [hcs adj c hc, zsum_smul]
      simp only [if_true, smul_add]
      congr 2
      exact zsum_congr _ _ fun p hp => (if_neg (by have := ha x (by simp) p hp; omega)).symm

theorem Graph.WF.tangent {g : Graph ℝ} {hd : Nat} (wf : g.WF hd) (val : Nat → ℝ) (ε : Nat → V) :
    ∃ D : Nat → V, ∀ nd ∈ g.nodes, Rule val D ε nd :=
  exists_tangent val ε g.nodes (wf.sorted.imp fun h => by simp only [Node.len] at h; omega)
    fun nd hn p hp => (wf.args nd hn p hp).1

end Fz
