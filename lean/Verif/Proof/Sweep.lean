import Verif.Model.RealArith
import Verif.Proof.Nested
import Mathlib.Algebra.Module.Basic
import Mathlib.Tactic.Abel
import Mathlib.Algebra.BigOperators.Group.List.Basic

/-!
# The reverse sweep in exact arithmetic

`Rule`: a record passes its adjoint on in accordance with the tangents `D`.  The pairing of adjoints
with tangents is the same before and after a sweep.
-/

set_option linter.unusedSectionVars false

namespace Fz
open Arith

variable {V : Type} [AddCommGroup V] [Module ℝ V]

/-- `Σ lᵢ • D argsᵢ` over the common length -/
def zsum : List ℝ → List Nat → (Nat → V) → V
  | c :: cs, p :: ps, D => c • D p + zsum cs ps D
  | _, _, _ => 0

theorem zsum_nil (ps : List Nat) (D : Nat → V) : zsum [] ps D = 0 := rfl
theorem zsum_nil' (cs : List ℝ) (D : Nat → V) : zsum cs [] D = 0 := by cases cs <;> rfl

theorem zsum_congr {D D' : Nat → V} : ∀ (cs : List ℝ) (ps : List Nat), (∀ p ∈ ps, D p = D' p) →
    zsum cs ps D = zsum cs ps D'
  | [], _, _ => rfl
  | _ :: _, [], _ => rfl
  | c :: cs, p :: ps, h => by
    simp only [zsum]
    rw [h p (by simp), zsum_congr cs ps fun q hq => h q (by simp [hq])]

theorem zsum_smul (a : ℝ) : ∀ (cs : List ℝ) (ps : List Nat) (D : Nat → V),
    zsum (cs.map fun c => a * c) ps D = a • zsum cs ps D
  | [], _, _ => by simp [zsum]
  | _ :: _, [], _ => by simp [zsum]
  | c :: cs, p :: ps, D => by
    simp only [List.map_cons, zsum, smul_add, zsum_smul a cs ps D, mul_smul]

theorem zsum_append : ∀ (cs cs' : List ℝ) (ps ps' : List Nat) (D : Nat → V), cs.length = ps.length →
    zsum (cs ++ cs') (ps ++ ps') D = zsum cs ps D + zsum cs' ps' D
  | [], _, [], _, _, _ => by simp [zsum]
  | c :: cs, cs', p :: ps, ps', D, h => by
    simp only [List.cons_append, zsum]
    rw [zsum_append cs cs' ps ps' D (by simpa using h)]
    abel

theorem zsum_zero : ∀ (cs : List ℝ) (ps : List Nat), zsum cs ps (fun _ => (0 : V)) = 0
  | [], _ => rfl
  | _ :: _, [] => rfl
  | c :: cs, p :: ps => by simp [zsum, zsum_zero cs ps]

/-- pairing of adjoints and tangents over a list of positions -/
def pair (P : List Nat) (adj : Nat → ℝ) (D : Nat → V) : V := (P.map fun p => adj p • D p).sum

theorem pair_append (P Q : List Nat) (adj : Nat → ℝ) (D : Nat → V) :
    pair (P ++ Q) adj D = pair P adj D + pair Q adj D := by simp [pair]

theorem pair_congr {P : List Nat} {adj adj' : Nat → ℝ} {D D' : Nat → V}
    (h : ∀ p ∈ P, adj p = adj' p) (h' : ∀ p ∈ P, D p = D' p) : pair P adj D = pair P adj' D' := by
  unfold pair
  congr 1
  apply List.map_congr_left
  intro p hp
  rw [h p hp, h' p hp]

theorem pair_upd (P : List Nat) (hn : P.Nodup) (adj : Nat → ℝ) (D : Nat → V) (q : Nat) (d : ℝ)
    (hq : q ∈ P) : pair P (upd adj q (adj q +. d)) D = pair P adj D + d • D q := by
  induction P with
  | nil => simp at hq
  | cons p P ih =>
    have hn' := List.nodup_cons.mp hn
    have e : ∀ (a : Nat → ℝ), pair (p :: P) a D = a p • D p + pair P a D := fun a => by simp [pair]
    rw [e, e]
    by_cases hpq : q = p
    · subst hpq
      have : pair P (upd adj q (adj q +. d)) D = pair P adj D :=
        pair_congr (fun x hx => upd_ne _ _ (fun he => hn'.1 (he ▸ hx))) (fun _ _ => rfl)
      rw [this, upd_self]
      show (adj q + d) • D q + _ = _
      rw [add_smul]; abel
    · have hq' : q ∈ P := by
        rcases List.mem_cons.mp hq with h | h
        · exact absurd h hpq
        · exact h
      rw [ih hn'.2 hq', upd_ne _ _ (Ne.symm hpq)]
      abel

theorem pair_addAll (P : List Nat) (hn : P.Nodup) (D : Nat → V) : ∀ (ps : List Nat) (cs : List ℝ)
    (adj : Nat → ℝ), (∀ p ∈ ps, p ∈ P) → pair P (addAll adj ps cs) D = pair P adj D + zsum cs ps D
  | [], cs, adj, _ => by rw [addAll_nil', zsum_nil', add_zero]
  | p :: ps, [], adj, _ => by rw [addAll_nil, zsum_nil, add_zero]
  | p :: ps, c :: cs, adj, h => by
    rw [addAll, pair_addAll P hn D ps cs _ (fun q hq => h q (by simp [hq])),
      pair_upd P hn adj D p c (h p (by simp))]
    simp only [zsum]
    abel

/-- the record `nd` passes on its adjoint in accordance with the tangents -/
def Rule (val : Nat → ℝ) (D ε : Nat → V) (nd : Node ℝ) : Prop :=
  ∀ (adj : Nat → ℝ) (l : List ℝ), nd.contrib val adj = some l →
    adj nd.pos • D nd.pos = adj nd.pos • ε nd.pos + zsum l nd.args D

/-- positions outside the arguments of the swept records keep their adjoint -/
theorem sweep_ne (val : Nat → ℝ) (q : Nat) : ∀ (l : List (Node ℝ)) (adj : Nat → ℝ),
    (∀ nd ∈ l, q ∉ nd.args) → sweep val l adj q = adj q := by
  intro l
  induction l with
  | nil => intros; rfl
  | cons nd l ih =>
    intro adj h
    show addAll (sweep val l adj) nd.args _ q = _
    rw [addAll_ne _ _ _ (h nd (by simp)), ih adj fun x hx => h x (by simp [hx])]

/-- the pairing is kept by a sweep: over the swept records the tangents are replaced by `ε` -/
theorem sweep_pair (val : Nat → ℝ) (D ε : Nat → V) (out : List (Node ℝ)) :
    ∀ (l : List (Node ℝ)) (adj : Nat → ℝ), (∀ nd ∈ l, Rule val D ε nd) →
      (∀ nd ∈ l, nd.Fits val) → ((out ++ l).Pairwise fun a b => a.pos < b.pos) →
      (∀ nd ∈ out ++ l, ∀ p ∈ nd.args, p < nd.pos ∧ ∃ nd' ∈ out ++ l, nd'.pos = p) →
      pair (out.map Node.pos) adj D + pair (l.map Node.pos) adj D =
      pair (out.map Node.pos) (sweep val l adj) D + pair (l.map Node.pos) (sweep val l adj) ε := by
  intro l
  induction l using List.reverseRecOn with
  | nil => intros; simp [sweep, pair]
  | append_singleton l nd ih =>
    intro adj hr hfit hs ha
    obtain ⟨c, hc⟩ := hfit nd (by simp) adj
    have he := hr nd (by simp) adj c hc
    rw [← List.append_assoc] at hs ha
    have hs' := List.pairwise_append.mp hs
    have hlt : ∀ x ∈ out ++ l, x.pos < nd.pos := fun x hx => hs'.2.2 x hx nd (by simp)
    -- arguments of earlier records are earlier records
    have ha' : ∀ x ∈ out ++ l, ∀ p ∈ x.args, p < x.pos ∧ ∃ nd' ∈ out ++ l, nd'.pos = p := by
      intro x hx p hp
      obtain ⟨h1, y, hy, h2⟩ := ha x (List.mem_append_left _ hx) p hp
      refine ⟨h1, y, ?_, h2⟩
      rcases List.mem_append.mp hy with hy | hy
      · exact hy
      · simp only [List.mem_singleton] at hy
        subst hy
        have := hlt x hx
        omega
    have hargs : ∀ p ∈ nd.args, p ∈ (out ++ l).map Node.pos := by
      intro p hp
      obtain ⟨h1, y, hy, h2⟩ := ha nd (by simp) p hp
      rcases List.mem_append.mp hy with hy | hy
      · exact h2 ▸ List.mem_map_of_mem hy
      · simp only [List.mem_singleton] at hy
        subst hy; omega
    have hnd : ((out ++ l).map Node.pos).Nodup := by
      have : ((out ++ l).map Node.pos).Pairwise (· < ·) := by
        rw [List.pairwise_map]; exact hs'.1
      exact this.imp fun h => Nat.ne_of_lt h
    have hsw : sweep val (l ++ [nd]) adj = sweep val l (addAll adj nd.args c) := by
      rw [sweep_append]; simp [sweep, Node.cl, hc]
    have hkeep : sweep val l (addAll adj nd.args c) nd.pos = adj nd.pos := by
      rw [sweep_ne, addAll_ne]
      · intro h; have := (ha nd (by simp) _ h).1; omega
      · intro x hx h
        have h1 := (ha' x (List.mem_append_right _ hx) _ h).1
        have := hlt x (List.mem_append_right _ hx); omega
    rw [hsw]
    have := ih (addAll adj nd.args c) (fun x hx => hr x (List.mem_append_left _ hx))
      (fun x hx => hfit x (List.mem_append_left _ hx)) hs'.1 ha'
    simp only [List.map_append, pair_append, List.map_cons, List.map_nil]
    have e1 : ∀ (a : Nat → ℝ) (X : Nat → V), pair [nd.pos] a X = a nd.pos • X nd.pos := fun a X => by
      simp [pair]
    rw [← pair_append, ← List.map_append, pair_addAll _ hnd D _ _ _ hargs, List.map_append,
      pair_append] at this
    rw [e1, e1, hkeep, he, ← add_assoc (pair (List.map Node.pos out) (sweep _ _ _) D), ← this]
    abel

/-- the full sweep -/
theorem sweep_all {val : Nat → ℝ} {D ε : Nat → V} {g : Graph ℝ} {hd : Nat} (wf : g.WF hd)
    (hr : ∀ nd ∈ g.nodes, Rule val D ε nd) (hf : ∀ nd ∈ g.nodes, nd.Fits val) (adj : Nat → ℝ) :
    pair (g.nodes.map Node.pos) adj D = pair (g.nodes.map Node.pos) (sweep val g.nodes adj) ε := by
  have := sweep_pair val D ε [] g.nodes adj hr hf
    (wf.sorted.imp fun h => by simp only [Node.len] at h; omega) wf.args
  simpa [pair] using this

/-- what a record contributes depends on few values and one adjoint -/
theorem contrib_congr {nd : Node ℝ} {val val' adj adj' : Nat → ℝ} (h1 : val nd.pos = val' nd.pos)
    (h2 : adj nd.pos = adj' nd.pos) (h3 : ∀ p ∈ nd.args, val p = val' p) :
    nd.contrib val adj = nd.contrib val' adj' := by
  unfold Node.contrib Node.args at *
  cases hk : nd.kind with
  | plain =>
    simp only [hk] at h3 ⊢
    rw [h1, h2, List.map_congr_left h3]
  | mmVV r c =>
    simp only [hk] at h3 ⊢
    rw [h2, List.map_congr_left h3]
  | mmVD r c => simp only [h2]
  | mmDV r c => simp only [h2]

theorem Rule.congr {val val' : Nat → ℝ} {D D' ε ε' : Nat → V} {nd : Node ℝ} (h : Rule val D ε nd)
    (h1 : val' nd.pos = val nd.pos) (h2 : D' nd.pos = D nd.pos) (h3 : ε' nd.pos = ε nd.pos)
    (h4 : ∀ p ∈ nd.args, val' p = val p) (h5 : ∀ p ∈ nd.args, D' p = D p) : Rule val' D' ε' nd := by
  intro adj l e
  rw [h2, h3, zsum_congr l nd.args h5]
  exact h adj l ((contrib_congr h1 rfl h4).symm.trans e)

theorem Fits.congr {val val' : Nat → ℝ} {nd : Node ℝ} (h : nd.Fits val)
    (h1 : val' nd.pos = val nd.pos) (h4 : ∀ p ∈ nd.args, val' p = val p) : nd.Fits val' := by
  intro adj
  obtain ⟨l, e⟩ := h adj
  exact ⟨l, (contrib_congr h1 rfl h4).trans e⟩

end Fz
