import Verif.Proof.Replay

/-!
# A row of `jacobian` and a sweep from fresh adjoints
-/

set_option linter.unusedSectionVars false

namespace Fz
open Arith Spec

variable {W1 W2 R : Type} [Arith R] [Rep W1 R] [LawfulRep W1 R] [Rep W2 R] [LawfulRep W2 R]
variable {B : Base} {a : Side W1 R} {b : Side W2 R}

/-- only the adjoints from `h` on are forgotten, and they are zero -/
theorem Inv.cutAdj {W : Type} [Rep W R] [LawfulRep W R] {s : St W} {g : Graph R} {val adj : Nat → R}
    (h : Inv s g val adj) {hd n : Nat} (old : ∀ (k : Nat) (nd : Node R), k < n → g.nodes[k]? = some nd → nd.pos < hd)
    (z : ∀ nd ∈ g.nodes.drop n, adj nd.pos = zero) : Inv s g val (cutAt hd adj) := by
  refine { h with recs := fun nd hn => ?_ }
  have : cutAt hd adj nd.pos = adj nd.pos := by
    by_cases hp : nd.pos < hd
    · exact cutAt_lt _ hp
    · rw [cutAt, if_neg hp]
      obtain ⟨k, hk⟩ := List.mem_iff_getElem?.mp hn
      have hkn : n ≤ k := by
        by_contra hc
        exact hp (old k nd (by omega) hk)
      refine (z nd (List.mem_of_getElem? (i := k - n) ?_)).symm
      rw [List.getElem?_drop, show n + (k - n) = k by omega]
      exact hk
  rw [this]
  exact h.recs nd hn

/-- both sides with fresh adjoints -/
theorem Twin.reset (t : Twin B a b) {s : St W1} {adj : Nat → R} (i : Inv s a.g a.val adj)
    (hh : s.tape.head = a.s.tape.head) (hn : B.nested → TopAt s B.n1) (z1 : ∀ nd ∈ a.g.nodes.drop B.n1, adj nd.pos = zero)
    (z2 : ∀ nd ∈ b.g.nodes.drop B.n2, b.adj nd.pos = zero) :
    Twin B ⟨s, a.g, a.val, cutAt B.h1 adj⟩ ⟨b.s, b.g, b.val, cutAt B.h2 b.adj⟩ :=
  ⟨i.cutAdj t.old1 z1, t.inv2.cutAdj t.old2 z2, t.cok1, t.cok2, by simpa only [hh] using t.off, t.len, t.old1, t.old2,
    t.new, t.vals, fun d => by simp only [cutAt_ge], t.outer, hn, t.nest2⟩

/-- each row of `jacobian` is what one sweep from fresh adjoints gives -/
theorem jacLoop_rows (t : Twin B a b) (hn : B.nested) (z2 : ∀ nd ∈ b.g.nodes.drop B.n2, b.adj nd.pos = zero)
    {xv xw : List Var} (hx : VLI B xv xw a b) :
    ∀ {fv fw : List Var} {s s' : St W1} {adj : Nat → R} {rows : List (List R)}, Inv s a.g a.val adj →
      s.tape.head = a.s.tape.head → TopAt s B.n1 → VarsRel B a b fv fw → jacLoop xv fv s = .ok (rows, s') →
      ∀ {i : Nat} {w : Var} {t2 t3 : St W2} {d : List R}, fw[i]? = some w → (w.grad : M W2 Unit) b.s = .ok ((), t2) →
        adjs xw t2 = .ok (d, t3) → rows[i]? = some d := by
  intro fv
  induction fv with
  | nil =>
    intro fw s s' adj rows _ _ _ h _ i w t2 t3 d hi
    cases h
    simp at hi
  | cons v fv ih =>
    intro fw s s' adj rows i hh ht h e k w t2 t3 d hi e1 e2
    cases h with
    | @cons _ w0 _ fw hv hvs =>
      unfold jacLoop at e
      obtain ⟨_, s1, q1, e⟩ := bind_inv e
      obtain ⟨_, s2, q2, e⟩ := bind_inv e
      obtain ⟨row, s3, q3, e⟩ := bind_inv e
      obtain ⟨rest, s4, q4, e⟩ := bind_inv e
      cases e
      obtain ⟨n, hn1, hn2⟩ := t.len
      obtain ⟨m1, f1, rfl, i1, y1, -⟩ := ht.zero_inv i (by omega) q1
      have t1 := t.reset i1 hh (fun _ => ht.mem m1) y1 z2
      cases k with
      | zero =>
        simp only [List.getElem?_cons_zero, Option.some.injEq] at hi
        subst hi
        obtain ⟨a', b', p1, p2, l1, l2, t', -⟩ := tt_grad t1 (v := v) (w := w0) ⟨hv.has1, hv.has2, hv.pr⟩ _ _ _ _ q2 e1
        have hx0 : VLI B xv xw (⟨s.withMem m1, a.g, a.val, cutAt B.h1 f1⟩ : Side W1 R)
            (⟨b.s, b.g, b.val, cutAt B.h2 b.adj⟩ : Side W2 R) :=
          List.Forall₂.imp (fun _ _ h => ⟨⟨h.1.has1, h.1.has2, h.1.pr⟩, h.2⟩) hx
        have hx' : VLI B xv xw a' b' := hx0.later l1 l2
        rw [← p1, t'.inv1.varAdjs hx'.vl.has1] at q3
        rw [← p2, t'.inv2.varAdjs hx'.vl.has2, ← hx'.adjs t'] at e2
        injection q3 with q3
        injection q3 with q3 _
        injection e2 with e2
        injection e2 with e2 _
        simp [← q3, e2]
      | succ k =>
        obtain ⟨-, m2, rfl, i2⟩ := grad_run i1 (fun nd hn => Or.inl (t.cok1 nd hn)) hv.has1 q2
        have q3' := adjs_st q3
        subst q3'
        simp only [List.getElem?_cons_succ] at hi ⊢
        exact ih i2 hh ((ht.mem m1).mem m2) hvs q4 hi e1 e2

/-! ## One tape, two sets of adjoints -/

/-- every position stands for itself -/
def selfBase (h : Nat) : Base := ⟨h, h, 0, 0, fun p q => p = q ∧ p < h, False⟩

theorem selfBase_pr (h p : Nat) : (selfBase h).PR p p := by
  by_cases hp : p < h
  · exact Or.inr ⟨rfl, hp⟩
  · exact Or.inl ⟨p - h, by simp only [selfBase]; omega, by simp only [selfBase]; omega⟩

theorem pr_list (h : Nat) (l : List Nat) : List.Forall₂ (selfBase h).PR l l :=
  List.forall₂_same.mpr fun p _ => selfBase_pr h p

theorem NodeRel.self {h : Nat} {x : Node R} (hx : h ≤ x.pos) : NodeRel (selfBase h) x x := by
  refine ⟨⟨x.pos - h, by simp only [selfBase]; omega, by simp only [selfBase]; omega⟩, rfl, rfl, ?_⟩
  obtain ⟨p, ops, dops, ch, kd⟩ := x
  cases kd
  · exact ⟨pr_list h _, Or.inr rfl⟩
  · exact ⟨pr_list h _, pr_list h _, rfl⟩
  · exact ⟨pr_list h _, rfl, rfl⟩
  · exact ⟨pr_list h _, rfl, rfl⟩

/-- adjoints before `h` do not influence those from `h` on -/
theorem sweep_from_eq {h : Nat} (val : Nat → R) {l : List (Node R)} (hl : ∀ x ∈ l, h ≤ x.pos) {f f' : Nat → R}
    (hf : ∀ p, h ≤ p → f p = f' p) : ∀ p, h ≤ p → sweep val l f p = sweep val l f' p := by
  have ha := sweep_agree (B := selfBase h) (val := val) (val' := val) (l := l) (l' := l) (f := f) (f' := f')
    (fun p q he => ⟨he.2, he.1 ▸ he.2⟩) (fun p q hp => by
      rcases hp with ⟨d, rfl, rfl⟩ | he
      · rfl
      · rw [he.1]) (List.forall₂_same.mpr fun x hx => NodeRel.self (hl x hx)) (fun d => hf _ (by simp only [selfBase]; omega))
  intro p hp
  have := ha (p - h)
  simp only [selfBase] at this
  rwa [show h + (p - h) = p by omega] at this

end Fz
