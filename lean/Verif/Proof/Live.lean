import Verif.Proof.Plain
import Verif.Spec.Proper

/-!
# Correct calls complete
-/

set_option linter.unusedSectionVars false

namespace Fz
variable {W R : Type} [Arith R] [Rep W R] [LawfulRep W R]
open Arith Spec
variable {s s' s'' : St W} {g g' g'' : Graph R} {val adj val' adj' val'' adj'' : Nat → R}

/-- the chain procedure fits the record, whatever the values -/
def Node.FitsAll (nd : Node R) : Prop := ∀ val : Nat → R, nd.Fits val

/-- `m` completes if there is room for `n` words, takes exactly these, and has the effect `Evo`; the new records are
sound -/
def Live {α : Type} (n : Nat) (s : St W) (g : Graph R) (val adj : Nat → R) (m : M W α)
    (Q : α → Graph R → Prop) : Prop :=
  s.tape.head + n ≤ cap → ∃ r s' g' val' adj', m s = .ok (r, s') ∧ Evo anyPos s g val adj s' g' val' adj' ∧
    (∃ l, g'.nodes = g.nodes ++ l ∧ ∀ nd ∈ l, nd.FitsAll) ∧ s'.tape.head = s.tape.head + n ∧ Q r g'

/-- the result is a variable on the tape -/
abbrev HasV (r : Var) (g : Graph R) : Prop := g.Has r
/-- all results are variables on the tape -/
abbrev HasVs (r : List Var) (g : Graph R) : Prop := ∀ v ∈ r, g.Has v

section rules
variable {α β : Type} {Q : α → Graph R → Prop} {Q' : β → Graph R → Prop} {n n1 n2 : Nat}

theorem Live.pure (h : Inv s g val adj) {r : α} (hq : Q r g) : Live 0 s g val adj (Pure.pure r : M W α) Q :=
  fun _ => ⟨r, s, g, val, adj, rfl, Evo.refl h, ⟨[], by simp, by simp⟩, rfl, hq⟩

theorem Live.mono {m : M W α} (h : Live n1 s g val adj m Q) (hn : n1 = n) : Live n s g val adj m Q := hn ▸ h

theorem Live.bind {m : M W α} {k : α → M W β} (hm : Live n1 s g val adj m Q)
    (hk : ∀ r s' g' val' adj', m s = .ok (r, s') → Evo anyPos s g val adj s' g' val' adj' → Q r g' →
      Live n2 s' g' val' adj' (k r) Q') :
    Live (n1 + n2) s g val adj (m >>= k) Q' := by
  intro hc
  obtain ⟨r, s1, g1, val1, adj1, e, ev, ⟨l, hl, hf⟩, hh, hq⟩ := hm (by omega)
  obtain ⟨r', s2, g2, val2, adj2, e', ev', ⟨l', hl', hf'⟩, hh', hq'⟩ := hk r s1 g1 val1 adj1 e ev hq (by omega)
  refine ⟨r', s2, g2, val2, adj2, by rw [bind_ok e, e'], ev.trans ev', ⟨l ++ l', by simp [hl', hl], ?_⟩, by omega, hq'⟩
  intro nd hn
  rcases List.mem_append.mp hn with h | h
  · exact hf nd h
  · exact hf' nd h

theorem Live.read {m : M W α} {k : α → M W β} {a : α} (hm : m s = .ok (a, s))
    (hk : Live n s g val adj (k a) Q') : Live n s g val adj (m >>= k) Q' := by
  intro hc
  obtain ⟨r, s', g', val', adj', e, rest⟩ := hk hc
  exact ⟨r, s', g', val', adj', by rw [bind_ok hm, e], rest⟩

end rules

theorem live_grown {m : M W Var} {nd : Node R} {v : R} (h : Inv s g val adj)
    (hp : nd.pos = s.tape.head) (hc : nd.ChainOK) (hf : nd.FitsAll)
    (hok : s.tape.head + nd.len ≤ cap → ∃ s', m s = .ok (⟨s.vhead⟩, s') ∧ Inv.Grown s g val adj nd v s') :
    Live nd.len s g val adj m HasV := by
  intro hcap
  obtain ⟨s1, e1, gr⟩ := hok hcap
  refine ⟨_, s1, _, _, _, e1, Evo.ofGrown h gr hp hc (fun _ _ => trivial), ⟨[nd], rfl, by simpa using hf⟩, ?_, ?_⟩
  · rw [gr.head]
  · rw [h.vhead]
    exact g.has_last nd

/-- the chain procedure takes any record with `n` operands and the reals `ds` -/
def Chain.Takes (c : Chain) (n : Nat) (ds : List R) : Prop :=
  ∀ (v a : R) (xs : List R), xs.length = n → ∃ l, contribPlain c v a xs ds = some l

theorem Chain.Takes.fits {c : Chain} {ops : List Nat} {ds : List R} (h : c.Takes ops.length ds) (p : Nat) :
    (⟨p, ops, ds, c, .plain⟩ : Node R).FitsAll := by
  intro val adj
  exact h _ _ _ (by simp)

/-- the free table slots hold chain procedures that leave a plain variable alone -/
def Clean (R : Type) [Arith R] (s : St W) : Prop := ∀ k, s.vhead ≤ k → (s.varis k).chain.Takes 0 ([] : List R)

theorem Keep.clean (k : Keep s s') (h : Clean R s) : Clean R s' := fun i hi => by
  rw [k.slots i hi]
  exact h i (Nat.le_trans k.vhead hi)

theorem live_newOp (h : Inv s g val adj) {vs : List Var} (hv : ∀ v ∈ vs, g.Has v) (x : R) {c : Chain}
    (hc : c.notMM) (ht : c.Takes vs.length ([] : List R)) :
    Live (6 + vs.length) s g val adj (do let w ← newVarOp x vs; w.setChain c; pure w : M W Var) HasV := by
  have := live_grown (m := (do let w ← newVarOp x vs; w.setChain c; pure w : M W Var))
    (nd := ⟨s.tape.head, vs.map g.pos, [], c, .plain⟩) (v := x) h rfl (hc.ok _ _ _)
    (Chain.Takes.fits (by simpa using ht) _)
    (fun hcap => h.newOp hv x c (by simpa [Node.len] using hcap))
  exact this.mono (by simp [Node.len])

theorem live_newOpDop (h : Inv s g val adj) {vs : List Var} (hv : ∀ v ∈ vs, g.Has v) (x : R) (ds : List R)
    {c : Chain} (hc : c.notMM) (ht : c.Takes vs.length ds) :
    Live (6 + vs.length + 2 * ds.length) s g val adj
      (do let w ← newVarOpDop x vs ds; w.setChain c; pure w : M W Var) HasV := by
  have := live_grown (m := (do let w ← newVarOpDop x vs ds; w.setChain c; pure w : M W Var))
    (nd := ⟨s.tape.head, vs.map g.pos, ds, c, .plain⟩) (v := x) h rfl (hc.ok _ _ _)
    (Chain.Takes.fits (by simpa using ht) _)
    (fun hcap => h.newOpDop hv x ds c (by simpa [Node.len] using hcap))
  exact this.mono (by simp [Node.len])

theorem live_newVar (h : Inv s g val adj) (hl : (s.varis s.vhead).chain.Takes 0 ([] : List R)) (x : R) :
    Live 6 s g val adj (newVar x : M W Var) HasV := by
  have := live_grown (m := (newVar x : M W Var))
    (nd := ⟨s.tape.head, [], [], (s.varis s.vhead).chain, .plain⟩) (v := x) h rfl (fun _ => rfl)
    (Chain.Takes.fits hl _)
    (fun hcap => h.newVar_ok x (by simpa [Node.len] using hcap))
  exact this.mono (by simp [Node.len])

theorem live_mapM {α : Type} {f : α → M W Var} (w : α → Nat) (l : List α) :
    ∀ {s : St W} {g : Graph R} {val adj : Nat → R}, Inv s g val adj →
    (∀ a ∈ l, ∀ {s' : St W} {g' : Graph R} {val' adj' : Nat → R}, Evo anyPos s g val adj s' g' val' adj' →
      Live (w a) s' g' val' adj' (f a) HasV) →
    Live (l.map w).sum s g val adj (l.mapM f) HasVs := by
  induction l with
  | nil => intro s g val adj h _; exact Live.pure h (by simp [HasVs])
  | cons a l ih =>
    intro s g val adj h hf
    rw [List.mapM_cons]
    refine Live.mono (n1 := w a + ((l.map w).sum + 0)) ?_ (by simp)
    refine Live.bind (hf a (by simp) (Evo.refl h)) fun r s1 g1 val1 adj1 _ ev hr => ?_
    refine Live.bind (ih ev.inv fun b hb s' g' val' adj' ev' => hf b (by simp [hb]) (ev.trans ev'))
      fun rs s2 g2 val2 adj2 _ ev2 hrs => ?_
    refine Live.pure ev2.inv ?_
    intro v hv
    rcases List.mem_cons.mp hv with rfl | hv
    · exact ev2.hasV hr
    · exact hrs v hv

theorem live_newVars (h : Inv s g val adj) (hl : Clean R s) (xs : List R) :
    Live (6 * xs.length) s g val adj (newVars xs : M W (List Var)) HasVs :=
  (live_mapM (fun _ => 6) xs h fun a _ _ _ _ _ ev => live_newVar ev.inv (ev.keep.clean hl _ (Nat.le_refl _)) a).mono
    (by simp [Nat.mul_comm])

theorem live_newVar1d : ∀ (n : Nat) {s : St W} {g : Graph R} {val adj : Nat → R}, Inv s g val adj → Clean R s →
    Live (6 * n) s g val adj (newVar1d (R := R) n : M W (List Var)) HasVs
  | 0, _, _, _, _, h, _ => Live.pure h (by simp [HasVs])
  | n + 1, s, g, val, adj, h, hl => by
    unfold newVar1d
    refine Live.mono (n1 := 6 + (6 * n + 0)) ?_ (by omega)
    refine Live.bind (live_newVar h (hl _ (Nat.le_refl _)) zero) fun r s1 g1 val1 adj1 _ ev hr => ?_
    refine Live.bind (live_newVar1d n ev.inv (ev.keep.clean hl)) fun rs s2 g2 val2 adj2 _ ev2 hrs => ?_
    refine Live.pure ev2.inv ?_
    intro v hv
    rcases List.mem_cons.mp hv with rfl | hv
    · exact ev2.hasV hr
    · exact hrs v hv

theorem live_single {m : M W Var} {n : Nat} (h : Live n s g val adj m HasV) :
    Live n s g val adj (single m) HasVs := by
  refine Live.bind (n2 := 0) h fun r s' g' val' adj' _ ev hr => Live.pure ev.inv ?_
  intro v hv
  simp only [List.mem_singleton] at hv
  exact hv ▸ hr

section ops
variable (h : Inv s g val adj) {v v1 v2 : Var}
include h

theorem live_unary (hv : g.Has v) (f : R → R) {c : Chain} (hc : c.notMM) (ht : c.Takes 1 ([] : List R)) :
    Live 7 s g val adj (unary f c v : M W Var) HasV := by
  unfold unary
  exact Live.read (h.varVal hv) (live_newOp h (vs := [v]) (by simpa using hv) _ hc ht)

theorem live_binary (h1 : g.Has v1) (h2 : g.Has v2) (f : R → R → R) {c : Chain} (hc : c.notMM)
    (ht : c.Takes 2 ([] : List R)) : Live 8 s g val adj (binary f c v1 v2 : M W Var) HasV := by
  unfold binary
  exact Live.read (h.varVal h1) (Live.read (h.varVal h2) (live_newOp h (vs := [v1, v2]) (by simp [h1, h2]) _ hc ht))

theorem live_unaryData (hv : g.Has v) (f : R → R) (d : R) {c : Chain} (hc : c.notMM) (ht : c.Takes 1 [d]) :
    Live 9 s g val adj (unaryData f d c v : M W Var) HasV := by
  unfold unaryData
  exact Live.read (h.varVal hv) (live_newOpDop h (vs := [v]) (by simpa using hv) _ _ hc ht)

theorem live_reduceV {vs : List Var} (hv : ∀ v ∈ vs, g.Has v) (f : List R → R) {c : Chain} (hc : c.notMM)
    (ht : c.Takes vs.length ([] : List R)) :
    Live (6 + vs.length) s g val adj (reduceV f c vs : M W Var) HasV := by
  unfold reduceV
  exact Live.read (h.varVals hv) (live_newOp h hv _ hc ht)

end ops

/-! ## which records the chain procedures take -/

theorem takes1 {c : Chain} {ds : List R} (h : ∀ v a x : R, ∃ l, contribPlain c v a [x] ds = some l) :
    c.Takes 1 ds := by
  intro v a xs hx
  match xs, hx with
  | [x], _ => exact h v a x

theorem takes2 {c : Chain} {ds : List R} (h : ∀ v a x y : R, ∃ l, contribPlain c v a [x, y] ds = some l) :
    c.Takes 2 ds := by
  intro v a xs hx
  match xs, hx with
  | [x, y], _ => exact h v a x y

theorem takes_abs : Chain.abs.Takes 1 ([] : List R) := takes1 fun v a x => by
  simp only [contribPlain]
  split <;> simp [cAll]

theorem takes_powVV : Chain.powVV.Takes 2 ([] : List R) := takes2 fun v a x y => by
  simp only [contribPlain, cBin]
  split <;> simp

theorem takes_powVD (d : R) : Chain.powVD.Takes 1 [d] := takes1 fun v a x => by
  simp only [contribPlain]
  split <;> simp

theorem takes_powDV (d : R) : Chain.powDV.Takes 1 [d] := takes1 fun v a x => by
  simp only [contribPlain]
  split <;> simp [cAll]

/-- the chain procedure takes one operand -/
macro "takes_one" : tactic => `(tactic| exact takes1 fun v a x => by
  simp only [contribPlain, cUn, cAll, cDat]; simp)

/-- the chain procedure takes two operands -/
macro "takes_two" : tactic => `(tactic| exact takes2 fun v a x y => by
  simp only [contribPlain, cBin, cAll]; simp)

/-- the chain procedure takes any number of operands -/
macro "takes_any" : tactic => `(tactic| exact fun v a xs _ => by
  simp only [contribPlain]; simp)

theorem takes_dotVD {n : Nat} {ds : List R} (hn : n = ds.length) : Chain.dotVD.Takes n ds := by
  intro v a xs hx
  simp only [contribPlain, cAll]
  simp [hx, hn]

theorem takes_eager {n : Nat} {ds : List R} (hn : n = ds.length) : Chain.eager.Takes n ds := by
  intro v a xs hx
  simp only [contribPlain]
  rw [if_pos (by omega)]
  exact ⟨_, rfl⟩

theorem takes_user {r : URule} {n : Nat} {ds : List R} (hr : ruleSuits n ds.length r) :
    (Chain.user r).Takes n ds := by
  intro v a xs hx
  cases r with
  | fixed k l es =>
    obtain ⟨a1, a2, a3, a4⟩ := hr
    simp only [contribPlain, cUser]
    rw [if_pos ⟨a1, by rw [hx]; exact a2.imp_right Eq.symm, a3.imp_right Eq.symm, by rw [hx]; exact a4⟩]
    exact ⟨_, rfl⟩
  | each l e =>
    obtain ⟨a1, a3⟩ := hr
    simp only [contribPlain, cUser]
    rw [if_pos ⟨a1, a3.imp_right Eq.symm⟩]
    exact ⟨_, rfl⟩

section ops
variable (h : Inv s g val adj) {v v1 v2 : Var}
include h

theorem live_absV (hv : g.Has v) (hm : Clean R s ∨ feq (val (g.pos v)) (zero : R) = false) :
    Live (Fn.abs.words (val (g.pos v))) s g val adj (absV (R := R) v : M W Var) HasV := by
  unfold absV
  refine Live.read (h.varVal hv) ?_
  split
  · rename_i h1
    exact (Live.pure h hv).mono (by rw [Fn.words, if_pos (show flt zero (val (g.pos v)) = true from h1)])
  · rename_i h1
    replace h1 : ¬ flt zero (val (g.pos v)) = true := h1
    split
    · rename_i h2
      unfold negV
      exact (live_unary h hv _ (by decide) (by takes_one)).mono (by rw [Fn.words, if_neg h1, if_pos h2])
    · rename_i h2
      split
      · rename_i hz
        rcases hm with hm | hm
        · exact (live_newVar h (hm _ (Nat.le_refl _)) zero).mono
            (by rw [Fn.words, if_neg h1, if_neg h2, if_pos hz])
        · rw [hm] at hz; cases hz
      · rename_i hz
        exact (live_newOp h (vs := [v]) (by simpa using hv) _ (by decide) takes_abs).mono
          (by rw [Fn.words, if_neg h1, if_neg h2, if_neg hz]; rfl)

theorem live_acoshV (hv : g.Has v)
    (hm : feq (val (g.pos v)) (val (g.pos v)) = false ∨ fle (val (g.pos v)) (one : R) = false) :
    Live (Fn.acosh.words (val (g.pos v))) s g val adj (acoshV (R := R) v : M W Var) HasV := by
  unfold acoshV
  refine Live.read (isNanV_run h (φ := anyPos) ⟨hv, trivial⟩) ?_
  split
  · rename_i hn
    exact (Live.pure h hv).mono (by rw [Fn.words, if_neg (by simpa [isNanD, fne] using hn)])
  · rename_i hn
    have hn' : feq (val (g.pos v)) (val (g.pos v)) = true := by simpa [isNanD, fne] using hn
    refine Live.read (relVD_run h (φ := anyPos) ⟨hv, trivial⟩ _ _) ?_
    split
    · rename_i hle
      exfalso
      rcases hm with hm | hm
      · rw [hm] at hn'; cases hn'
      · simp only [RelOp.cmp] at hle
        rw [hm] at hle; cases hle
    · exact (live_unary h hv _ (by decide) (by takes_one)).mono (by rw [Fn.words, if_pos hn'])

theorem live_atanhV (hv : g.Has v)
    (hm : feq (val (g.pos v)) (val (g.pos v)) = false ∨
      (fle (val (g.pos v)) (neg one : R) = false ∧ fle (one : R) (val (g.pos v)) = false)) :
    Live (Fn.atanh.words (val (g.pos v))) s g val adj (atanhV (R := R) v : M W Var) HasV := by
  unfold atanhV
  refine Live.read (isNanV_run h (φ := anyPos) ⟨hv, trivial⟩) ?_
  split
  · rename_i hn
    exact (Live.pure h hv).mono (by rw [Fn.words, if_neg (by simpa [isNanD, fne] using hn)])
  · rename_i hn
    have hn' : feq (val (g.pos v)) (val (g.pos v)) = true := by simpa [isNanD, fne] using hn
    refine Live.read (relVD_run h (φ := anyPos) ⟨hv, trivial⟩ _ _)
      (Live.read (relVD_run h (φ := anyPos) ⟨hv, trivial⟩ _ _) ?_)
    split
    · rename_i hle
      exfalso
      rcases hm with hm | hm
      · rw [hm] at hn'; cases hn'
      · simp [RelOp.cmp, fge, hm.1, hm.2] at hle
    · exact (live_unary h hv _ (by decide) (by takes_one)).mono (by rw [Fn.words, if_pos hn'])

theorem live_fn {closed : Bool} (hl : closed = false → Clean R s) (hv : g.Has v) (f : Fn)
    (hm : f.Meets closed (val (g.pos v))) :
    Live (f.words (val (g.pos v))) s g val adj (f.api v : M W Var) HasV := by
  cases f
  case pos => exact Live.pure h hv
  case neg => exact live_unary h hv _ (by decide) (by takes_one)
  case abs => exact live_absV h hv (hm.imp_left hl)
  case acosh => exact live_acoshV h hv hm
  case atanh => exact live_atanhV h hv hm
  all_goals exact live_unary h hv _ (by decide) (by takes_one)

theorem live_binVV (h1 : g.Has v1) (h2 : g.Has v2) (f : Bin) :
    Live 8 s g val adj (f.callVV v1 v2 : M W Var) HasV := by
  cases f
  case pow => exact live_binary h h1 h2 _ (by decide) takes_powVV
  case hypot => exact live_binary h h1 h2 _ (by decide) (by takes_any)
  all_goals exact live_binary h h1 h2 _ (by decide) (by takes_two)

theorem fne_of {x y : R} (h : feq x y = false) : fne x y = true := by simp [fne, h]

theorem live_binVD (hv : g.Has v) (f : Bin) (d : R) (i : Nat) (hs : (Make.binVD f i d).Sane)
    (hr : (Make.binVD f i d).Regular) : Live (f.wordsVD d) s g val adj (f.callVD v d : M W Var) HasV := by
  cases f
  case add =>
    simp only [Bin.callVD, addVD]
    rw [if_pos (by simp [fne, show feq d zero = false from hr])]
    exact live_unary h hv _ (by decide) (by takes_one)
  case sub =>
    simp only [Bin.callVD, subVD]
    rw [if_pos (by simp [fne, show feq d zero = false from hr])]
    exact live_unary h hv _ (by decide) (by takes_one)
  case mul =>
    simp only [Bin.callVD, mulVD]
    rw [if_pos (by simp [fne, show feq d one = false from hr])]
    exact live_unaryData h hv _ _ (by decide) (by takes_one)
  case div =>
    simp only [Bin.callVD, divVD]
    rw [if_pos (by simp [fne, show feq d one = false from hr])]
    exact live_unaryData h hv _ _ (by decide) (by takes_one)
  case pow =>
    simp only [Bin.callVD, powVD, Bin.wordsVD]
    by_cases e1 : feq d half = true
    · rw [if_pos e1, if_pos e1]
      exact live_unary h hv _ (by decide) (by takes_one)
    rw [if_neg e1, if_neg e1]
    by_cases e2 : feq d one = true
    · rw [if_pos e2, if_pos e2]
      exact Live.pure h hv
    rw [if_neg e2, if_neg e2]
    by_cases e3 : feq d two = true
    · rw [if_pos e3, if_pos (by simp [e3])]
      exact live_unary h hv _ (by decide) (by takes_one)
    rw [if_neg e3]
    by_cases e4 : feq d (neg two) = true
    · rw [if_pos e4, if_pos (by simp [e4])]
      exact live_unary h hv _ (by decide) (by takes_one)
    rw [if_neg e4]
    by_cases e5 : feq d (neg one) = true
    · rw [if_pos e5, if_pos (by simp [e5])]
      exact live_unary h hv _ (by decide) (by takes_one)
    rw [if_neg e5]
    by_cases e6 : feq d (neg half) = true
    · rw [if_pos e6, if_pos (by simp [e6])]
      exact live_unary h hv _ (by decide) (by takes_one)
    rw [if_neg e6, if_neg (by simp [e3, e4, e5, e6])]
    exact live_unaryData h hv _ _ (by decide) (takes_powVD d)
  case hypot =>
    simp only [Bin.callVD, hypotVD]
    rw [if_pos (show fne d zero = true from hs)]
    have := live_newOp h (vs := [v]) (by simpa using hv) (hypot (val (g.pos v)) d) (c := .hypot) (by decide)
      (by takes_any)
    exact (Live.read (h.varVal hv) this).mono rfl

theorem live_binDV (hv : g.Has v) (f : Bin) (d : R) (i : Nat) (hs : (Make.binDV f d i).Sane)
    (hr : (Make.binDV f d i).Regular) : Live f.wordsDV s g val adj (f.callDV d v : M W Var) HasV := by
  cases f
  case add =>
    simp only [Bin.callDV, addDV]
    rw [if_pos (by simp [fne, show feq d zero = false from hr])]
    exact live_unary h hv _ (by decide) (by takes_one)
  case sub => exact live_unary h hv _ (by decide) (by takes_one)
  case mul =>
    simp only [Bin.callDV, mulDV]
    rw [if_pos (by simp [fne, show feq d one = false from hr])]
    exact live_unaryData h hv _ _ (by decide) (by takes_one)
  case div => exact live_unaryData h hv _ _ (by decide) (by takes_one)
  case pow => exact live_unaryData h hv _ _ (by decide) (takes_powDV d)
  case hypot =>
    simp only [Bin.callDV, hypotDV]
    rw [if_pos (show fne d zero = true from hs)]
    have := live_newOp h (vs := [v]) (by simpa using hv) (hypot (val (g.pos v)) d) (c := .hypot) (by decide)
      (by takes_any)
    exact (Live.read (h.varVal hv) this).mono rfl

variable {a b : List Var}

theorem live_dotVV (ha : ∀ v ∈ a, g.Has v) (hb : ∀ v ∈ b, g.Has v) (hn : a.length = b.length) :
    Live (6 + a.length + b.length) s g val adj (dotVV (R := R) a b : M W Var) HasV := by
  unfold dotVV
  refine Live.read (h.varVals ha) (Live.read (h.varVals hb) ?_)
  rw [if_pos hn]
  exact (live_newOp h (vs := a ++ b) (by simpa [or_imp, forall_and] using ⟨ha, hb⟩) _ (by decide)
    (by takes_any)).mono (by simp; omega)

theorem live_dotVD (ha : ∀ v ∈ a, g.Has v) (d : List R) (hn : a.length = d.length) :
    Live (6 + a.length + 2 * d.length) s g val adj (dotVD a d : M W Var) HasV := by
  unfold dotVD
  refine Live.read (h.varVals ha) ?_
  rw [if_pos hn]
  exact live_newOpDop h ha _ _ (by decide) (takes_dotVD hn)

theorem live_dotDV (ha : ∀ v ∈ a, g.Has v) (d : List R) (hn : d.length = a.length) :
    Live (6 + a.length + 2 * d.length) s g val adj (dotDV d a : M W Var) HasV := by
  unfold dotDV
  refine Live.read (h.varVals ha) ?_
  rw [if_pos hn]
  exact live_newOpDop h ha _ _ (by decide) (takes_dotVD hn.symm)

theorem live_varWithPartials (ha : ∀ v ∈ a, g.Has v) (x : R) (ds : List R) (hn : a.length ≤ ds.length) :
    Live (6 + 3 * a.length) s g val adj (varWithPartials x a ds : M W Var) HasV := by
  unfold varWithPartials
  rw [if_neg (by omega)]
  have hl : (ds.take a.length).length = a.length := by simp [hn]
  exact (live_newOpDop h ha _ _ (by decide) (takes_eager hl.symm)).mono (by omega)

theorem live_userOp (ha : ∀ v ∈ a, g.Has v) (x : R) (r : URule) (ds : List R)
    (hr : ruleSuits a.length ds.length r) :
    Live (6 + a.length + 2 * ds.length) s g val adj (userOp x r a ds : M W Var) HasV := by
  unfold userOp
  cases ds with
  | nil => exact (live_newOp h ha _ (Chain.notMM_user r) (takes_user hr)).mono rfl
  | cons d ds => exact live_newOpDop h ha _ _ (Chain.notMM_user r) (takes_user hr)

theorem live_lpdfVV (h1 : g.Has v1) (h2 : g.Has v2) (f f1 f2 : R → R → R → R) (ys : List R) :
    Live 12 s g val adj (lpdfVV f f1 f2 ys v1 v2 : M W Var) HasV := by
  unfold lpdfVV
  exact Live.read (h.varVal h1) (Live.read (h.varVal h2)
    (live_varWithPartials h (a := [v1, v2]) (by simp [h1, h2]) _ _ (by simp)))

theorem live_lpdfVD (h1 : g.Has v1) (f f1 : R → R → R → R) (ys : List R) (d : R) :
    Live 9 s g val adj (lpdfVD f f1 ys v1 d : M W Var) HasV := by
  unfold lpdfVD
  exact Live.read (h.varVal h1) (live_varWithPartials h (a := [v1]) (by simp [h1]) _ _ (by simp))

theorem live_lpdfDV (h1 : g.Has v1) (f f1 : R → R → R → R) (ys : List R) (d : R) :
    Live 9 s g val adj (lpdfDV f f1 ys d v1 : M W Var) HasV := by
  unfold lpdfDV
  exact Live.read (h.varVal h1) (live_varWithPartials h (a := [v1]) (by simp [h1]) _ _ (by simp))

end ops

/-! ## matrix products -/

theorem live_pushVarMat (h : Inv s g val adj) {a : Mat Var} (ha : MatHasF anyPos g a)
    (hr : a.nrow ≤ int32Max) (hc : a.ncol ≤ int32Max) :
    Live (2 + a.nrow * a.ncol) s g val adj (pushVarMat a : M W Nat) (VBlock anyPos a.nrow a.ncol) := by
  intro hcap
  obtain ⟨s1, e1, gr⟩ := h.pushVarMat_ok ha.has hr hc hcap
  refine ⟨_, s1, _, _, _, e1, Evo.ofGrownB gr, ⟨[], by simp [Graph.pushB], by simp⟩, ?_, _,
    by simp only [Graph.pushB, List.mem_append, List.mem_singleton]; exact Or.inr rfl, ?_⟩
  · rw [gr.head]; simp [Block.len, Inv.flat_length]
  intro p hp
  obtain ⟨v, hv, rfl⟩ := List.mem_map.mp hp
  exact ⟨trivial, (ha.flat v hv).has.mem_pos⟩

theorem live_pushDataMat (h : Inv s g val adj) {a : Mat R}
    (hr : a.nrow ≤ int32Max) (hc : a.ncol ≤ int32Max) :
    Live (2 + 2 * (a.nrow * a.ncol)) s g val adj (pushDataMat a : M W Nat) (DBlock a.nrow a.ncol) := by
  intro hcap
  obtain ⟨s1, e1, gr⟩ := h.pushDataMat_ok hr hc hcap
  refine ⟨_, s1, _, _, _, e1, Evo.ofGrownB gr, ⟨[], by simp [Graph.pushB], by simp⟩, ?_, _,
    by simp only [Graph.pushB, List.mem_append, List.mem_singleton]; exact Or.inr rfl⟩
  rw [gr.head]; simp [Block.len, Inv.flat_length]

theorem live_newOpId (h : Inv s g val adj) (x : R) {nd : Node R} (hc : Inv.CanPush g s.tape.head nd)
    (hd : nd.dops = []) (hok : nd.ChainOK) (hf : nd.FitsAll) :
    Live nd.len s g val adj (do let w ← newVarOpId x nd.ops; w.setChain nd.chain; pure w : M W Var) HasV :=
  live_grown (nd := nd) (v := x) h hc.pos hok hf (fun hcap => h.newOpId_ok x hc hd hcap)

theorem live_matmulLoop (c : Chain) (la lb : Nat) (f : Nat → Nat → R) (P : Graph R → Prop)
    (kd : Nat → Nat → Kind R)
    (hP : ∀ {s : St W} {g : Graph R} {val adj : Nat → R} {s' : St W} {g' : Graph R} {val' adj' : Nat → R},
      Evo anyPos s g val adj s' g' val' adj' → P g → P g')
    (ps : List (Nat × Nat))
    (hnode : ∀ {s : St W} {g : Graph R} {val adj : Nat → R}, Inv s g val adj → P g → ∀ p ∈ ps,
      Inv.CanPush g s.tape.head ⟨s.tape.head, [p.1 + 1, p.2 + 1, la, lb], [], c, kd p.1 p.2⟩ ∧
      (⟨s.tape.head, [p.1 + 1, p.2 + 1, la, lb], [], c, kd p.1 p.2⟩ : Node R).ChainOK ∧
      (⟨s.tape.head, [p.1 + 1, p.2 + 1, la, lb], [], c, kd p.1 p.2⟩ : Node R).FitsAll) :
    ∀ {s : St W} {g : Graph R} {val adj : Nat → R}, Inv s g val adj → P g →
    Live (10 * ps.length) s g val adj (matmulLoop c la lb f ps : M W (List Var)) HasVs := by
  induction ps with
  | nil => intro s g val adj h _; exact Live.pure h (by simp [HasVs])
  | cons p ps ih =>
    obtain ⟨i, j⟩ := p
    intro s g val adj h hp
    obtain ⟨c1, c2, c3⟩ := hnode h hp (i, j) (by simp)
    have e : (matmulLoop c la lb f ((i, j) :: ps) : M W (List Var)) =
        ((do let w ← newVarOpId (f i j) [i + 1, j + 1, la, lb]; w.setChain c; pure w) >>= fun s => do
          let ss ← matmulLoop c la lb f ps
          pure (s :: ss)) := by
      simp only [matmulLoop, bind_assoc, pure_bind]
    rw [e]
    have st := live_newOpId h (f i j) c1 rfl c2 c3
    dsimp only at st
    refine Live.mono (n1 := 10 + (10 * ps.length + 0)) ?_ (by simp only [List.length_cons]; omega)
    refine Live.bind (st.mono (by simp [Node.len])) fun r s1 g1 val1 adj1 _ ev hr => ?_
    have ih' := @ih (fun {s g val adj} h hp q hq => hnode h hp q (List.mem_cons_of_mem _ hq))
    refine Live.bind (ih' ev.inv (hP ev hp))
      fun rs s2 g2 val2 adj2 _ ev2 hrs => ?_
    refine Live.pure ev2.inv ?_
    intro v hv
    rcases List.mem_cons.mp hv with rfl | hv
    · exact ev2.hasV hr
    · exact hrs v hv

open Classical in
theorem live_matmulVV (h : Inv s g val adj) {a b : Mat Var} (ha : MatHasF anyPos g a) (hb : MatHasF anyPos g b)
    (h1 : a.nrow ≤ int32Max) (h2 : a.ncol ≤ int32Max) (h3 : b.nrow ≤ int32Max) (h4 : b.ncol ≤ int32Max)
    (hn : a.ncol = b.nrow) :
    Live (2 + a.nrow * a.ncol + (2 + b.nrow * b.ncol) + 10 * (a.nrow * b.ncol)) s g val adj
      (matmulVV (R := R) a b : M W (List Var)) HasVs := by
  unfold matmulVV
  rw [Nat.add_assoc (2 + a.nrow * a.ncol)]
  refine Live.bind (live_pushVarMat h ha h1 h2) fun la s1 g1 val1 adj1 _ ev1 b1 => ?_
  refine Live.bind (live_pushVarMat ev1.inv (hb.evo ev1) h3 h4) fun lb s2 g2 val2 adj2 _ ev2 b2 => ?_
  obtain ⟨av, hav⟩ := matVals_run ev2.inv ((ha.evo ev1).evo ev2)
  obtain ⟨bv, hbv⟩ := matVals_run ev2.inv ((hb.evo ev1).evo ev2)
  refine Live.read hav (Live.read hbv ?_)
  rw [if_pos hn, ← matPairs_length a.nrow b.ncol]
  obtain ⟨ids, m1, m2⟩ := b1.evo ev2
  obtain ⟨ids', m1', m2'⟩ := b2
  refine live_matmulLoop _ la lb _ (fun g => (Block.vb la a.nrow a.ncol ids ∈ g.blocks ∧
      ∀ p ∈ ids, anyPos p ∧ ∃ nd ∈ g.nodes, nd.pos = p) ∧ (Block.vb lb b.nrow b.ncol ids' ∈ g.blocks ∧
      ∀ p ∈ ids', anyPos p ∧ ∃ nd ∈ g.nodes, nd.pos = p))
    (fun i j => .mmVV (cmRow ids a.nrow a.ncol i) (cmCol ids' b.nrow j)) ?_ _ ?_ ev2.inv
    ⟨⟨m1, m2⟩, m1', m2'⟩
  · rintro s g val adj s' g' val' adj' e ⟨⟨q1, q2⟩, q3, q4⟩
    exact ⟨⟨e.pre.blocks.subset q1, fun p hp => ⟨(q2 p hp).1, e.pre.memPos (q2 p hp).2⟩⟩,
      e.pre.blocks.subset q3, fun p hp => ⟨(q4 p hp).1, e.pre.memPos (q4 p hp).2⟩⟩
  · rintro s g val adj hi ⟨⟨q1, q2⟩, q3, q4⟩ p hp
    have hpl := mem_matPairs hp
    have z1 := cmRow_length (hi.wf.bgood _ q1).1 hpl.1
    have z2 := cmCol_length (hi.wf.bgood _ q3).1 hpl.2
    refine ⟨⟨rfl, ?_, ?_, ?_⟩, ⟨rfl, Or.inl rfl⟩, ?_⟩
    · intro q hq
      rcases List.mem_append.mp hq with hq | hq
      · exact (q2 q (mem_cmRow hq)).2
      · exact (q4 q (mem_cmCol hq)).2
    · have l1 : la ≤ int32Max := hi.block_small q1
      have l2 : lb ≤ int32Max := hi.block_small q3
      intro o ho
      simp only [List.mem_cons, List.not_mem_nil, or_false] at ho
      rcases ho with rfl | rfl | rfl | rfl <;> omega
    · rw [hn] at q1 ⊢
      exact ⟨p.1, p.2, la, a.nrow, b.nrow, ids, lb, b.ncol, ids', rfl, q1, q3, hpl.1, hpl.2, rfl, rfl⟩
    · intro val adj
      simp only [Node.contrib]
      rw [if_pos ⟨trivial, by omega⟩]
      exact ⟨_, rfl⟩

theorem live_matmulVD (h : Inv s g val adj) {a : Mat Var} {b : Mat R} (ha : MatHasF anyPos g a)
    (h1 : a.nrow ≤ int32Max) (h2 : a.ncol ≤ int32Max) (h3 : b.nrow ≤ int32Max) (h4 : b.ncol ≤ int32Max)
    (hn : a.ncol = b.nrow) :
    Live (2 + a.nrow * a.ncol + (2 + 2 * (b.nrow * b.ncol)) + 10 * (a.nrow * b.ncol)) s g val adj
      (matmulVD a b : M W (List Var)) HasVs := by
  unfold matmulVD
  rw [Nat.add_assoc (2 + a.nrow * a.ncol)]
  refine Live.bind (live_pushVarMat h ha h1 h2) fun la s1 g1 val1 adj1 _ ev1 b1 => ?_
  refine Live.bind (live_pushDataMat ev1.inv h3 h4) fun lb s2 g2 val2 adj2 _ ev2 b2 => ?_
  obtain ⟨av, hav⟩ := matVals_run ev2.inv ((ha.evo ev1).evo ev2)
  refine Live.read hav ?_
  rw [if_pos hn, ← matPairs_length a.nrow b.ncol]
  obtain ⟨ids, m1, m2⟩ := b1.evo ev2
  obtain ⟨xs, m1'⟩ := b2
  refine live_matmulLoop _ la lb _ (fun g => (Block.vb la a.nrow a.ncol ids ∈ g.blocks ∧
      ∀ p ∈ ids, anyPos p ∧ ∃ nd ∈ g.nodes, nd.pos = p) ∧ Block.db lb b.nrow b.ncol xs ∈ g.blocks)
    (fun i j => .mmVD (cmRow ids a.nrow a.ncol i) (cmCol xs b.nrow j)) ?_ _ ?_ ev2.inv
    ⟨⟨m1, m2⟩, m1'⟩
  · rintro s g val adj s' g' val' adj' e ⟨⟨q1, q2⟩, q3⟩
    exact ⟨⟨e.pre.blocks.subset q1, fun p hp => ⟨(q2 p hp).1, e.pre.memPos (q2 p hp).2⟩⟩,
      e.pre.blocks.subset q3⟩
  · rintro s g val adj hi ⟨⟨q1, q2⟩, q3⟩ p hp
    have hpl := mem_matPairs hp
    have z1 := cmRow_length (hi.wf.bgood _ q1).1 hpl.1
    have z2 := cmCol_length (hi.wf.bgood _ q3).1 hpl.2
    refine ⟨⟨rfl, ?_, ?_, ?_⟩, ⟨rfl, Or.inl rfl⟩, ?_⟩
    · intro q hq
      exact (q2 q (mem_cmRow hq)).2
    · have l1 : la ≤ int32Max := hi.block_small q1
      have l2 : lb ≤ int32Max := hi.block_small q3
      intro o ho
      simp only [List.mem_cons, List.not_mem_nil, or_false] at ho
      rcases ho with rfl | rfl | rfl | rfl <;> omega
    · rw [hn] at q1 ⊢
      exact ⟨p.1, p.2, la, a.nrow, b.nrow, ids, lb, b.ncol, xs, rfl, q1, q3, hpl.1, hpl.2, rfl, rfl⟩
    · intro val adj
      simp only [Node.contrib]
      rw [if_pos ⟨trivial, by omega⟩]
      exact ⟨_, rfl⟩

theorem live_matmulDV (h : Inv s g val adj) {a : Mat R} {b : Mat Var} (hb : MatHasF anyPos g b)
    (h1 : a.nrow ≤ int32Max) (h2 : a.ncol ≤ int32Max) (h3 : b.nrow ≤ int32Max) (h4 : b.ncol ≤ int32Max)
    (hn : a.ncol = b.nrow) :
    Live (2 + 2 * (a.nrow * a.ncol) + (2 + b.nrow * b.ncol) + 10 * (a.nrow * b.ncol)) s g val adj
      (matmulDV a b : M W (List Var)) HasVs := by
  unfold matmulDV
  rw [Nat.add_assoc (2 + 2 * (a.nrow * a.ncol))]
  refine Live.bind (live_pushDataMat h h1 h2) fun la s1 g1 val1 adj1 _ ev1 b1 => ?_
  refine Live.bind (live_pushVarMat ev1.inv (hb.evo ev1) h3 h4) fun lb s2 g2 val2 adj2 _ ev2 b2 => ?_
  obtain ⟨bv, hbv⟩ := matVals_run ev2.inv ((hb.evo ev1).evo ev2)
  refine Live.read hbv ?_
  rw [if_pos hn, ← matPairs_length a.nrow b.ncol]
  obtain ⟨xs, m1⟩ := b1.evo ev2
  obtain ⟨ids', m1', m2'⟩ := b2
  refine live_matmulLoop _ la lb _ (fun g => Block.db la a.nrow a.ncol xs ∈ g.blocks ∧
      (Block.vb lb b.nrow b.ncol ids' ∈ g.blocks ∧ ∀ p ∈ ids', anyPos p ∧ ∃ nd ∈ g.nodes, nd.pos = p))
    (fun i j => .mmDV (cmRow xs a.nrow a.ncol i) (cmCol ids' b.nrow j)) ?_ _ ?_ ev2.inv
    ⟨m1, m1', m2'⟩
  · rintro s g val adj s' g' val' adj' e ⟨q1, q3, q4⟩
    exact ⟨e.pre.blocks.subset q1, e.pre.blocks.subset q3, fun p hp => ⟨(q4 p hp).1, e.pre.memPos (q4 p hp).2⟩⟩
  · rintro s g val adj hi ⟨q1, q3, q4⟩ p hp
    have hpl := mem_matPairs hp
    have z1 := cmRow_length (hi.wf.bgood _ q1).1 hpl.1
    have z2 := cmCol_length (hi.wf.bgood _ q3).1 hpl.2
    refine ⟨⟨rfl, ?_, ?_, ?_⟩, ⟨rfl, Or.inl rfl⟩, ?_⟩
    · intro q hq
      exact (q4 q (mem_cmCol hq)).2
    · have l1 : la ≤ int32Max := hi.block_small q1
      have l2 : lb ≤ int32Max := hi.block_small q3
      intro o ho
      simp only [List.mem_cons, List.not_mem_nil, or_false] at ho
      rcases ho with rfl | rfl | rfl | rfl <;> omega
    · rw [hn] at q1 ⊢
      exact ⟨p.1, p.2, la, a.nrow, b.nrow, xs, lb, b.ncol, ids', rfl, q1, q3, hpl.1, hpl.2, rfl, rfl⟩
    · intro val adj
      simp only [Node.contrib]
      rw [if_pos ⟨trivial, by omega⟩]
      exact ⟨_, rfl⟩

/-! ## all creating calls -/

theorem live_elemental2 (f : Bin) : ∀ (as bs : List Var) {s : St W} {g : Graph R} {val adj : Nat → R},
    Inv s g val adj → (∀ v ∈ as, g.Has v) → (∀ v ∈ bs, g.Has v) → as.length = bs.length →
    Live (8 * as.length) s g val adj (elemental2 (f.callVV : Var → Var → M W Var) as bs) HasVs
  | [], [], _, _, _, _, h, _, _, _ => Live.pure h (by simp [HasVs])
  | [], _ :: _, _, _, _, _, _, _, _, hn => by simp at hn
  | _ :: _, [], _, _, _, _, _, _, _, hn => by simp at hn
  | a :: as, b :: bs, s, g, val, adj, h, ha, hb, hn => by
    unfold elemental2
    refine Live.mono (n1 := 8 + (8 * as.length + 0)) ?_ (by simp only [List.length_cons]; omega)
    refine Live.bind (live_binVV h (ha a (by simp)) (hb b (by simp)) f) fun r s1 g1 val1 adj1 _ ev hr => ?_
    refine Live.bind (live_elemental2 f as bs ev.inv (fun v hv => ev.hasV (ha v (by simp [hv])))
      (fun v hv => ev.hasV (hb v (by simp [hv]))) (by simpa using hn)) fun rs s2 g2 val2 adj2 _ ev2 hrs => ?_
    refine Live.pure ev2.inv ?_
    intro v hv
    rcases List.mem_cons.mp hv with rfl | hv
    · exact ev2.hasV hr
    · exact hrs v hv

theorem nths_has {env : List Var} {is : List Nat} (hi : ∀ i ∈ is, g.Has (nth env i)) :
    ∀ v ∈ is.map (nth env), g.Has v := by
  intro v hv
  simp only [List.mem_map] at hv
  obtain ⟨i, hm, rfl⟩ := hv
  exact hi i hm

theorem make_live (h : Inv s g val adj) {closed : Bool} (hl : closed = false → Clean R s) {env : List Var}
    {ys : List R} (hy : ValL ys env g val) (m : Make R) (ha : ∀ i ∈ m.args, i < env.length) (hs : m.Sane)
    (hr : m.Regular) (hm : m.Meets closed ys) :
    Live (m.words ys) s g val adj (m.call env : M W (List Var)) HasVs := by
  have hx : ∀ i ∈ m.args, g.Has (nth env i) := fun i hi => nth_has hy.has (ha i hi)
  have hF : ∀ i ∈ m.args, g.HasF anyPos (nth env i) := fun i hi => ⟨hx i hi, trivial⟩
  cases m with
  | new0 => exact live_single (live_newVar h (hl hm _ (Nat.le_refl _)) zero)
  | new d => exact live_single (live_newVar h (hl hm _ (Nat.le_refl _)) d)
  | newVals ds => exact live_newVars h (hl hm) ds
  | newArr n => exact live_newVar1d n h (hl hm)
  | fn f i =>
    have hi := ha i (by simp [Make.args])
    have e := hy.entry hi
    have := live_single (live_fn h hl e.has f (by rw [e.eq]; exact hm))
    rw [e.eq] at this
    exact this
  | fnArr f is =>
    have := live_mapM (f := fun i => f.api (nth env i)) (fun i => f.words (num ys i)) is h
      fun i hi s' g' val' adj' ev => by
        have e := ev.valR h (hy.entry (ha i hi))
        have := live_fn ev.inv (fun hc => ev.keep.clean (hl hc)) e.has f (by rw [e.eq]; exact hm i hi)
        rw [e.eq] at this
        exact this
    have e : ((Make.fnArr f is).call env : M W (List Var)) = is.mapM fun i => f.api (nth env i) := by
      show (is.map (nth env)).mapM f.api = _
      rw [List.mapM_map]
      rfl
    rw [e]
    exact this
  | bin f i j =>
    exact live_single (live_binVV h (hx i (by simp [Make.args])) (hx j (by simp [Make.args])) f)
  | binArr f is js =>
    have := live_elemental2 f (is.map (nth env)) (js.map (nth env)) h
      (nths_has fun i hi => hx i (by simp [Make.args, hi]))
      (nths_has fun i hi => hx i (by simp [Make.args, hi])) (by simpa [Make.Meets] using hm)
    rw [List.length_map] at this
    exact this
  | binVD f i d => exact live_single (live_binVD h (hx i (by simp [Make.args])) f d i hs hr)
  | binDV f d i => exact live_single (live_binDV h (hx i (by simp [Make.args])) f d i hs hr)
  | sum is =>
    refine live_single ((live_reduceV h (nths_has hx) _ (c := .sum) (by decide) (by takes_any)).mono ?_)
    simp [Make.words, Make.args]
  | norm2 is =>
    refine live_single ((live_reduceV h (nths_has hx) _ (c := .norm2) (by decide) (by takes_any)).mono ?_)
    simp [Make.words, Make.args]
  | logSumExp is =>
    refine live_single ((live_reduceV h (nths_has hx) _ (c := .logSumExp) (by decide) (by takes_any)).mono ?_)
    simp [Make.words, Make.args]
  | dotVV is js =>
    refine live_single ((live_dotVV h (nths_has fun i hi => hx i (by simp [Make.args, hi]))
      (nths_has fun i hi => hx i (by simp [Make.args, hi])) (by simpa [Make.Meets, Make.args] using hm)).mono ?_)
    simp [Make.words, Make.args]
  | dotVD is ds =>
    refine live_single ((live_dotVD h (nths_has hx) ds (by simpa [Make.Meets, Make.args] using hm)).mono ?_)
    simp [Make.words, Make.args]
  | dotDV ds is =>
    refine live_single ((live_dotDV h (nths_has hx) ds (by simpa [Make.Meets, Make.args] using hm)).mono ?_)
    simp [Make.words, Make.args]
  | matmulVV a b =>
    simp only [Make.Sane] at hs
    exact live_matmulVV h (mat_has fun i hi => hF i (by simp [Make.args, hi]))
      (mat_has fun i hi => hF i (by simp [Make.args, hi]))
      (by simp only [int32Max]; omega) (by simp only [int32Max]; omega)
      (by simp only [int32Max]; omega) (by simp only [int32Max]; omega) hm
  | matmulVD a b =>
    simp only [Make.Sane] at hs
    exact live_matmulVD h (b := ⟨b.nrow, b.ncol, b.get⟩) (mat_has hF)
      (by simp only [int32Max]; omega) (by simp only [int32Max]; omega)
      (by simp only [int32Max]; omega) (by simp only [int32Max]; omega) hm
  | matmulDV a b =>
    simp only [Make.Sane] at hs
    exact live_matmulDV h (a := ⟨a.nrow, a.ncol, a.get⟩) (mat_has hF)
      (by simp only [int32Max]; omega) (by simp only [int32Max]; omega)
      (by simp only [int32Max]; omega) (by simp only [int32Max]; omega) hm
  | lpdfVV d ys m' s' =>
    have h1 := (hx m' (by simp [Make.args]))
    have h2 := (hx s' (by simp [Make.args]))
    refine live_single ?_
    cases d
    · exact live_lpdfVV h h1 h2 _ _ _ _
    · exact live_lpdfVV h h1 h2 _ _ _ _
  | lpdfVD d ys m' s' =>
    have h1 := (hx m' (by simp [Make.args]))
    refine live_single ?_
    cases d
    · exact live_lpdfVD h h1 _ _ _ _
    · exact live_lpdfVD h h1 _ _ _ _
  | lpdfDV d ys m' s' =>
    have h1 := (hx s' (by simp [Make.args]))
    refine live_single ?_
    cases d
    · exact live_lpdfDV h h1 _ _ _ _
    · exact live_lpdfDV h h1 _ _ _ _
  | partials x is ds =>
    refine live_single ((live_varWithPartials h (nths_has hx) x ds (by simpa [Make.Meets, Make.args] using hm)).mono ?_)
    simp [Make.words, Make.args]
  | user x r is ds =>
    refine live_single ((live_userOp h (nths_has hx) x r ds (by simpa [Make.Meets, Make.args] using hm)).mono ?_)
    simp [Make.words, Make.args]

end Fz
