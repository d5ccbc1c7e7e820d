import Verif.Props.Rules

/-!
# C18: repeated operands in `dot_product` and `matmul`

The operands are lists and matrices of any existing variables; equal variables may occur at any positions, and the two
operands may be the same array.
-/

set_option linter.unusedSectionVars false

namespace Props
open Fz Spec

variable {W : Type} [Rep W ℝ] [LawfulRep W ℝ]
variable {h : List (Call ℝ)} {c : Client W} {u : Var} {b : Var → ℝ}

/-- one instruction, all its results -/
theorem instr_gives_all (hr : Reach h c) {vs : List Var} (hvs : ∀ v ∈ vs, v ∈ existing c.st) {ys : List ℝ}
    (hys : (vals vs : M W (List ℝ)) c.st = .ok (ys, c.st)) {i : Instr} (hok : i.Ok ys) (hc : ¬ isConst i)
    (room : c.st.tape.head + i.cost ys ≤ tapeLimit) (hu : u ∈ existing c.st) (hb : Rates c.st u b) :
    ∃ rs s', (i.run vs : M W (List Var)) c.st = .ok (rs, s') ∧ rs.length = (i.sem ys).length ∧
      ∀ k (hk : k < rs.length), ∀ a, HasDerivAt (fun t => (i.sem (along ys (vs.map b) t)).getD k 0) a 0 →
        Gives c.st s' rs[k] ((i.sem ys).getD k 0) u a := by
  obtain ⟨g, val, adj, D, ε, G, H, hD⟩ := rated hr hu hb
  have hh : ∀ v ∈ vs, g.Has v := fun v hv => (mem_existing G.inv).mp (hvs v hv)
  have hy := vals_eq G.inv hh hys
  obtain ⟨outs, s', e, g', val', adj', D', ε', H', pre, d1, d2, d3, -, ol, out⟩ := H.instr (env := vs)
    (i := i) hh (by rw [← hy]; exact hok) hc (by rw [← hy]; exact room)
  have hbD : vs.map (fun v => D (g.pos v) 1) = vs.map b :=
    List.map_congr_left fun v hv => hD v (hvs v hv)
  rw [← hy] at ol
  rw [← hy, hbD] at out
  refine ⟨outs, s', e, ol, fun k hk a ha => ?_⟩
  obtain ⟨o1, o2, o3⟩ := out k hk
  exact H.gives H' pre d1 d2 d3 o1 o2 (o3.unique ha)

/-- the derivative of a sum of products -/
theorem hasDerivAt_bilin {ι : Type} (l : List ι) (p q r s : ι → ℝ) :
    HasDerivAt (fun t : ℝ => (l.map fun i => (p i + t * q i) * (r i + t * s i)).sum)
      (l.map fun i => q i * r i + p i * s i).sum 0 := by
  induction l with
  | nil => simpa using hasDerivAt_const (0:ℝ) (0:ℝ)
  | cons i l ih =>
    simp only [List.map_cons, List.sum_cons]
    refine HasDerivAt.fun_add ?_ ih
    have h1 : ∀ x β : ℝ, HasDerivAt (fun t : ℝ => x + t * β) β 0 := fun x β => by
      simpa using ((hasDerivAt_id (0:ℝ)).mul_const β).const_add x
    simpa using (h1 (p i) (q i)).fun_mul (h1 (r i) (s i))

theorem vals_append {s : St W} {l₁ l₂ : List Var} {x₁ x₂ : List ℝ} (h1 : (vals l₁ : M W (List ℝ)) s = .ok (x₁, s))
    (h2 : (vals l₂ : M W (List ℝ)) s = .ok (x₂, s)) : (vals (l₁ ++ l₂) : M W (List ℝ)) s = .ok (x₁ ++ x₂, s) := by
  unfold vals at *
  rw [List.mapM_append, bind_ok h1, bind_ok h2]
  rfl

theorem vals_length {s : St W} {l : List Var} {x : List ℝ} (hr : Reach h c) (hl : ∀ v ∈ l, v ∈ existing c.st)
    (h1 : (vals l : M W (List ℝ)) c.st = .ok (x, c.st)) : x.length = l.length := by
  obtain ⟨g, val, adj, G⟩ := hr.good
  rw [vals_eq G.inv (fun v hv => (mem_existing G.inv).mp (hl v hv)) h1, List.length_map]

theorem range_lookV (l₁ l₂ : List Var) :
    (List.range l₁.length).map (lookV (l₁ ++ l₂)) = l₁ ∧
      ((List.range l₂.length).map (l₁.length + ·)).map (lookV (l₁ ++ l₂)) = l₂ := by
  constructor <;>
  · apply List.ext_getElem
    · simp
    · intro i h1 h2
      simp [lookV, List.getD_eq_getElem?_getD, h2, List.getElem?_append]

/-- **C18**: `dot_product(a, b)` of two arrays of variables: every occurrence counts. -/
theorem C18_dot (hr : Reach h c) {v w : List Var} (hv : ∀ z ∈ v, z ∈ existing c.st) (hw : ∀ z ∈ w, z ∈ existing c.st)
    (hl : v.length = w.length) {x y : List ℝ} (hx : (vals v : M W (List ℝ)) c.st = .ok (x, c.st))
    (hy : (vals w : M W (List ℝ)) c.st = .ok (y, c.st))
    (room : c.st.tape.head + (6 + 2 * v.length) ≤ tapeLimit) (hu : u ∈ existing c.st) (hb : Rates c.st u b) :
    ∃ r s', (dotVV v w : M W Var) c.st = .ok (r, s') ∧
      Gives c.st s' r ((List.range v.length).map fun k => x.getD k 0 * y.getD k 0).sum u
        ((List.range v.length).map fun k =>
          b (v.getD k ⟨0⟩) * y.getD k 0 + x.getD k 0 * b (w.getD k ⟨0⟩)).sum := by
  have hxl := vals_length (s := c.st) hr hv hx
  have hyl := vals_length (s := c.st) hr hw hy
  let is := List.range v.length
  let js := (List.range v.length).map (v.length + ·)
  have hz : is.zip js = (List.range v.length).map fun k => (k, v.length + k) := by
    apply List.ext_getElem <;> simp [is, js]
  have hsem : ∀ z : List ℝ, ((is.zip js).map fun p => look z p.1 * look z p.2).sum =
      ((List.range v.length).map fun k => look z k * look z (v.length + k)).sum := by
    intro z
    rw [hz, List.map_map]
    rfl
  have hlook : ∀ (l₁ l₂ : List ℝ), l₁.length = v.length → ∀ k < v.length, look (l₁ ++ l₂) k = l₁.getD k 0 ∧
      look (l₁ ++ l₂) (v.length + k) = l₂.getD k 0 := by
    intro l₁ l₂ e k hk
    constructor
    · simp [look, List.getD_eq_getElem?_getD, List.getElem?_append, e, hk]
    · simp [look, List.getD_eq_getElem?_getD, List.getElem?_append, e]
  obtain ⟨r, s', e, gv⟩ := instr_gives (i := .dotVV is js) (m := dotVV v w)
    (f := fun z => ((is.zip js).map fun p => look z p.1 * look z p.2).sum) hr
    (vs := v ++ w) (ys := x ++ y) (by
      intro z hz
      rcases List.mem_append.mp hz with hz | hz
      · exact hv z hz
      · exact hw z hz) (vals_append hx hy)
    (by
      obtain ⟨h1, h2⟩ := range_lookV v w
      rw [← hl] at h2
      simp only [Instr.run, is, js, h1, h2]) (fun _ => rfl)
    (by
      refine ⟨fun i hi => ?_, fun i hi => ?_, by simp [is, js]⟩
      · have := List.mem_range.mp hi
        simp only [List.length_append]; omega
      · obtain ⟨k, hk, rfl⟩ := List.mem_map.mp hi
        have := List.mem_range.mp hk
        simp only [List.length_append]; omega) id
    (by simpa [Instr.cost, is, js, two_mul] using room) hu hb
    (a := ((List.range v.length).map fun k =>
          b (v.getD k ⟨0⟩) * y.getD k 0 + x.getD k 0 * b (w.getD k ⟨0⟩)).sum) (by
      have := hasDerivAt_bilin (List.range v.length) (fun k => x.getD k 0) (fun k => b (v.getD k ⟨0⟩))
        (fun k => y.getD k 0) (fun k => b (w.getD k ⟨0⟩))
      refine this.congr_of_eventuallyEq (Filter.Eventually.of_forall fun t => ?_)
      simp only
      rw [hsem]
      congr 1
      apply List.map_congr_left
      intro k hk
      have hk := List.mem_range.mp hk
      have ha : ∀ j < (x ++ y).length, look (along (x ++ y) ((v ++ w).map b) t) j =
          look (x ++ y) j + t * look ((v ++ w).map b) j := fun j hj =>
        look_along (by simp [hxl, hyl]) t hj
      rw [ha k (by simp; omega), ha (v.length + k) (by simp; omega), (hlook x y hxl k hk).1, (hlook x y hxl k hk).2,
        List.map_append, (hlook (v.map b) (w.map b) (by simp) k hk).1, (hlook (v.map b) (w.map b) (by simp) k hk).2]
      simp [List.getD_eq_getElem?_getD, hk, hl ▸ hk])
  refine ⟨r, s', e, ?_⟩
  rw [hsem] at gv
  rwa [show ((List.range v.length).map fun k => look (x ++ y) k * look (x ++ y) (v.length + k)) =
      (List.range v.length).map fun k => x.getD k 0 * y.getD k 0 from
    List.map_congr_left fun k hk => by
      rw [(hlook x y hxl k (List.mem_range.mp hk)).1, (hlook x y hxl k (List.mem_range.mp hk)).2]] at gv

/-! ## `matmul` -/

theorem matmulVV_congr {A A' B B' : Mat Var} (h1 : A.nrow = A'.nrow) (h2 : A.ncol = A'.ncol) (h3 : A.flat = A'.flat)
    (h4 : B.nrow = B'.nrow) (h5 : B.ncol = B'.ncol) (h6 : B.flat = B'.flat) :
    (matmulVV A B : M W (List Var)) = matmulVV A' B' := by
  unfold matmulVV pushVarMat matVals
  simp only [h1, h2, h3, h4, h5, h6]

theorem flat_eq (A : Mat Var) (f : Nat → Nat → Var) (hf : ∀ i < A.nrow, ∀ j < A.ncol, f i j = A.get i j) :
    A.flat = (⟨A.nrow, A.ncol, f⟩ : Mat Var).flat := by
  unfold Mat.flat
  simp only [List.flatMap]
  congr 1
  apply List.map_congr_left
  intro j hj
  apply List.map_congr_left
  intro i hi
  exact (hf i (List.mem_range.mp hi) j (List.mem_range.mp hj)).symm

theorem flat_length (A : Mat Var) : A.flat.length = A.nrow * A.ncol := by
  simp [Mat.flat, List.length_flatMap, Nat.mul_comm]

theorem flatMap_getElem? {α : Type} (m n : Nat) (f : Nat → Nat → α) {i j : Nat} (hi : i < m) (hj : j < n) :
    ((List.range n).flatMap fun j => (List.range m).map fun i => f i j)[j * m + i]? = some (f i j) := by
  induction n with
  | zero => omega
  | succ n ih =>
    have hlen : ((List.range n).flatMap fun j => (List.range m).map fun i => f i j).length = n * m := by
      simp [List.length_flatMap]
    rw [List.range_succ, List.flatMap_append, List.getElem?_append, hlen]
    rcases Nat.lt_succ_iff_lt_or_eq.mp hj with hlt | rfl
    · have : j * m + i < n * m := by nlinarith
      rw [if_pos this]
      exact ih hlt
    · rw [if_neg (by omega), Nat.add_sub_cancel_left]
      simp [hi]

theorem flat_get (A : Mat Var) {i j : Nat} (hi : i < A.nrow) (hj : j < A.ncol) :
    A.flat[j * A.nrow + i]? = some (A.get i j) := flatMap_getElem? _ _ _ hi hj

theorem entry_lt {m n i j : Nat} (hi : i < m) (hj : j < n) : j * m + i < m * n := by nlinarith

/-- the value of a variable -/
noncomputable def valOf (s : St W) (v : Var) : ℝ :=
  match (v.val : M W ℝ) s with
  | .ok (x, _) => x
  | .error _ => 0

theorem vals_valOf (hr : Reach h c) {l : List Var} (hl : ∀ v ∈ l, v ∈ existing c.st) :
    (vals l : M W (List ℝ)) c.st = .ok (l.map (valOf c.st), c.st) := by
  obtain ⟨g, val, adj, G⟩ := hr.good
  have hh : ∀ v ∈ l, g.Has v := fun v hv => (mem_existing G.inv).mp (hl v hv)
  rw [G.inv.varVals hh]
  congr 2
  apply List.map_congr_left
  intro v hv
  rw [valOf, G.inv.varVal (hh v hv)]

theorem valOf_eq {s : St W} {v : Var} {x : ℝ} (hx : (v.val : M W ℝ) s = .ok (x, s)) : valOf s v = x := by
  rw [valOf, hx]

/-- **C18**: `matmul(A, B)` of two matrices of variables (the same matrix, or with repeated entries): the entry
`(i, j)`, at position `j * nrow + i` of the result, and its derivatives. -/
theorem C18_matmul (hr : Reach h c) {A B : Mat Var} (hA : ∀ i < A.nrow, ∀ j < A.ncol, A.get i j ∈ existing c.st)
    (hB : ∀ i < B.nrow, ∀ j < B.ncol, B.get i j ∈ existing c.st) (hAB : A.ncol = B.nrow)
    (hsz : A.nrow < 2 ^ 31 ∧ A.ncol < 2 ^ 31 ∧ B.ncol < 2 ^ 31) {X Y : Nat → Nat → ℝ}
    (hX : ∀ i < A.nrow, ∀ j < A.ncol, ((A.get i j).val : M W ℝ) c.st = .ok (X i j, c.st))
    (hY : ∀ i < B.nrow, ∀ j < B.ncol, ((B.get i j).val : M W ℝ) c.st = .ok (Y i j, c.st))
    (room : c.st.tape.head + ((2 + A.nrow * A.ncol) + (2 + B.nrow * B.ncol) + 10 * (A.nrow * B.ncol)) ≤ tapeLimit)
    (hu : u ∈ existing c.st) (hb : Rates c.st u b) :
    ∃ rs s', (matmulVV A B : M W (List Var)) c.st = .ok (rs, s') ∧ rs.length = A.nrow * B.ncol ∧
      ∀ i < A.nrow, ∀ j < B.ncol, Gives c.st s' (rs.getD (j * A.nrow + i) ⟨0⟩)
        ((List.range A.ncol).map fun k => X i k * Y k j).sum u
        ((List.range A.ncol).map fun k => b (A.get i k) * Y k j + X i k * b (B.get k j)).sum := by
  set nA := A.nrow * A.ncol with hnA
  let IA : Matrix' Nat := ⟨A.nrow, A.ncol, fun i j => j * A.nrow + i⟩
  let IB : Matrix' Nat := ⟨B.nrow, B.ncol, fun i j => nA + (j * B.nrow + i)⟩
  let vs := A.flat ++ B.flat
  have gA : ∀ i < A.nrow, ∀ j < A.ncol, vs[j * A.nrow + i]? = some (A.get i j) := by
    intro i hi j hj
    rw [List.getElem?_append_left (by rw [flat_length]; exact entry_lt hi hj)]
    exact flat_get A hi hj
  have gB : ∀ i < B.nrow, ∀ j < B.ncol, vs[nA + (j * B.nrow + i)]? = some (B.get i j) := by
    intro i hi j hj
    rw [List.getElem?_append_right (by rw [flat_length]; omega), flat_length, ← hnA, Nat.add_sub_cancel_left]
    exact flat_get B hi hj
  have hvs : ∀ v ∈ vs, v ∈ existing c.st := by
    intro v hv
    rcases List.mem_append.mp hv with hv | hv
    · unfold Mat.flat at hv
      simp only [List.mem_flatMap, List.mem_map, List.mem_range] at hv
      obtain ⟨j, hj, i, hi, rfl⟩ := hv
      exact hA i hi j hj
    · unfold Mat.flat at hv
      simp only [List.mem_flatMap, List.mem_map, List.mem_range] at hv
      obtain ⟨j, hj, i, hi, rfl⟩ := hv
      exact hB i hi j hj
  have hys := vals_valOf hr hvs
  have hvl : vs.length = nA + B.nrow * B.ncol := by simp [vs, flat_length, hnA]
  have eA : (IA.vars vs).flat = A.flat := (flat_eq A _ fun i hi j hj => by
    simp [IA, lookV, List.getD_eq_getElem?_getD, gA i hi j hj]).symm
  have eB : (IB.vars vs).flat = B.flat := (flat_eq B _ fun i hi j hj => by
    simp [IB, lookV, List.getD_eq_getElem?_getD, gB i hi j hj]).symm
  have erun : ((Instr.matmulVV IA IB).run vs : M W (List Var)) = matmulVV A B :=
    matmulVV_congr rfl rfl eA rfl rfl eB
  obtain ⟨rs, s', e, el, out⟩ := instr_gives_all hr hvs hys (i := .matmulVV IA IB) ⟨hAB, by
      intro i hi j hj
      have := entry_lt hi hj
      simp only [List.length_map, hvl, IA]
      change j * A.nrow + i < A.nrow * A.ncol at this
      omega, by
      intro i hi j hj
      have := entry_lt hi hj
      simp only [List.length_map, hvl, IB]
      change j * B.nrow + i < B.nrow * B.ncol at this
      omega, hsz⟩ id room hu hb
  rw [erun] at e
  have el' : rs.length = A.nrow * B.ncol := by
    rw [el]
    simp [Instr.sem, entries, List.length_flatMap, IA, IB, Nat.mul_comm]
  refine ⟨rs, s', e, el', fun i hi j hj => ?_⟩
  have hk : j * A.nrow + i < rs.length := by rw [el']; exact entry_lt hi hj
  have hent : (entries A.nrow B.ncol)[j * A.nrow + i]? = some (i, j) := flatMap_getElem? _ _ _ hi hj
  have hsem : ∀ z : List ℝ, ((Instr.matmulVV IA IB).sem z).getD (j * A.nrow + i) 0 =
      ((List.range A.ncol).map fun k => look z (k * A.nrow + i) * look z (nA + (j * B.nrow + k))).sum := by
    intro z
    simp [Instr.sem, List.getD_eq_getElem?_getD, IA, IB, hent]
  have lA : ∀ k < A.ncol, look (vs.map (valOf c.st)) (k * A.nrow + i) = X i k ∧
      look (vs.map b) (k * A.nrow + i) = b (A.get i k) ∧ k * A.nrow + i < vs.length := by
    intro k hk
    refine ⟨?_, ?_, ?_⟩
    · simp [look, List.getD_eq_getElem?_getD, List.getElem?_map, gA i hi k hk, valOf_eq (hX i hi k hk)]
    · simp [look, List.getD_eq_getElem?_getD, List.getElem?_map, gA i hi k hk]
    · exact (List.getElem?_eq_some_iff.mp (gA i hi k hk)).1
  have lB : ∀ k < A.ncol, look (vs.map (valOf c.st)) (nA + (j * B.nrow + k)) = Y k j ∧
      look (vs.map b) (nA + (j * B.nrow + k)) = b (B.get k j) ∧ nA + (j * B.nrow + k) < vs.length := by
    intro k hk
    have hk : k < B.nrow := hAB ▸ hk
    refine ⟨?_, ?_, ?_⟩
    · simp [look, List.getD_eq_getElem?_getD, List.getElem?_map, gB k hk j hj, valOf_eq (hY k hk j hj)]
    · simp [look, List.getD_eq_getElem?_getD, List.getElem?_map, gB k hk j hj]
    · exact (List.getElem?_eq_some_iff.mp (gB k hk j hj)).1
  have key := out _ hk ((List.range A.ncol).map fun k => b (A.get i k) * Y k j + X i k * b (B.get k j)).sum (by
    refine (hasDerivAt_bilin (List.range A.ncol) (fun k => X i k) (fun k => b (A.get i k)) (fun k => Y k j)
      (fun k => b (B.get k j))).congr_of_eventuallyEq (Filter.Eventually.of_forall fun t => ?_)
    simp only
    rw [hsem]
    congr 1
    apply List.map_congr_left
    intro k hk
    have hk := List.mem_range.mp hk
    obtain ⟨a1, a2, a3⟩ := lA k hk
    obtain ⟨b1, b2, b3⟩ := lB k hk
    rw [look_along (by simp) t (by simpa using a3), look_along (by simp) t (by simpa using b3), a1, a2, b1, b2])
  rw [hsem] at key
  rw [show ((List.range A.ncol).map fun k => look (vs.map (valOf c.st)) (k * A.nrow + i) *
      look (vs.map (valOf c.st)) (nA + (j * B.nrow + k))) = (List.range A.ncol).map fun k => X i k * Y k j from
    List.map_congr_left fun k hk => by
      rw [(lA k (List.mem_range.mp hk)).1, (lB k (List.mem_range.mp hk)).1]] at key
  rwa [List.getD_eq_getElem?_getD, List.getElem?_eq_getElem hk, Option.getD_some]

/-- the hypotheses of C18_dot and C18_matmul are met: `dot_product(v, v)` and `matmul(A, A)` with a repeated entry -/
example : ∃ (c : Client ℝ) (A : Mat Var) (X : Nat → Nat → ℝ), Reach demo c ∧
    (∀ z ∈ [(⟨3⟩ : Var), ⟨1⟩, ⟨3⟩], z ∈ existing c.st) ∧
    (vals [⟨3⟩, ⟨1⟩, ⟨3⟩] : M ℝ (List ℝ)) c.st = .ok ([6, 2, 6], c.st) ∧
    A.nrow = 2 ∧ A.ncol = 2 ∧ A.get 0 0 = A.get 0 1 ∧
    (∀ i < A.nrow, ∀ j < A.ncol, A.get i j ∈ existing c.st) ∧
    (∀ i < A.nrow, ∀ j < A.ncol, ((A.get i j).val : M ℝ ℝ) c.st = .ok (X i j, c.st)) ∧
    c.st.tape.head + ((2 + A.nrow * A.ncol) + (2 + A.nrow * A.ncol) + 10 * (A.nrow * A.ncol)) ≤ tapeLimit ∧
    (⟨1⟩ : Var) ∈ existing c.st ∧ Rates c.st ⟨1⟩ demoB := by
  obtain ⟨c, hr, hh, hex, h1, h2, h3, hb⟩ := demo_rates (W := ℝ)
  refine ⟨c, ⟨2, 2, fun i _ => if i = 0 then ⟨3⟩ else ⟨1⟩⟩, fun i _ => if i = 0 then 6 else 2, hr, ?_, ?_, rfl, rfl,
    rfl, ?_, ?_, ?_, ?_, hb⟩
  · simp [hex]
  · unfold vals
    rw [List.mapM_cons, bind_ok h3, List.mapM_cons, bind_assoc, bind_ok h1, bind_assoc, List.mapM_cons, bind_assoc,
      bind_ok h3]
    rfl
  · intro i _ j _
    by_cases hi : i = 0 <;> simp [hi, hex]
  · intro i _ j _
    by_cases hi : i = 0 <;> simp only [hi, if_true, if_false, h3, h1]
  · rw [hh]; simp [tapeLimit]
  · simp [hex]

end Props
