import Verif.Props.Repeat

/-!
# C02: values and derivatives of the vector operations with data arguments, and of `norm2`

`sum`, `dot_product` and `matmul` of variables are C18_sum, C18_dot and C18_matmul; `log_sum_exp` is C30.
-/

set_option linter.unusedSectionVars false

namespace Props
open Fz Spec

variable {W : Type} [Rep W ℝ] [LawfulRep W ℝ]
variable {h : List (Call ℝ)} {c : Client W} {u : Var} {b : Var → ℝ}

theorem range_zip_map {z : List ℝ} {d : List ℝ} (f : ℝ → ℝ → ℝ) :
    (((List.range z.length).zip d).map fun p => f (look z p.1) p.2) = (z.zip d).map fun p => f p.1 p.2 := by
  apply List.ext_getElem
  · simp
  · intro i h1 h2
    simp only [List.length_map, List.length_zip, List.length_range] at h1
    simp [look, List.getD_eq_getElem?_getD, show i < z.length by omega]

theorem range_map {z : List ℝ} (f : ℝ → ℝ) : ((List.range z.length).map fun i => f (look z i)) = z.map f := by
  apply List.ext_getElem
  · simp
  · intro i h1 h2
    simp only [List.length_map, List.length_range] at h1
    simp [look, List.getD_eq_getElem?_getD, h1]

theorem mem_range_zip {n : Nat} {d : List ℝ} {p : Nat × ℝ} (hp : p ∈ (List.range n).zip d) : p.1 < n :=
  List.mem_range.mp (List.of_mem_zip (a := p.1) (b := p.2) hp).1

/-- **C02**: `dot_product(v, d)` with an array `d` of reals. -/
theorem C02_dot_real (hr : Reach h c) {v : List Var} (hv : ∀ z ∈ v, z ∈ existing c.st) {d : List ℝ}
    (hl : v.length = d.length) {x : List ℝ} (hx : (vals v : M W (List ℝ)) c.st = .ok (x, c.st))
    (room : c.st.tape.head + (6 + v.length + 2 * d.length) ≤ tapeLimit) (hu : u ∈ existing c.st)
    (hb : Rates c.st u b) :
    ∃ r s', (dotVD v d : M W Var) c.st = .ok (r, s') ∧
      Gives c.st s' r ((x.zip d).map fun p => p.1 * p.2).sum u (((v.map b).zip d).map fun p => p.1 * p.2).sum := by
  have hxl := vals_length (s := c.st) hr hv hx
  obtain ⟨r, s', e, gv⟩ := instr_gives (i := .dotVD (List.range v.length) d) (m := dotVD v d)
    (f := fun z => (((List.range v.length).zip d).map fun p => look z p.1 * p.2).sum) hr hv hx
    (by simp only [Instr.run, range_look]) (fun _ => rfl) (by simp [Instr.Ok, hxl, hl]) id
    (by simpa [Instr.cost] using room) hu hb
    (a := (((v.map b).zip d).map fun p => p.1 * p.2).sum) (by
      have := hasDerivAt_bilin ((List.range v.length).zip d) (fun p => look x p.1) (fun p => look (v.map b) p.1)
        (fun p => p.2) (fun _ => 0)
      simp only [mul_zero, add_zero] at this
      have e := range_zip_map (z := v.map b) (d := d) (· * ·)
      rw [List.length_map] at e
      rw [e] at this
      refine this.congr_of_eventuallyEq (Filter.Eventually.of_forall fun t => ?_)
      simp only
      congr 1
      apply List.map_congr_left
      intro p hp
      rw [look_along (by simp [hxl]) t (by have := mem_range_zip hp; omega)])
  refine ⟨r, s', e, ?_⟩
  have e := range_zip_map (z := x) (d := d) (· * ·)
  rw [hxl] at e
  rwa [e] at gv

/-- **C02**: `dot_product(d, v)`. -/
theorem C02_real_dot (hr : Reach h c) {v : List Var} (hv : ∀ z ∈ v, z ∈ existing c.st) {d : List ℝ}
    (hl : v.length = d.length) {x : List ℝ} (hx : (vals v : M W (List ℝ)) c.st = .ok (x, c.st))
    (room : c.st.tape.head + (6 + v.length + 2 * d.length) ≤ tapeLimit) (hu : u ∈ existing c.st)
    (hb : Rates c.st u b) :
    ∃ r s', (dotDV d v : M W Var) c.st = .ok (r, s') ∧
      Gives c.st s' r ((d.zip x).map fun p => p.1 * p.2).sum u ((d.zip (v.map b)).map fun p => p.1 * p.2).sum := by
  have hxl := vals_length (s := c.st) hr hv hx
  have sw : ∀ {z : List ℝ} , z.length = v.length →
      ((d.zip (List.range v.length)).map fun p => p.1 * look z p.2) = (d.zip z).map fun p => p.1 * p.2 := by
    intro z hz
    apply List.ext_getElem
    · simp [hz]
    · intro i h1 h2
      simp only [List.length_map, List.length_zip, List.length_range] at h1
      simp [look, List.getD_eq_getElem?_getD, show i < z.length by omega]
  obtain ⟨r, s', e, gv⟩ := instr_gives (i := .dotDV d (List.range v.length)) (m := dotDV d v)
    (f := fun z => ((d.zip (List.range v.length)).map fun p => p.1 * look z p.2).sum) hr hv hx
    (by simp only [Instr.run, range_look]) (fun _ => rfl) (by simp [Instr.Ok, hxl, hl]) id
    (by simpa [Instr.cost] using room) hu hb
    (a := ((d.zip (v.map b)).map fun p => p.1 * p.2).sum) (by
      have := hasDerivAt_bilin (d.zip (List.range v.length)) (fun p => p.1) (fun _ => 0) (fun p => look x p.2)
        (fun p => look (v.map b) p.2)
      simp only [mul_zero, add_zero, zero_mul, zero_add] at this
      rw [sw (by simp)] at this
      refine this.congr_of_eventuallyEq (Filter.Eventually.of_forall fun t => ?_)
      simp only
      congr 1
      apply List.map_congr_left
      intro p hp
      have : p.2 < v.length := List.mem_range.mp (List.of_mem_zip (a := p.1) (b := p.2) hp).2
      rw [look_along (by simp [hxl]) t (by omega)])
  refine ⟨r, s', e, ?_⟩
  rwa [sw hxl] at gv

/-- **C02**: `norm2(v)`, the values not all zero. -/
theorem C02_norm2 (hr : Reach h c) {v : List Var} (hv : ∀ z ∈ v, z ∈ existing c.st)
    {x : List ℝ} (hx : (vals v : M W (List ℝ)) c.st = .ok (x, c.st)) (hne : ∃ y ∈ x, y ≠ 0)
    (room : c.st.tape.head + (6 + v.length) ≤ tapeLimit) (hu : u ∈ existing c.st) (hb : Rates c.st u b) :
    ∃ r s', (norm2V v : M W Var) c.st = .ok (r, s') ∧
      Gives c.st s' r √(x.map (· ^ 2)).sum u
        (((x.zip (v.map b)).map fun p => p.1 * p.2).sum / √(x.map (· ^ 2)).sum) := by
  have hxl := vals_length (s := c.st) hr hv hx
  have hsq : ((List.range v.length).map fun i => look x i ^ 2) = x.map (· ^ 2) := by
    rw [← hxl]
    exact range_map (z := x) (· ^ 2)
  have hpos : (0:ℝ) < (x.map (· ^ 2)).sum := by
    obtain ⟨y, hy, hy0⟩ := hne
    have : y ^ 2 ≤ (x.map (· ^ 2)).sum :=
      List.single_le_sum (by
        intro z hz
        obtain ⟨w, -, rfl⟩ := List.mem_map.mp hz
        positivity) _ (List.mem_map.mpr ⟨y, hy, rfl⟩)
    have : 0 < y ^ 2 := by positivity
    linarith
  have hzip : ((List.range v.length).map fun i => look x i * look (v.map b) i) =
      (x.zip (v.map b)).map fun p => p.1 * p.2 := by
    apply List.ext_getElem
    · simp [hxl]
    · intro i h1 h2
      simp only [List.length_map, List.length_range] at h1
      simp [look, List.getD_eq_getElem?_getD, h1, show i < x.length by omega]
  obtain ⟨r, s', e, gv⟩ := instr_gives (i := .norm2 (List.range v.length)) (m := norm2V v)
    (f := fun z => √((List.range v.length).map fun i => look z i ^ 2).sum) hr hv hx
    (by simp only [Instr.run, range_look]) (fun _ => rfl) (by
      obtain ⟨y, hy, hy0⟩ := hne
      obtain ⟨i, hi, rfl⟩ := List.mem_iff_getElem.mp hy
      refine ⟨fun i hi => by have := List.mem_range.mp hi; omega, i, List.mem_range.mpr (by omega), ?_⟩
      simpa [look, List.getD_eq_getElem?_getD, hi] using hy0) id
    (by simpa [Instr.cost] using room) hu hb
    (a := ((x.zip (v.map b)).map fun p => p.1 * p.2).sum / √(x.map (· ^ 2)).sum) (by
      have h1 := hasDerivAt_bilin (List.range v.length) (look x) (look (v.map b)) (look x) (look (v.map b))
      have h2 : HasDerivAt (fun t : ℝ => ((List.range v.length).map fun i =>
          look (along x (v.map b) t) i ^ 2).sum) (2 * ((x.zip (v.map b)).map fun p => p.1 * p.2).sum) 0 := by
        rw [← hzip, ← List.sum_map_mul_left]
        refine (h1.congr_deriv ?_).congr_of_eventuallyEq (Filter.Eventually.of_forall fun t => ?_)
        · congr 1
          apply List.map_congr_left
          intro i _
          ring
        · simp only
          congr 1
          apply List.map_congr_left
          intro i hi
          have := List.mem_range.mp hi
          rw [look_along (by simp [hxl]) t (by omega), sq]
      have h0 : ((List.range v.length).map fun i => look (along x (v.map b) 0) i ^ 2).sum = (x.map (· ^ 2)).sum := by
        rw [← hsq]
        congr 1
        apply List.map_congr_left
        intro i hi
        have := List.mem_range.mp hi
        rw [look_along (by simp [hxl]) 0 (by omega)]
        ring
      have h3 := h2.sqrt (by rw [h0]; exact hpos.ne')
      rw [h0] at h3
      refine h3.congr_deriv ?_
      rw [mul_div_mul_left _ _ two_ne_zero])
  refine ⟨r, s', e, ?_⟩
  rwa [hsq] at gv

theorem matmulVD_congr {A A' : Mat Var} {D : Mat ℝ} (h1 : A.nrow = A'.nrow) (h2 : A.ncol = A'.ncol)
    (h3 : A.flat = A'.flat) : (matmulVD A D : M W (List Var)) = matmulVD A' D := by
  unfold matmulVD pushVarMat matVals
  simp only [h1, h2, h3]

theorem matmulDV_congr {A A' : Mat Var} {D : Mat ℝ} (h1 : A.nrow = A'.nrow) (h2 : A.ncol = A'.ncol)
    (h3 : A.flat = A'.flat) : (matmulDV D A : M W (List Var)) = matmulDV D A' := by
  unfold matmulDV pushVarMat matVals
  simp only [h1, h2, h3]

theorem mem_flat {α : Type} {A : Mat α} {P : α → Prop} (hA : ∀ i < A.nrow, ∀ j < A.ncol, P (A.get i j)) :
    ∀ v ∈ A.flat, P v := by
  intro v hv
  unfold Mat.flat at hv
  simp only [List.mem_flatMap, List.mem_map, List.mem_range] at hv
  obtain ⟨j, hj, i, hi, rfl⟩ := hv
  exact hA i hi j hj

/-- entries of the matrix of positions of `A.flat` -/
theorem flat_looks {s : St W} {A : Mat Var} {X : Nat → Nat → ℝ}
    (hX : ∀ i < A.nrow, ∀ j < A.ncol, ((A.get i j).val : M W ℝ) s = .ok (X i j, s)) (b : Var → ℝ)
    {i j : Nat} (hi : i < A.nrow) (hj : j < A.ncol) :
    look (A.flat.map (valOf s)) (j * A.nrow + i) = X i j ∧ look (A.flat.map b) (j * A.nrow + i) = b (A.get i j) ∧
      j * A.nrow + i < A.flat.length := by
  have g := flat_get A hi hj
  refine ⟨?_, ?_, (List.getElem?_eq_some_iff.mp g).1⟩
  · simp [look, List.getD_eq_getElem?_getD, List.getElem?_map, g, valOf_eq (hX i hi j hj)]
  · simp [look, List.getD_eq_getElem?_getD, List.getElem?_map, g]

theorem flat_vars (A : Mat Var) :
    ((⟨A.nrow, A.ncol, fun i j => j * A.nrow + i⟩ : Matrix' Nat).vars A.flat).flat = A.flat :=
  (flat_eq A _ fun i hi j hj => by simp [lookV, List.getD_eq_getElem?_getD, flat_get A hi hj]).symm

/-- **C02**: `matmul(A, D)`, `D` a matrix of reals: entry `(i, j)`, at position `j * nrow + i` of the result. -/
theorem C02_matmul_real (hr : Reach h c) {A : Mat Var} {D : Mat ℝ}
    (hA : ∀ i < A.nrow, ∀ j < A.ncol, A.get i j ∈ existing c.st) (hAD : A.ncol = D.nrow)
    (hsz : A.nrow < 2 ^ 31 ∧ A.ncol < 2 ^ 31 ∧ D.ncol < 2 ^ 31) {X : Nat → Nat → ℝ}
    (hX : ∀ i < A.nrow, ∀ j < A.ncol, ((A.get i j).val : M W ℝ) c.st = .ok (X i j, c.st))
    (room : c.st.tape.head +
      ((2 + A.nrow * A.ncol) + (2 + 2 * (D.nrow * D.ncol)) + 10 * (A.nrow * D.ncol)) ≤ tapeLimit)
    (hu : u ∈ existing c.st) (hb : Rates c.st u b) :
    ∃ rs s', (matmulVD A D : M W (List Var)) c.st = .ok (rs, s') ∧ rs.length = A.nrow * D.ncol ∧
      ∀ i < A.nrow, ∀ j < D.ncol, Gives c.st s' (rs.getD (j * A.nrow + i) ⟨0⟩)
        ((List.range A.ncol).map fun k => X i k * D.get k j).sum u
        ((List.range A.ncol).map fun k => b (A.get i k) * D.get k j).sum := by
  let IA : Matrix' Nat := ⟨A.nrow, A.ncol, fun i j => j * A.nrow + i⟩
  let ID : Matrix' ℝ := ⟨D.nrow, D.ncol, D.get⟩
  have hvs := mem_flat hA
  have hys := vals_valOf hr hvs
  have erun : ((Instr.matmulVD IA ID).run A.flat : M W (List Var)) = matmulVD A D :=
    matmulVD_congr rfl rfl (flat_vars A)
  obtain ⟨rs, s', e, el, out⟩ := instr_gives_all hr hvs hys (i := .matmulVD IA ID) ⟨hAD, by
      intro i hi j hj
      have := entry_lt hi hj
      simpa only [List.length_map, flat_length, IA] using this, hsz⟩ id room hu hb
  rw [erun] at e
  have el' : rs.length = A.nrow * D.ncol := by
    rw [el]
    simp [Instr.sem, entries, List.length_flatMap, IA, ID, Nat.mul_comm]
  refine ⟨rs, s', e, el', fun i hi j hj => ?_⟩
  have hk : j * A.nrow + i < rs.length := by rw [el']; exact entry_lt hi hj
  have hent : (entries A.nrow D.ncol)[j * A.nrow + i]? = some (i, j) := flatMap_getElem? _ _ _ hi hj
  have hsem : ∀ z : List ℝ, ((Instr.matmulVD IA ID).sem z).getD (j * A.nrow + i) 0 =
      ((List.range A.ncol).map fun k => look z (k * A.nrow + i) * D.get k j).sum := by
    intro z
    simp [Instr.sem, List.getD_eq_getElem?_getD, IA, ID, hent]
  have lA := fun k hk => flat_looks hX b hi (j := k) (List.mem_range.mp hk)
  have key := out _ hk ((List.range A.ncol).map fun k => b (A.get i k) * D.get k j).sum (by
    have := hasDerivAt_bilin (List.range A.ncol) (fun k => X i k) (fun k => b (A.get i k)) (fun k => D.get k j)
      (fun _ => 0)
    simp only [mul_zero, add_zero] at this
    refine this.congr_of_eventuallyEq (Filter.Eventually.of_forall fun t => ?_)
    simp only
    rw [hsem]
    congr 1
    apply List.map_congr_left
    intro k hk
    obtain ⟨a1, a2, a3⟩ := lA k hk
    rw [look_along (by simp) t (by simpa using a3), a1, a2])
  rw [hsem] at key
  rw [show ((List.range A.ncol).map fun k => look (A.flat.map (valOf c.st)) (k * A.nrow + i) * D.get k j) =
      (List.range A.ncol).map fun k => X i k * D.get k j from
    List.map_congr_left fun k hk => by rw [(lA k hk).1]] at key
  rwa [List.getD_eq_getElem?_getD, List.getElem?_eq_getElem hk, Option.getD_some]

/-- **C02**: `matmul(D, B)`, `D` a matrix of reals: entry `(i, j)`, at position `j * nrow + i` of the result. -/
theorem C02_real_matmul (hr : Reach h c) {B : Mat Var} {D : Mat ℝ}
    (hB : ∀ i < B.nrow, ∀ j < B.ncol, B.get i j ∈ existing c.st) (hDB : D.ncol = B.nrow)
    (hsz : D.nrow < 2 ^ 31 ∧ D.ncol < 2 ^ 31 ∧ B.ncol < 2 ^ 31) {Y : Nat → Nat → ℝ}
    (hY : ∀ i < B.nrow, ∀ j < B.ncol, ((B.get i j).val : M W ℝ) c.st = .ok (Y i j, c.st))
    (room : c.st.tape.head +
      ((2 + 2 * (D.nrow * D.ncol)) + (2 + B.nrow * B.ncol) + 10 * (D.nrow * B.ncol)) ≤ tapeLimit)
    (hu : u ∈ existing c.st) (hb : Rates c.st u b) :
    ∃ rs s', (matmulDV D B : M W (List Var)) c.st = .ok (rs, s') ∧ rs.length = D.nrow * B.ncol ∧
      ∀ i < D.nrow, ∀ j < B.ncol, Gives c.st s' (rs.getD (j * D.nrow + i) ⟨0⟩)
        ((List.range D.ncol).map fun k => D.get i k * Y k j).sum u
        ((List.range D.ncol).map fun k => D.get i k * b (B.get k j)).sum := by
  let IB : Matrix' Nat := ⟨B.nrow, B.ncol, fun i j => j * B.nrow + i⟩
  let ID : Matrix' ℝ := ⟨D.nrow, D.ncol, D.get⟩
  have hvs := mem_flat hB
  have hys := vals_valOf hr hvs
  have erun : ((Instr.matmulDV ID IB).run B.flat : M W (List Var)) = matmulDV D B :=
    matmulDV_congr rfl rfl (flat_vars B)
  obtain ⟨rs, s', e, el, out⟩ := instr_gives_all hr hvs hys (i := .matmulDV ID IB) ⟨hDB, by
      intro i hi j hj
      have := entry_lt hi hj
      simpa only [List.length_map, flat_length, IB] using this, hsz⟩ id room hu hb
  rw [erun] at e
  have el' : rs.length = D.nrow * B.ncol := by
    rw [el]
    simp [Instr.sem, entries, List.length_flatMap, IB, ID, Nat.mul_comm]
  refine ⟨rs, s', e, el', fun i hi j hj => ?_⟩
  have hk : j * D.nrow + i < rs.length := by rw [el']; exact entry_lt hi hj
  have hent : (entries D.nrow B.ncol)[j * D.nrow + i]? = some (i, j) := flatMap_getElem? _ _ _ hi hj
  have hsem : ∀ z : List ℝ, ((Instr.matmulDV ID IB).sem z).getD (j * D.nrow + i) 0 =
      ((List.range D.ncol).map fun k => D.get i k * look z (j * B.nrow + k)).sum := by
    intro z
    simp [Instr.sem, List.getD_eq_getElem?_getD, IB, ID, hent]
  have lB := fun k (hk : k ∈ List.range D.ncol) => flat_looks hY b (i := k) (hDB ▸ List.mem_range.mp hk) hj
  have key := out _ hk ((List.range D.ncol).map fun k => D.get i k * b (B.get k j)).sum (by
    have := hasDerivAt_bilin (List.range D.ncol) (fun k => D.get i k) (fun _ => 0) (fun k => Y k j)
      (fun k => b (B.get k j))
    simp only [mul_zero, add_zero, zero_mul, zero_add] at this
    refine this.congr_of_eventuallyEq (Filter.Eventually.of_forall fun t => ?_)
    simp only
    rw [hsem]
    congr 1
    apply List.map_congr_left
    intro k hk
    obtain ⟨a1, a2, a3⟩ := lB k hk
    rw [look_along (by simp) t (by simpa using a3), a1, a2])
  rw [hsem] at key
  rw [show ((List.range D.ncol).map fun k => D.get i k * look (B.flat.map (valOf c.st)) (j * B.nrow + k)) =
      (List.range D.ncol).map fun k => D.get i k * Y k j from
    List.map_congr_left fun k hk => by rw [(lB k hk).1]] at key
  rwa [List.getD_eq_getElem?_getD, List.getElem?_eq_getElem hk, Option.getD_some]

/-- the hypotheses of C02_dot_real, C02_real_dot and C02_norm2 are met -/
example : ∃ c : Client ℝ, Reach demo c ∧ (∀ z ∈ [(⟨3⟩ : Var), ⟨1⟩, ⟨3⟩], z ∈ existing c.st) ∧
    (vals [⟨3⟩, ⟨1⟩, ⟨3⟩] : M ℝ (List ℝ)) c.st = .ok ([6, 2, 6], c.st) ∧ [(⟨3⟩ : Var), ⟨1⟩, ⟨3⟩].length =
      ([7, 8, 9] : List ℝ).length ∧ (∃ y ∈ ([6, 2, 6] : List ℝ), y ≠ 0) ∧
    c.st.tape.head + (6 + 3 + 2 * 3) ≤ tapeLimit ∧ (⟨1⟩ : Var) ∈ existing c.st ∧ Rates c.st ⟨1⟩ demoB := by
  obtain ⟨c, hr, hh, hex, h1, h2, h3, hb⟩ := demo_rates (W := ℝ)
  refine ⟨c, hr, ?_, ?_, rfl, ⟨6, by simp, by norm_num⟩, ?_, ?_, hb⟩
  · simp [hex]
  · unfold vals
    rw [List.mapM_cons, bind_ok h3, List.mapM_cons, bind_assoc, bind_ok h1, bind_assoc, List.mapM_cons, bind_assoc,
      bind_ok h3]
    rfl
  · rw [hh]; simp [tapeLimit]
  · simp [hex]

/-- the hypotheses of C02_matmul_real and C02_real_matmul are met -/
example : ∃ (c : Client ℝ) (A : Mat Var) (D : Mat ℝ) (X : Nat → Nat → ℝ), Reach demo c ∧
    A.nrow = 2 ∧ A.ncol = 2 ∧ D.nrow = 2 ∧ D.ncol = 2 ∧ A.get 0 0 = A.get 0 1 ∧
    (∀ i < A.nrow, ∀ j < A.ncol, A.get i j ∈ existing c.st) ∧
    (∀ i < A.nrow, ∀ j < A.ncol, ((A.get i j).val : M ℝ ℝ) c.st = .ok (X i j, c.st)) ∧
    c.st.tape.head + ((2 + A.nrow * A.ncol) + (2 + 2 * (D.nrow * D.ncol)) + 10 * (A.nrow * D.ncol)) ≤ tapeLimit ∧
    c.st.tape.head + ((2 + 2 * (D.nrow * D.ncol)) + (2 + A.nrow * A.ncol) + 10 * (D.nrow * A.ncol)) ≤ tapeLimit ∧
    (⟨1⟩ : Var) ∈ existing c.st ∧ Rates c.st ⟨1⟩ demoB := by
  obtain ⟨c, hr, hh, hex, h1, h2, h3, hb⟩ := demo_rates (W := ℝ)
  refine ⟨c, ⟨2, 2, fun i _ => if i = 0 then ⟨3⟩ else ⟨1⟩⟩, ⟨2, 2, fun i j => i + 3 * j⟩,
    fun i _ => if i = 0 then 6 else 2, hr, rfl, rfl, rfl, rfl, rfl, ?_, ?_, ?_, ?_, ?_, hb⟩
  · intro i _ j _
    by_cases hi : i = 0 <;> simp [hi, hex]
  · intro i _ j _
    by_cases hi : i = 0 <;> simp only [hi, if_true, if_false, h3, h1]
  · rw [hh]; simp [tapeLimit]
  · rw [hh]; simp [tapeLimit]
  · simp [hex]

end Props
