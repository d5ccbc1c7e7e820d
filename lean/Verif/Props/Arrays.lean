import Verif.Proof.Each
import Verif.Props.Repeat

/-!
# C38: elementwise application to arrays
-/

set_option linter.unusedSectionVars false

namespace Props
open Fz Spec

variable {W : Type} [Rep W ℝ] [LawfulRep W ℝ]
variable {h : List (Call ℝ)} {c : Client W} {u : Var} {b : Var → ℝ}

/-- **C38**, functions of one variable: the array of results is as long as the array of operands; result `k` has the
value and the derivative of the function at operand `k`.  Operands may occur repeatedly. -/
theorem C38_unary (hr : Reach h c) (f : Un) {vs : List Var} (hvs : ∀ v ∈ vs, v ∈ existing c.st) {x d : Var → ℝ}
    (hx : ∀ v ∈ vs, (v.val : M W ℝ) c.st = .ok (x v, c.st)) (hdom : ∀ v ∈ vs, f.dom (x v))
    (hd : ∀ v ∈ vs, HasDerivAt f.fn (d v) (x v)) (room : c.st.tape.head + vs.length * 7 ≤ tapeLimit)
    (hu : u ∈ existing c.st) (hb : Rates c.st u b) :
    ∃ rs s', (elemental1 f.api vs : M W (List Var)) c.st = .ok (rs, s') ∧ rs.length = vs.length ∧
      ∀ k (hk : k < vs.length) (hk' : k < rs.length),
        Gives c.st s' rs[k] (f.fn (x vs[k])) u (d vs[k] * b vs[k]) := by
  have hc : ∀ x, f.cost x ≤ 7 := by
    intro x
    unfold Un.cost
    split <;> try split
    all_goals omega
  exact each_gives (i := fun _ => .un f 0) (env := fun v => [v]) (ys := fun v => [x v]) (a := fun v => d v * b v)
    (K := 7) hr (fun _ => rfl) (fun _ => id) (fun v hv w hw => by
      rw [List.mem_singleton.mp hw]; exact hvs v hv) (fun v hv => vals_one (hx v hv))
    (fun v hv => ⟨by simp, hdom v hv⟩) (fun v _ => hc (x v)) room hu hb
    (fun v hv => hasDerivAt_line (hd v hv) (b v))

theorem elemental2_zip {α β : Type} (f : α → β → M W Var) : ∀ (as : List α) (bs : List β), as.length = bs.length →
    (elemental2 f as bs : M W (List Var)) = (as.zip bs).mapM fun p => f p.1 p.2
  | [], [], _ => rfl
  | a :: as, b :: bs, hl => by
    have ih := elemental2_zip f as bs (by simpa using hl)
    simp only [List.zip_cons_cons, List.mapM_cons, elemental2, ih]

/-- **C38**, operators and functions of two variables. -/
theorem C38_binary (hr : Reach h c) (f : Bin) {vs ws : List Var} (hl : vs.length = ws.length)
    (hvs : ∀ v ∈ vs, v ∈ existing c.st) (hws : ∀ w ∈ ws, w ∈ existing c.st) {x : Var → ℝ}
    (hx : ∀ v ∈ vs ++ ws, (v.val : M W ℝ) c.st = .ok (x v, c.st)) {d₁ d₂ : Var × Var → ℝ}
    (hdom : ∀ p ∈ vs.zip ws, f.domVV (x p.1) (x p.2))
    (hd : ∀ p ∈ vs.zip ws, HasFDerivAt (fun z : ℝ × ℝ => f.fn z.1 z.2)
      (d₁ p • ContinuousLinearMap.fst ℝ ℝ ℝ + d₂ p • ContinuousLinearMap.snd ℝ ℝ ℝ) (x p.1, x p.2))
    (room : c.st.tape.head + vs.length * 8 ≤ tapeLimit) (hu : u ∈ existing c.st) (hb : Rates c.st u b) :
    ∃ rs s', (elemental2 f.apiVV vs ws : M W (List Var)) c.st = .ok (rs, s') ∧ rs.length = vs.length ∧
      ∀ k (hk : k < vs.length) (hk' : k < rs.length),
        Gives c.st s' rs[k] (f.fn (x vs[k]) (x (ws[k]'(hl ▸ hk)))) u
          (d₁ (vs[k], ws[k]'(hl ▸ hk)) * b vs[k] + d₂ (vs[k], ws[k]'(hl ▸ hk)) * b (ws[k]'(hl ▸ hk))) := by
  rw [elemental2_zip _ _ _ hl]
  have hzl : (vs.zip ws).length = vs.length := by simp [hl]
  obtain ⟨rs, s', e, ol, out⟩ := each_gives (l := vs.zip ws) (m := fun p => (f.apiVV p.1 p.2 : M W Var))
    (i := fun _ => .bin f 0 1) (env := fun p => [p.1, p.2])
    (ys := fun p => [x p.1, x p.2]) (a := fun p => d₁ p * b p.1 + d₂ p * b p.2) (K := 8) hr (fun _ => rfl) (fun _ => id)
    (fun p hp w hw => by
      have h1 := List.of_mem_zip hp
      simp only [List.mem_cons, List.not_mem_nil, or_false] at hw
      rcases hw with rfl | rfl
      · exact hvs _ h1.1
      · exact hws _ h1.2)
    (fun p hp => by
      have h1 := List.of_mem_zip hp
      exact vals_two (hx _ (by simp [h1.1])) (hx _ (by simp [h1.2])))
    (fun p hp => ⟨by simp, by simp, hdom p hp⟩) (fun p _ => le_refl 8) (by rw [hzl]; exact room) hu hb
    (fun p hp => hasDerivAt_plane (hd p hp) (b p.1) (b p.2))
  refine ⟨rs, s', e, by rw [ol, hzl], fun k hk hk' => ?_⟩
  have := out k (by rw [hzl]; exact hk) hk'
  simpa [List.getElem_zip, Instr.sem, look] using this

/-- **C38**, a variable and a real number, the defects C15, C16, C17 excepted.  For a scalar real operand `ds` is
`List.replicate vs.length y`. -/
theorem C38_var_real (hr : Reach h c) (f : Bin) {vs : List Var} {ds : List ℝ} (hl : vs.length = ds.length)
    (hvs : ∀ v ∈ vs, v ∈ existing c.st) {x : Var → ℝ}
    (hx : ∀ v ∈ vs, (v.val : M W ℝ) c.st = .ok (x v, c.st)) {d : Var × ℝ → ℝ}
    (hdom : ∀ p ∈ vs.zip ds, f.domVD (x p.1) p.2 ∧ ¬ f.defectVD p.2)
    (hd : ∀ p ∈ vs.zip ds, HasDerivAt (fun z => f.fn z p.2) (d p) (x p.1))
    (room : c.st.tape.head + vs.length * 9 ≤ tapeLimit) (hu : u ∈ existing c.st) (hb : Rates c.st u b) :
    ∃ rs s', (elemental2 f.apiVD vs ds : M W (List Var)) c.st = .ok (rs, s') ∧ rs.length = vs.length ∧
      ∀ k (hk : k < vs.length) (hk' : k < rs.length),
        Gives c.st s' rs[k] (f.fn (x vs[k]) (ds[k]'(hl ▸ hk))) u (d (vs[k], ds[k]'(hl ▸ hk)) * b vs[k]) := by
  rw [elemental2_zip _ _ _ hl]
  have hzl : (vs.zip ds).length = vs.length := by simp [hl]
  have hc : ∀ y, f.costVD y ≤ 9 := by
    intro y
    unfold Bin.costVD
    split <;> try split <;> try split
    all_goals omega
  obtain ⟨rs, s', e, ol, out⟩ := each_gives (l := vs.zip ds) (m := fun p => (f.apiVD p.1 p.2 : M W Var))
    (i := fun p => .binVD f 0 p.2) (env := fun p => [p.1])
    (ys := fun p => [x p.1]) (a := fun p => d p * b p.1) (K := 9) hr (fun _ => rfl) (fun _ => id)
    (fun p hp w hw => by
      rw [List.mem_singleton.mp hw]
      exact hvs _ (List.of_mem_zip hp).1)
    (fun p hp => vals_one (hx _ (List.of_mem_zip hp).1))
    (fun p hp => ⟨by simp, (hdom p hp).1, (hdom p hp).2⟩) (fun p _ => hc p.2) (by rw [hzl]; exact room) hu hb
    (fun p hp => hasDerivAt_line (hd p hp) (b p.1))
  refine ⟨rs, s', e, by rw [ol, hzl], fun k hk hk' => ?_⟩
  have := out k (by rw [hzl]; exact hk) hk'
  simpa [List.getElem_zip, Instr.sem, look] using this

/-- **C38**, a real number and a variable, the defects C15, C17 excepted. -/
theorem C38_real_var (hr : Reach h c) (f : Bin) {ds : List ℝ} {vs : List Var} (hl : ds.length = vs.length)
    (hvs : ∀ v ∈ vs, v ∈ existing c.st) {x : Var → ℝ}
    (hx : ∀ v ∈ vs, (v.val : M W ℝ) c.st = .ok (x v, c.st)) {d : ℝ × Var → ℝ}
    (hdom : ∀ p ∈ ds.zip vs, f.domDV p.1 (x p.2) ∧ ¬ f.defectDV p.1)
    (hd : ∀ p ∈ ds.zip vs, HasDerivAt (fun z => f.fn p.1 z) (d p) (x p.2))
    (room : c.st.tape.head + vs.length * 9 ≤ tapeLimit) (hu : u ∈ existing c.st) (hb : Rates c.st u b) :
    ∃ rs s', (elemental2 f.apiDV ds vs : M W (List Var)) c.st = .ok (rs, s') ∧ rs.length = vs.length ∧
      ∀ k (hk : k < vs.length) (hk' : k < rs.length),
        Gives c.st s' rs[k] (f.fn (ds[k]'(hl ▸ hk)) (x vs[k])) u (d (ds[k]'(hl ▸ hk), vs[k]) * b vs[k]) := by
  rw [elemental2_zip _ _ _ hl]
  have hzl : (ds.zip vs).length = vs.length := by simp [hl]
  have hc : f.costDV ≤ 9 := by
    unfold Bin.costDV
    split <;> omega
  obtain ⟨rs, s', e, ol, out⟩ := each_gives (l := ds.zip vs) (m := fun p => (f.apiDV p.1 p.2 : M W Var))
    (i := fun p => .binDV f p.1 0) (env := fun p => [p.2])
    (ys := fun p => [x p.2]) (a := fun p => d p * b p.2) (K := 9) hr (fun _ => rfl) (fun _ => id)
    (fun p hp w hw => by
      rw [List.mem_singleton.mp hw]
      exact hvs _ (List.of_mem_zip hp).2)
    (fun p hp => vals_one (hx _ (List.of_mem_zip hp).2))
    (fun p hp => ⟨by simp, (hdom p hp).1, (hdom p hp).2⟩) (fun p _ => hc) (by rw [hzl]; exact room) hu hb
    (fun p hp => hasDerivAt_line (hd p hp) (b p.2))
  refine ⟨rs, s', e, by rw [ol, hzl], fun k hk hk' => ?_⟩
  have := out k (by rw [hzl]; exact hk) hk'
  simpa [List.getElem_zip, Instr.sem, look] using this

/-- arrays of different sizes are rejected -/
theorem C38_sizes {α β : Type} (f : α → β → M W Var) : ∀ (as : List α) (bs : List β) (s : St W) (rs : List Var)
    (s' : St W), (elemental2 f as bs : M W (List Var)) s = .ok (rs, s') → as.length = bs.length ∧ rs.length = as.length
  | [], [], s, rs, s', e => by cases e; exact ⟨rfl, rfl⟩
  | [], _ :: _, _, _, _, e => by cases e
  | _ :: _, [], _, _, _, e => by cases e
  | a :: as, b :: bs, s, rs, s', e => by
    unfold elemental2 at e
    cases e1 : f a b s with
    | error x => rw [bind_err e1] at e; cases e
    | ok p =>
      obtain ⟨r, s1⟩ := p
      rw [bind_ok e1] at e
      cases e2 : (elemental2 f as bs : M W (List Var)) s1 with
      | error x => rw [bind_err e2] at e; cases e
      | ok p =>
        obtain ⟨rs1, s2⟩ := p
        rw [bind_ok e2] at e
        cases e
        have := C38_sizes f as bs s1 rs1 _ e2
        simp [this.1, this.2]

/-! ## the hypotheses are met -/

/-- `log([z, x, z])` and `[z, x] * [x, x]` with `x = 2`, `z = 6` depending on `x` -/
example : ∃ c : Client ℝ, Reach demo c ∧
    (∃ rs s', (elemental1 (Un.api .log) [⟨3⟩, ⟨1⟩, ⟨3⟩] : M ℝ (List Var)) c.st = .ok (rs, s') ∧ rs.length = 3) ∧
    (∃ rs s', (elemental2 (Bin.apiVV .mul) [⟨3⟩, ⟨1⟩] [⟨1⟩, ⟨1⟩] : M ℝ (List Var)) c.st = .ok (rs, s') ∧ rs.length = 2) ∧
    (∃ rs s', (elemental2 (Bin.apiVD .mul) [⟨3⟩, ⟨1⟩] [5, 7] : M ℝ (List Var)) c.st = .ok (rs, s') ∧ rs.length = 2) ∧
    (∃ rs s', (elemental2 (Bin.apiDV .sub) [5, 5] [⟨3⟩, ⟨1⟩] : M ℝ (List Var)) c.st = .ok (rs, s') ∧ rs.length = 2) := by
  obtain ⟨c, hr, hh, hex, h1, h2, h3, hb⟩ := demo_rates (W := ℝ)
  let x : Var → ℝ := fun v => if v.vi = 3 then 6 else 2
  have hx : ∀ v ∈ ([⟨3⟩, ⟨1⟩] : List Var), (v.val : M ℝ ℝ) c.st = .ok (x v, c.st) := by
    intro v hv
    simp only [List.mem_cons, List.not_mem_nil, or_false] at hv
    rcases hv with rfl | rfl
    · simpa [x] using h3
    · simpa [x] using h1
  have hpos : ∀ v, 0 < x v := by intro v; simp only [x]; split <;> norm_num
  refine ⟨c, hr, ?_, ?_, ?_, ?_⟩
  · obtain ⟨rs, s', e, l, -⟩ := C38_unary hr .log (vs := [⟨3⟩, ⟨1⟩, ⟨3⟩]) (by simp [hex]) (x := x) (d := fun v => (x v)⁻¹)
      (fun v hv => hx v (by simp at hv ⊢; tauto)) (fun v _ => hpos v)
      (fun v _ => Real.hasDerivAt_log (hpos v).ne') (by rw [hh]; simp [tapeLimit]) (by simp [hex]) hb
    exact ⟨rs, s', e, l⟩
  · obtain ⟨rs, s', e, l, -⟩ := C38_binary hr .mul (vs := [⟨3⟩, ⟨1⟩]) (ws := [⟨1⟩, ⟨1⟩]) rfl (by simp [hex]) (by simp [hex])
      (x := x) (fun v hv => hx v (by simp at hv ⊢; tauto)) (d₁ := fun p => x p.2) (d₂ := fun p => x p.1)
      (fun _ _ => trivial) (fun p _ => by
        have := (hasFDerivAt_fst (𝕜 := ℝ) (p := (x p.1, x p.2))).mul (hasFDerivAt_snd (𝕜 := ℝ) (p := (x p.1, x p.2)))
        refine this.congr_fderiv ?_
        rw [add_comm])
      (by rw [hh]; simp [tapeLimit]) (by simp [hex]) hb
    exact ⟨rs, s', e, l⟩
  · obtain ⟨rs, s', e, l, -⟩ := C38_var_real hr .mul (vs := [⟨3⟩, ⟨1⟩]) (ds := [5, 7]) rfl (by simp [hex])
      (x := x) hx (d := fun p => p.2)
      (fun p hp => ⟨trivial, by
        simp only [List.zip_cons_cons, List.zip_nil_right, List.mem_cons, List.not_mem_nil, or_false] at hp
        rcases hp with rfl | rfl <;> simp [Bin.defectVD]⟩) (fun p _ => by
        simpa [Bin.fn] using (hasDerivAt_id (x p.1)).mul_const p.2)
      (by rw [hh]; simp [tapeLimit]) (by simp [hex]) hb
    exact ⟨rs, s', e, l⟩
  · obtain ⟨rs, s', e, l, -⟩ := C38_real_var hr .sub (ds := [5, 5]) (vs := [⟨3⟩, ⟨1⟩]) rfl (by simp [hex])
      (x := x) hx (d := fun _ => -1)
      (fun p hp => ⟨trivial, id⟩) (fun p _ => by
        simpa [Bin.fn] using (hasDerivAt_id (x p.2)).const_sub p.1)
      (by rw [hh]; simp [tapeLimit]) (by simp [hex]) hb
    exact ⟨rs, s', e, l⟩

end Props
