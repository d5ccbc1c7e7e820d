import Verif.Props.Rounding

/-!
# C54: rounding errors of the log densities

`normal_lpdf` and `lognormal_lpdf` of data, with variables for location and scale, in every arithmetic whose operations
have relative error at most `u`: value and both derivatives are those of the density, up to a number of roundings that
grows with the number of data only (the additions of `sum`, in any order).
-/

set_option linter.unusedSectionVars false

namespace Fz
open Spec

section
variable {F : Floats}

/-- the computed number `c` is off the exact `e` by `N` roundings of a sum of absolute values `A` -/
def Off (F : Floats) (N : Nat) (A c e : ℝ) : Prop := |c - e| ≤ (rho F ^ N - 1) * A ∧ |e| ≤ A

theorem Near.off {N : Nat} {c e : ℝ} (h : Near F N c e) : Off F N |e| c e := ⟨h.err, le_refl _⟩

theorem Off.nonneg {N : Nat} {A c e : ℝ} (h : Off F N A c e) : 0 ≤ A := (abs_nonneg _).trans h.2

theorem Off.mono {M N : Nat} (hMN : M ≤ N) {A c e : ℝ} (h : Off F M A c e) : Off F N A c e :=
  ⟨h.1.trans (mul_le_mul_of_nonneg_right (by linarith [pow_le_pow_right₀ (rho_ge (F := F)) hMN]) h.nonneg), h.2⟩

theorem Off.cast {N : Nat} {A A' c e e' : ℝ} (h : Off F N A c e) (ha : A = A') (he : e = e') : Off F N A' c e' := ha ▸ he ▸ h

theorem Off.neg {N : Nat} {A : ℝ} {c : Flo F} {e : ℝ} (h : Off F N A c.real e) : Off F N A (Arith.neg c : Flo F).real (-e) := by
  have : (Arith.neg c : Flo F).real = -c.real := F.neg c
  rw [this]
  refine ⟨?_, by rw [abs_neg]; exact h.2⟩
  rw [show -c.real - -e = -(c.real - e) by ring, abs_neg]
  exact h.1

/-- one more rounding -/
theorem Off.round {N : Nat} {A c e : ℝ} (h : Off F N A c e) {d : ℝ} (hd : Near F 1 d c) : Off F (N + 1) A d e := by
  have hA := h.nonneg
  have h1 := hd.err
  rw [pow_one] at h1
  have hG := rho_pow (F := F) N
  have hr := rho_ge (F := F)
  have h2 : |c| ≤ rho F ^ N * A := by
    have := abs_sub_abs_le_abs_sub c e
    have h3 := h.1
    have h4 := h.2
    linarith
  refine ⟨?_, h.2⟩
  have h3 := abs_sub_le d c e
  have h4 : (rho F - 1) * |c| ≤ (rho F - 1) * (rho F ^ N * A) := mul_le_mul_of_nonneg_left h2 (by linarith)
  have h5 := h.1
  rw [pow_succ]
  nlinarith

theorem Off.times {M N : Nat} {A B : ℝ} {c d e g : ℝ} (h : Off F M A c e) (h' : Off F N B d g) :
    Off F (M + N) (A * B) (c * d) (e * g) := by
  have hA := h.nonneg
  have hB := h'.nonneg
  have hM := rho_pow (F := F) M
  have hN := rho_pow (F := F) N
  refine ⟨?_, by rw [abs_mul]; exact mul_le_mul h.2 h'.2 (abs_nonneg _) hA⟩
  have hd : |d| ≤ rho F ^ N * B := by
    have := abs_sub_abs_le_abs_sub d g
    have h3 := h'.1
    have h4 := h'.2
    linarith
  have t : c * d - e * g = (c - e) * d + e * (d - g) := by ring
  rw [t]
  refine (abs_add_le _ _).trans ?_
  rw [abs_mul, abs_mul]
  have t1 : |c - e| * |d| ≤ (rho F ^ M - 1) * A * (rho F ^ N * B) :=
    mul_le_mul h.1 hd (abs_nonneg _) (mul_nonneg (by linarith) hA)
  have t2 : |e| * |d - g| ≤ A * ((rho F ^ N - 1) * B) := mul_le_mul h.2 h'.1 (abs_nonneg _) hA
  rw [pow_add]
  linarith [show (rho F ^ M * rho F ^ N - 1) * (A * B) = (rho F ^ M - 1) * A * (rho F ^ N * B) + A * ((rho F ^ N - 1) * B) by ring]

theorem Off.mul {M N : Nat} {A B : ℝ} {c d : Flo F} {e g : ℝ} (h : Off F M A c.real e) (h' : Off F N B d.real g) :
    Off F (M + N + 1) (A * B) (Arith.mul c d : Flo F).real (e * g) := (h.times h').round (near_mul c d)

theorem Off.sub {N : Nat} {A B : ℝ} {c d : Flo F} {e g : ℝ} (h : Off F N A c.real e) (h' : Off F N B d.real g) :
    Off F (N + 1) (A + B) (Arith.sub c d : Flo F).real (e - g) := by
  have hs : Off F N (A + B) (c.real - d.real) (e - g) := by
    refine ⟨?_, (abs_sub _ _).trans (add_le_add h.2 h'.2)⟩
    rw [show c.real - d.real - (e - g) = (c.real - e) - (d.real - g) by ring]
    refine (abs_sub _ _).trans ?_
    have := h.1
    have := h'.1
    rw [mul_add]
    linarith
  exact hs.round (near_of_within (F.sub c d))

theorem Off.exact (x : ℝ) : Off F 0 |x| x x := by simp [Off]

/-- a rounded sum of an array, in any order -/
theorem sums_off {N : Nat} {l : List ℝ} {k : Nat} {s : ℝ} (h : Sums 0 F.arith.add l k s) : ∀ {es : List (ℝ × ℝ)},
    List.Forall₂ (fun d q => Off F N q.2 d q.1) l es →
    Off F (N + k) (es.map Prod.snd).sum s (es.map Prod.fst).sum := by
  induction h with
  | none =>
    rintro _ ⟨⟩
    simp [Off]
  | one x =>
    rintro _ (_ | ⟨h, ⟨⟩⟩)
    simpa using h
  | @join l₁ l₂ l k₁ k₂ a b _ _ hp ih₁ ih₂ =>
    intro es hes
    obtain ⟨vs, hv, hvp⟩ := List.perm_comp_forall₂ hp hes
    obtain ⟨v₁, v₂, rfl, h1, h2⟩ := forall2_split hv
    have e1 := (ih₁ h1).mono (show N + k₁ ≤ N + (k₁ + k₂) by omega)
    have e2 := (ih₂ h2).mono (show N + k₂ ≤ N + (k₁ + k₂) by omega)
    have := add_err (F := F) (le_refl (N + (k₁ + k₂))) (c := a) (d := b) e1 e2
    rw [← (hvp.map Prod.fst).sum_eq, ← (hvp.map Prod.snd).sum_eq, List.map_append, List.map_append, List.sum_append,
      List.sum_append]
    exact this

/-- the rounded sum of a function of the data -/
theorem fsum_off {N : Nat} {y : List (Flo F)} {g : Flo F → Flo F} {e A : Flo F → ℝ}
    (h : ∀ v ∈ y, Off F N (A v) (g v).real (e v)) :
    Off F (N + y.length) (y.map A).sum (fsum (y.map g) : Flo F).real (y.map e).sum := by
  obtain ⟨k, hk, hs⟩ := F.sum (y.map g)
  have hk' : k ≤ y.length := hk.trans_eq (List.length_map (as := y) g)
  have hl : List.Forall₂ (fun (d : ℝ) (q : ℝ × ℝ) => Off F N q.2 d q.1) (y.map g) (y.map fun v => (e v, A v)) := by
    clear hs hk hk'
    induction y with
    | nil => exact .nil
    | cons v y ih => exact .cons (h v (by simp)) (ih fun w hw => h w (by simp [hw]))
  have := (sums_off hs hl).mono (Nat.add_le_add_left hk' N)
  rw [List.map_map, List.map_map] at this
  exact this

/-- the standardized distance `x`, `(x - mu) / sigma`, as computed, from a computed `x - mu` -/
theorem scaled_off {N : Nat} {A e : ℝ} {d sigma : Flo F} (hs : 0 < sigma.real) (h : Off F N A d.real e) :
    Off F (N + 2) (A / sigma.real) (Arith.mul d (Arith.div Arith.one sigma) : Flo F).real (e / sigma.real) := by
  have o : Flo.real (F := F) Arith.one = 1 := F.one
  have hi : Off F 1 (1 / sigma.real) (Arith.div Arith.one sigma : Flo F).real (1 / sigma.real) := by
    have := (near_div (Arith.one : Flo F) sigma hs.ne').off
    rw [o, abs_of_pos (one_div_pos.mpr hs)] at this
    exact this
  exact (h.mul hi).cast (by ring) (by ring)

theorem byMu_off {N : Nat} {A e : ℝ} {d sigma : Flo F} (hs : 0 < sigma.real) (h : Off F N A d.real e) :
    Off F (N + 4) (A / sigma.real ^ 2)
      (Arith.mul (Arith.mul d (Arith.div Arith.one sigma)) (Arith.div Arith.one sigma) : Flo F).real (e / sigma.real ^ 2) :=
  (scaled_off hs (scaled_off hs h)).cast (by rw [pow_two, div_div]) (by rw [pow_two, div_div])

theorem bySigma_off {N : Nat} {A e : ℝ} {d sigma : Flo F} (hs : 0 < sigma.real) (h : Off F N A d.real e) :
    Off F (2 * N + 8) (A ^ 2 / sigma.real ^ 3 + 1 / sigma.real)
      (Arith.sub (Arith.mul (Arith.mul (Arith.div Arith.one sigma) (Arith.mul d (Arith.div Arith.one sigma)))
        (Arith.mul d (Arith.div Arith.one sigma))) (Arith.div Arith.one sigma) : Flo F).real
      (e ^ 2 / sigma.real ^ 3 - 1 / sigma.real) := by
  have o : Flo.real (F := F) Arith.one = 1 := F.one
  have hi : Off F 1 (1 / sigma.real) (Arith.div Arith.one sigma : Flo F).real (1 / sigma.real) := by
    have := (near_div (Arith.one : Flo F) sigma hs.ne').off
    rw [o, abs_of_pos (one_div_pos.mpr hs)] at this
    exact this
  have hz := scaled_off hs h
  have h1 := (hi.mul hz).mul hz
  have h2 := (h1.mono (show 1 + (N + 2) + 1 + (N + 2) + 1 ≤ 2 * N + 7 by omega)).sub (hi.mono (show 1 ≤ 2 * N + 7 by omega))
  have h0 := hs.ne'
  exact h2.cast (by field_simp) (by field_simp)

theorem logp_off {N : Nat} {A e : ℝ} {d sigma : Flo F} (hs : 0 < sigma.real) (h : Off F N A d.real e) :
    Off F (2 * N + 7) (A ^ 2 / (2 * sigma.real ^ 2) + |Real.log sigma.real|)
      (Arith.sub (Arith.neg (Arith.mul (Arith.mul Arith.half (Arith.mul d (Arith.div Arith.one sigma)))
        (Arith.mul d (Arith.div Arith.one sigma)))) (Arith.log sigma) : Flo F).real
      (-(e ^ 2 / (2 * sigma.real ^ 2)) - Real.log sigma.real) := by
  have o : Flo.real (F := F) Arith.half = 1 / 2 := F.half
  have hh : Off F 0 (1 / 2) (Arith.half : Flo F).real (1 / 2) := by
    rw [o]
    exact (Off.exact (1 / 2 : ℝ)).cast (by norm_num) rfl
  have hz := scaled_off hs h
  have h1 := ((hh.mul hz).mul hz).neg
  have h2 : Off F 1 |Real.log sigma.real| (Arith.log sigma : Flo F).real (Real.log sigma.real) :=
    (near_of_within (F.log sigma hs)).off
  have h3 := (h1.mono (show 0 + (N + 2) + 1 + (N + 2) + 1 ≤ 2 * N + 6 by omega)).sub (h2.mono (show 1 ≤ 2 * N + 6 by omega))
  have h0 := hs.ne'
  exact h3.cast (by field_simp) (by field_simp)

end
end Fz

namespace Props
open Fz Spec

section main
variable {F : Floats} {W : Type} [Rep W (Flo F)] [LawfulRep W (Flo F)] {c : Client W}

/-- value and derivatives of a log density of two variables, as computed -/
theorem lpdf_run (D : Dist) (ho : Orderly (R := Flo F) false c) (hl : c.marks.length < 10) (y : List (Flo F))
    (mu sigma : Flo F) (room : c.st.tape.head + 24 ≤ tapeLimit) (full : ∀ j, c.st.tape.head + 24 ≠ 12288 * 2 ^ j + 1) :
    ∃ s', (gradient (fun x => D.callVV y (nth x 0) (nth x 1)) [mu, sigma] : M W (Flo F × List (Flo F))) c.st =
      .ok ((D.plain y mu sigma, ([fsum (y.map (D.byMu mu sigma)), fsum (y.map (D.bySigma mu sigma))].map
        (Arith.mul Arith.one)).map (Arith.add Arith.zero)), s') := by
  obtain ⟨v, df, s', e, hb⟩ := gradient_by_code (W := W) (x := [mu, sigma]) (f := fun x => D.callVV y (nth x 0) (nth x 1))
    (k := .make (.lpdfVV D y 0 1) (.ret [2])) commutes_flo ho hl
    (fun xv s hx => one_scalar (m := .lpdfVV D y 0 1) (g := fun x => D.callVV y (nth x 0) (nth x 1)) (n := 2)
      (by simp [Make.args]) xv hx rfl s)
    ⟨⟨trivial, trivial⟩, ⟨trivial, trivial⟩, ⟨trivial, trivial⟩, by
      simp [Code.Meets, Make.args, Make.Meets, Make.plain], by simp [Code.plain], room, full⟩
  have h1 := book_one (m := .lpdfVV D y 0 1) (x := [mu, sigma]) (v := D.plain y mu sigma)
    (pass := fun a => [fsum (y.map (D.byMu mu sigma)), fsum (y.map (D.bySigma mu sigma))].map (Arith.mul a)) (by
      intro T
      rfl) (by simp)
  have hb' := h1.symm.trans hb
  simp only [Option.some.injEq, Prod.mk.injEq] at hb'
  obtain ⟨rfl, rfl⟩ := hb'
  exact ⟨s', e⟩

theorem swept_off {N : Nat} {A e : ℝ} {p : Flo F} (h : Off F N A p.real e) :
    Off F (N + 2) A (Arith.add Arith.zero (Arith.mul Arith.one p) : Flo F).real e := by
  have z : Flo.real (F := F) Arith.zero = 0 := F.zero
  have o : Flo.real (F := F) Arith.one = 1 := F.one
  have h1 := near_mul (Arith.one : Flo F) p
  rw [o, one_mul] at h1
  have h2 := near_add (Arith.zero : Flo F) (Arith.mul Arith.one p)
  rw [z, zero_add] at h2
  exact (h.round h1).round h2

/-- **C54**: value and derivatives of `normal_lpdf` of the data `y`, with variables for mean and standard deviation.
(`n` is the number of data; the constant `log sqrt (2 pi)` is taken as the arithmetic has it.) -/
theorem C54_normal (ho : Orderly (R := Flo F) false c) (hl : c.marks.length < 10) (y : List (Flo F)) (mu sigma : Flo F)
    (hs : 0 < sigma.real) (room : c.st.tape.head + 24 ≤ tapeLimit)
    (full : ∀ j, c.st.tape.head + 24 ≠ 12288 * 2 ^ j + 1) :
    ∃ v a b s', (gradient (fun x => normalLpdfVV y (nth x 0) (nth x 1)) [mu, sigma] : M W (Flo F × List (Flo F))) c.st =
        .ok ((v, [a, b]), s') ∧
      |v.real - (y.map fun t => -((t.real - mu.real) ^ 2 / (2 * sigma.real ^ 2)) - Real.log sigma.real -
          Flo.real (F := F) logSqrtTwoPi).sum| ≤ ((1 / (1 - F.u)) ^ (y.length + 10) - 1) *
        (y.map fun t => (t.real - mu.real) ^ 2 / (2 * sigma.real ^ 2) + |Real.log sigma.real| +
          |Flo.real (F := F) logSqrtTwoPi|).sum ∧
      |a.real - (y.map fun t => (t.real - mu.real) / sigma.real ^ 2).sum| ≤
        ((1 / (1 - F.u)) ^ (y.length + 7) - 1) * (y.map fun t => |t.real - mu.real| / sigma.real ^ 2).sum ∧
      |b.real - (y.map fun t => (t.real - mu.real) ^ 2 / sigma.real ^ 3 - 1 / sigma.real).sum| ≤
        ((1 / (1 - F.u)) ^ (y.length + 12) - 1) *
          (y.map fun t => (t.real - mu.real) ^ 2 / sigma.real ^ 3 + 1 / sigma.real).sum := by
  obtain ⟨s', e⟩ := lpdf_run .normal ho hl y mu sigma room full
  have hd : ∀ t : Flo F, Off F 1 |t.real - mu.real| (Arith.sub t mu : Flo F).real (t.real - mu.real) := fun t =>
    (near_of_within (F.sub t mu)).off
  refine ⟨_, _, _, s', e, ?_, ?_, ?_⟩
  · have := (fsum_off (y := y) (g := Normal.logp mu sigma) fun t _ =>
      ((logp_off hs (hd t)).sub ((Off.exact (F := F) (Flo.real (F := F) logSqrtTwoPi)).mono (Nat.zero_le _)))).mono
        (show 2 * 1 + 7 + 1 + y.length ≤ y.length + 10 by omega)
    simp only [sq_abs] at this
    exact this.1
  · exact ((swept_off (fsum_off (y := y) (g := Normal.gradMu mu sigma) fun t _ => byMu_off hs (hd t))).mono
      (show 1 + 4 + y.length + 2 ≤ y.length + 7 by omega)).1
  · have := (swept_off (fsum_off (y := y) (g := Normal.gradSigma mu sigma) fun t _ => bySigma_off hs (hd t))).mono
      (show 2 * 1 + 8 + y.length + 2 ≤ y.length + 12 by omega)
    simp only [sq_abs] at this
    exact this.1

/-- **C54**: likewise `lognormal_lpdf`, of positive data; the rounding of the logarithms counts relative to the logarithms. -/
theorem C54_lognormal (ho : Orderly (R := Flo F) false c) (hl : c.marks.length < 10) (y : List (Flo F))
    (hy : ∀ t ∈ y, 0 < Flo.real t) (mu sigma : Flo F) (hs : 0 < sigma.real) (room : c.st.tape.head + 24 ≤ tapeLimit)
    (full : ∀ j, c.st.tape.head + 24 ≠ 12288 * 2 ^ j + 1) :
    ∃ v a b s', (gradient (fun x => lognormalLpdfVV y (nth x 0) (nth x 1)) [mu, sigma] :
        M W (Flo F × List (Flo F))) c.st = .ok ((v, [a, b]), s') ∧
      |v.real - (y.map fun t => -((Real.log t.real - mu.real) ^ 2 / (2 * sigma.real ^ 2)) - Real.log sigma.real -
          Real.log t.real - Flo.real (F := F) logSqrtTwoPi).sum| ≤ ((1 / (1 - F.u)) ^ (y.length + 13) - 1) *
        (y.map fun t => (|Real.log t.real| + |mu.real|) ^ 2 / (2 * sigma.real ^ 2) + |Real.log sigma.real| +
          |Real.log t.real| + |Flo.real (F := F) logSqrtTwoPi|).sum ∧
      |a.real - (y.map fun t => (Real.log t.real - mu.real) / sigma.real ^ 2).sum| ≤
        ((1 / (1 - F.u)) ^ (y.length + 8) - 1) *
          (y.map fun t => (|Real.log t.real| + |mu.real|) / sigma.real ^ 2).sum ∧
      |b.real - (y.map fun t => (Real.log t.real - mu.real) ^ 2 / sigma.real ^ 3 - 1 / sigma.real).sum| ≤
        ((1 / (1 - F.u)) ^ (y.length + 14) - 1) *
          (y.map fun t => (|Real.log t.real| + |mu.real|) ^ 2 / sigma.real ^ 3 + 1 / sigma.real).sum := by
  obtain ⟨s', e⟩ := lpdf_run .lognormal ho hl y mu sigma room full
  have hlog : ∀ t ∈ y, Off F 1 |Real.log t.real| (Arith.log t : Flo F).real (Real.log t.real) := fun t ht =>
    (near_of_within (F.log t (hy t ht))).off
  have hd : ∀ t ∈ y, Off F 2 (|Real.log t.real| + |mu.real|) (Arith.sub (Arith.log t) mu : Flo F).real
      (Real.log t.real - mu.real) := fun t ht =>
    (hlog t ht).sub ((Off.exact (F := F) mu.real).mono (Nat.zero_le 1))
  refine ⟨_, _, _, s', e, ?_, ?_, ?_⟩
  · exact ((fsum_off (y := y) (g := LogNormal.logp mu sigma) fun t ht =>
      (((logp_off hs (hd t ht)).sub ((hlog t ht).mono (show 1 ≤ 2 * 2 + 7 by omega))).sub
        ((Off.exact (F := F) (Flo.real (F := F) logSqrtTwoPi)).mono (Nat.zero_le _)))).mono
        (show 2 * 2 + 7 + 1 + 1 + y.length ≤ y.length + 13 by omega)).1
  · exact ((swept_off (fsum_off (y := y) (g := LogNormal.gradMu mu sigma) fun t ht => byMu_off hs (hd t ht))).mono
      (show 2 + 4 + y.length + 2 ≤ y.length + 8 by omega)).1
  · exact ((swept_off (fsum_off (y := y) (g := LogNormal.gradSigma mu sigma) fun t ht => bySigma_off hs (hd t ht))).mono
      (show 2 * 2 + 8 + y.length + 2 ≤ y.length + 14 by omega)).1

end main

/-- the exact number, as a number of 53-bit arithmetic -/
def fl (x : ℝ) : Flo rounded := x

/-- 53-bit arithmetic, three data: the derivative by the mean, `-1/2`, is right up to ten roundings -/
example : ∃ v a b s', (gradient (fun x => normalLpdfVV [fl 1, fl 2, fl 4] (nth x 0) (nth x 1)) [fl 3, fl 2] :
      M (Flo rounded) (Flo rounded × List (Flo rounded))) St.init = .ok ((v, [a, b]), s') ∧
    |a.real - (-1 / 2)| ≤ ((1 / (1 - (2:ℝ) ^ (-53 : ℤ))) ^ 10 - 1) * 1 := by
  obtain ⟨v, a, b, s', e, -, h, -⟩ := C54_normal (F := rounded) (W := Flo rounded) (c := Client.init) .start
    (by simp [Client.init]) [fl 1, fl 2, fl 4] (fl 3) (fl 2) (show (0:ℝ) < 2 by norm_num)
    (by simp [Client.init, St.init, Tape.init, tapeLimit]) (by
      intro j
      have := Nat.one_le_two_pow (n := j)
      simp [Client.init, St.init, Tape.init]
      omega)
  refine ⟨v, a, b, s', e, ?_⟩
  have hf : ∀ x, (fl x).real = x := fun _ => rfl
  simp only [List.map_cons, List.map_nil, hf, List.length_cons, List.length_nil] at h
  have h1 : [(1 - 3 : ℝ) / 2 ^ 2, (2 - 3) / 2 ^ 2, (4 - 3) / 2 ^ 2].sum = -1 / 2 := by norm_num
  have h2 : [|(1 - 3 : ℝ)| / 2 ^ 2, |(2 - 3 : ℝ)| / 2 ^ 2, |(4 - 3 : ℝ)| / 2 ^ 2].sum = 1 := by norm_num [abs_of_neg]
  rw [h1, h2] at h
  exact h

/-- `lognormal_lpdf`: one datum, `log 1 = 0` -/
example : ∃ v a b s', (gradient (fun x => lognormalLpdfVV [fl 1] (nth x 0) (nth x 1)) [fl 3, fl 2] :
      M (Flo rounded) (Flo rounded × List (Flo rounded))) St.init = .ok ((v, [a, b]), s') ∧
    |a.real - (-3 / 4)| ≤ ((1 / (1 - (2:ℝ) ^ (-53 : ℤ))) ^ 9 - 1) * (3 / 4) := by
  obtain ⟨v, a, b, s', e, -, h, -⟩ := C54_lognormal (F := rounded) (W := Flo rounded) (c := Client.init) .start
    (by simp [Client.init]) [fl 1] (by
      intro t ht
      obtain rfl := List.mem_singleton.mp ht
      exact one_pos) (fl 3) (fl 2) (show (0:ℝ) < 2 by norm_num)
    (by simp [Client.init, St.init, Tape.init, tapeLimit]) (by
      intro j
      have := Nat.one_le_two_pow (n := j)
      simp [Client.init, St.init, Tape.init]
      omega)
  refine ⟨v, a, b, s', e, ?_⟩
  have hf : ∀ x, (fl x).real = x := fun _ => rfl
  simp only [List.map_cons, List.map_nil, hf, List.length_cons, List.length_nil, Real.log_one] at h
  have h1 : [(0 - 3 : ℝ) / 2 ^ 2].sum = -3 / 4 := by norm_num
  have h2 : [(|(0:ℝ)| + |(3:ℝ)|) / 2 ^ 2].sum = 3 / 4 := by norm_num
  rw [h1, h2] at h
  exact h

end Props
