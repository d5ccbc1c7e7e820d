import Verif.Spec.Trace
import Mathlib.Tactic.Cases
import Mathlib.Data.List.Count

/-!
# Lemmas for C51
-/

namespace Fz
open Spec

/-- the event is in order after the events `a` -/
def Okay (a : List Ev) (e : Ev) : Prop :=
  ∀ p, (e = .use p ∨ e = .free p) → ∃ n, p = .addr n ∧ Ev.create n ∈ a ∧ Ev.free (.addr n) ∉ a

/-- the events `b` are in order after the events `a` -/
def From (a : List Ev) : List Ev → Prop
  | [] => True
  | e :: b => Okay a e ∧ From (a ++ [e]) b

theorem from_append (a b c : List Ev) : From a (b ++ c) ↔ From a b ∧ From (a ++ b) c := by
  induction b generalizing a with
  | nil => simp [From]
  | cons e b ih => simp [From, ih, and_assoc]

theorem proper_iff (tr : List Ev) : ProperUse tr ↔ From [] tr := by
  constructor
  · intro h
    have : ∀ a b, tr = a ++ b → From a b := by
      intro a b
      induction b generalizing a with
      | nil => intro _; trivial
      | cons e b ih => exact fun hb => ⟨fun p hp => h a e b hb p hp, ih _ (by simp [hb])⟩
    exact this [] tr rfl
  · intro h a e b hab p hp
    subst hab
    rw [from_append] at h
    exact h.2.1 p hp

@[simp] theorem okay_create (a : List Ev) (n : Nat) : Okay a (.create n) := by
  rintro p (h | h) <;> cases h

@[simp] theorem okay_use (a : List Ev) (n : Nat) :
    Okay a (.use (.addr n)) ↔ Ev.create n ∈ a ∧ Ev.free (.addr n) ∉ a := by
  constructor
  · intro h
    obtain ⟨m, h1, h2⟩ := h _ (Or.inl rfl)
    cases h1
    exact h2
  · rintro h p (hp | hp) <;> cases hp
    exact ⟨n, rfl, h⟩

@[simp] theorem okay_free (a : List Ev) (n : Nat) :
    Okay a (.free (.addr n)) ↔ Ev.create n ∈ a ∧ Ev.free (.addr n) ∉ a := by
  constructor
  · intro h
    obtain ⟨m, h1, h2⟩ := h _ (Or.inr rfl)
    cases h1
    exact h2
  · rintro h p (hp | hp) <;> cases hp
    exact ⟨n, rfl, h⟩

theorem from_uses {a b : List Ev} (h : ∀ e ∈ b, ∃ n, e = .use (.addr n) ∧ Ev.create n ∈ a ∧ Ev.free (.addr n) ∉ a) :
    From a b := by
  induction b generalizing a with
  | nil => trivial
  | cons e b ih =>
    obtain ⟨n, rfl, h1, h2⟩ := h e (by simp)
    refine ⟨by simp [h1, h2], ih fun e he => ?_⟩
    obtain ⟨m, rfl, h3, h4⟩ := h e (by simp [he])
    exact ⟨m, rfl, by simp [h3], by simp [h4]⟩

/-- a list of uses of the objects `k`, …, `k + j` -/
def Uses (k j : Nat) (b : List Ev) : Prop := ∀ e ∈ b, ∃ i ≤ j, e = .use (.addr (k + i))

theorem Uses.nil {k j : Nat} : Uses k j [] := by intro e h; cases h
theorem Uses.append {k j : Nat} {a b : List Ev} (ha : Uses k j a) (hb : Uses k j b) : Uses k j (a ++ b) := by
  intro e h
  rcases List.mem_append.mp h with h | h
  · exact ha e h
  · exact hb e h
theorem Uses.flatten {k j n : Nat} {a : List Ev} (ha : Uses k j a) : Uses k j (List.replicate n a).flatten := by
  intro e h
  simp only [List.mem_flatten, List.mem_replicate] at h
  obtain ⟨l, ⟨-, rfl⟩, h⟩ := h
  exact ha e h
theorem Uses.cons {k j i : Nat} {a : List Ev} (hi : i ≤ j) (ha : Uses k j a) :
    Uses k j (.use (.addr (k + i)) :: a) := by
  intro e h
  rcases List.mem_cons.mp h with rfl | h
  · exact ⟨i, hi, rfl⟩
  · exact ha e h

theorem Uses.no_free {k j : Nat} {a : List Ev} (ha : Uses k j a) (p : Ptr) : Ev.free p ∉ a := by
  intro h
  obtain ⟨i, -, h⟩ := ha _ h
  cases h
theorem Uses.no_create {k j : Nat} {a : List Ev} (ha : Uses k j a) (n : Nat) : Ev.create n ∉ a := by
  intro h
  obtain ⟨i, -, h⟩ := ha _ h
  cases h

/-- the service without sensitivities -/
def plainService (k : Nat) : Service :=
  ⟨.addr (k + 1), .addr (k + 4), .addr k, .addr (k + 2), .addr (k + 3), 0, .undef⟩

/-- the service with sensitivities -/
def sensService (k ns : Nat) : Service :=
  ⟨.addr (k + 1), .addr (k + 4), .addr k, .addr (k + 2), .addr (k + 3), ns, .addr (k + 5)⟩

theorem loop_plain (k neq ns : Nat) : ∀ flags, Uses k 4 (outLoop (plainService k) false neq ns flags).1 := by
  intro flags
  induction flags with
  | nil => exact .nil
  | cons f l ih =>
    have hc : Uses k 4 [.use (plainService k).mem, .use (plainService k).vec] :=
      .cons (i := 4) (by omega) <| .cons (i := 1) (by omega) .nil
    cases f
    · exact hc
    · exact (hc.append .nil).append ih

theorem loop_sens (k neq ns : Nat) : ∀ flags, Uses k 5 (outLoop (sensService k ns) true neq ns flags).1 := by
  intro flags
  induction flags with
  | nil => exact .nil
  | cons f l ih =>
    have hc : Uses k 5 [.use (sensService k ns).mem, .use (sensService k ns).vec] :=
      .cons (i := 4) (by omega) <| .cons (i := 1) (by omega) .nil
    cases f
    · exact hc
    · refine (hc.append ?_).append ih
      refine Uses.append (.cons (i := 4) (by omega) <| .cons (i := 5) (by omega) .nil) (Uses.flatten ?_)
      refine Uses.append (Uses.flatten ?_) (.cons (i := 1) (by omega) .nil)
      exact .cons (i := 5) (by omega) <| .cons (i := 5) (by omega) .nil

theorem loop_done (s : Service) (sens : Bool) (neq ns : Nat) : ∀ flags,
    (outLoop s sens neq ns flags).2 = flags.all id := by
  intro flags
  induction flags with
  | nil => rfl
  | cons f l ih =>
    cases f
    · rfl
    · simpa [outLoop] using ih

/-- the creations without sensitivities -/
def baseEvents (k : Nat) : List Ev :=
  [.create k, .use (.addr k), .create (k + 1), .use (.addr k), .create (k + 2), .use (.addr (k + 1)),
    .use (.addr (k + 2)), .use (.addr k), .create (k + 3), .use (.addr k), .create (k + 4), .use (.addr (k + 4)),
    .use (.addr (k + 1)), .use (.addr (k + 4)), .use (.addr (k + 4)), .use (.addr (k + 3)), .use (.addr (k + 2))]

theorem from_base (k : Nat) : From [] (baseEvents k) := by
  simp [baseEvents, From]

theorem newService_plain (k : Nat) : newService k 0 = (plainService k, baseEvents k) := rfl

theorem newService_sens (k : Nat) {ns : Nat} (h : 0 < ns) : ∃ b, Uses k 5 b ∧
    newService k ns = (sensService k ns, baseEvents k ++ [.use (.addr (k + 1)), .create (k + 5)] ++ b) := by
  refine ⟨(List.replicate ns [.use (.addr (k + 5)), .use (.addr (k + 5)), .use (.addr (k + 5))]).flatten ++
    [.use (.addr (k + 4)), .use (.addr (k + 5))], ?_, ?_⟩
  · refine Uses.append (Uses.flatten ?_) (.cons (i := 4) (by omega) <| .cons (i := 5) (by omega) .nil)
    exact .cons (i := 5) (by omega) <| .cons (i := 5) (by omega) <| .cons (i := 5) (by omega) .nil
  · unfold newService
    rw [if_pos h]
    simp only [List.append_assoc]
    rfl

/-- the form of a completed or stopped call: objects are created and used, and at the end released -/
inductive Shape (k : Nat) (fin : Bool) : List Ev → Prop
  | plain {b : List Ev} : Uses k 4 b → Shape k fin (baseEvents k ++ b ++ if fin then freeService (plainService k) else [])
  | sens {ns : Nat} {b : List Ev} : 0 < ns → Uses k 5 b → Shape k fin
      (baseEvents k ++ [.use (.addr (k + 1)), .create (k + 5)] ++ b ++ if fin then freeService (sensService k ns) else [])

theorem sol_shape_plain (k neq : Nat) (flags : List Bool) :
    Shape k (flags.all id) (solEvents .old k false neq 0 .ok flags).1 ∧
    (solEvents .old k false neq 0 .ok flags).2 = flags.all id := by
  have hd := loop_done (plainService k) false neq 0 flags
  refine ⟨?_, by simpa [solEvents, makeService, newService_plain] using hd⟩
  have := Shape.plain (k := k) (fin := flags.all id) (b := [.use (.addr (k + 4))] ++ (outLoop (plainService k) false neq 0 flags).1)
    (Uses.append (.cons (i := 4) (by omega) .nil) (loop_plain k neq 0 flags))
  unfold solEvents makeService
  simp only [newService_plain, hd, Policy.old]
  simpa [show (plainService k).mem = .addr (k + 4) from rfl] using this

theorem sol_shape_sens (k neq : Nat) {ns : Nat} (hns : 0 < ns) (flags : List Bool) :
    Shape k (flags.all id) (solEvents .old k true neq ns .ok flags).1 ∧
    (solEvents .old k true neq ns .ok flags).2 = flags.all id := by
  have hd := loop_done (sensService k ns) true neq ns flags
  obtain ⟨b, hb, e⟩ := newService_sens k hns
  refine ⟨?_, by simpa [solEvents, makeService, e] using hd⟩
  have := Shape.sens (k := k) (ns := ns) (fin := flags.all id)
    (b := b ++ ([.use (.addr (k + 4)), .use (.addr (k + 4))] ++ (outLoop (sensService k ns) true neq ns flags).1)) hns
    (hb.append <| Uses.append (.cons (i := 4) (by omega) <| .cons (i := 4) (by omega) .nil) (loop_sens k neq ns flags))
  unfold solEvents makeService
  simp only [e, hd, Policy.old]
  simpa [show (sensService k ns).mem = .addr (k + 4) from rfl] using this

theorem base_create (k i : Nat) (hi : i ≤ 4) : Ev.create (k + i) ∈ baseEvents k := by
  obtain rfl | rfl | rfl | rfl | rfl : i = 0 ∨ i = 1 ∨ i = 2 ∨ i = 3 ∨ i = 4 := by omega
  all_goals simp [baseEvents]

theorem base_free (k : Nat) (p : Ptr) : Ev.free p ∉ baseEvents k := by simp [baseEvents]

theorem Uses.fromThere {k j : Nat} {a b : List Ev} (hb : Uses k j b) (hc : ∀ i ≤ j, Ev.create (k + i) ∈ a)
    (hf : ∀ p, Ev.free p ∉ a) : From a b := by
  refine from_uses fun e he => ?_
  obtain ⟨i, hi, rfl⟩ := hb e he
  exact ⟨_, rfl, hc i hi, hf _⟩

theorem Shape.proper {k : Nat} {fin : Bool} {tr : List Ev} (h : Shape k fin tr) : ProperUse tr := by
  rw [proper_iff]
  cases h with
  | plain hb =>
    rename_i b
    rw [from_append, from_append]
    refine ⟨⟨from_base k, hb.fromThere (by simpa using base_create k) (by simpa using base_free k)⟩, ?_⟩
    have hf : ∀ p, Ev.free p ∉ [] ++ (baseEvents k ++ b) := fun p => by simp [base_free, hb.no_free]
    have hc : ∀ i ≤ 4, Ev.create (k + i) ∈ [] ++ (baseEvents k ++ b) := fun i hi => by simp [base_create k i hi]
    have h0 := hc 0 (by omega)
    cases fin
    · trivial
    · generalize [] ++ (baseEvents k ++ b) = a at hf hc h0
      simp [freeService, plainService, From, hf, hc]
      simpa using h0
  | sens hns hb =>
    rename_i ns b
    rw [from_append, from_append, from_append]
    have hf0 : ∀ p, Ev.free p ∉ [] ++ (baseEvents k ++ [.use (.addr (k + 1)), .create (k + 5)]) := fun p => by
      simp [base_free]
    have hc0 : ∀ i ≤ 5, Ev.create (k + i) ∈ [] ++ (baseEvents k ++ [.use (.addr (k + 1)), .create (k + 5)]) :=
      fun i hi => by
        rcases Nat.lt_or_ge i 5 with h | h
        · simp [base_create k i (by omega)]
        · obtain rfl : i = 5 := by omega
          simp
    refine ⟨⟨⟨from_base k, ?_⟩, hb.fromThere hc0 hf0⟩, ?_⟩
    · simp [From, base_free, base_create]
    have hf : ∀ p, Ev.free p ∉ [] ++ (baseEvents k ++ [.use (.addr (k + 1)), .create (k + 5)] ++ b) := fun p => by
      have := hf0 p
      simp only [List.nil_append, List.mem_append, not_or] at this ⊢
      exact ⟨this, hb.no_free p⟩
    have hc : ∀ i ≤ 5, Ev.create (k + i) ∈ [] ++ (baseEvents k ++ [.use (.addr (k + 1)), .create (k + 5)] ++ b) :=
      fun i hi => by
        have := hc0 i hi
        simp only [List.nil_append, List.mem_append] at this ⊢
        exact Or.inl this
    have h0 := hc 0 (by omega)
    cases fin
    · trivial
    · generalize [] ++ (baseEvents k ++ [.use (.addr (k + 1)), .create (k + 5)] ++ b) = a at hf hc h0
      simp [freeService, sensService, From, hf, hc, hns]
      simpa using h0

theorem base_create_iff (k n : Nat) : Ev.create n ∈ baseEvents k ↔ ∃ i ≤ 4, n = k + i := by
  constructor
  · intro h
    simp [baseEvents] at h
    rcases h with h | h | h | h | h
    · exact ⟨0, by omega, h⟩
    · exact ⟨1, by omega, h⟩
    · exact ⟨2, by omega, h⟩
    · exact ⟨3, by omega, h⟩
    · exact ⟨4, by omega, h⟩
  · rintro ⟨i, hi, rfl⟩
    exact base_create k i hi

theorem free_plain (k i : Nat) (hi : i ≤ 4) : (freeService (plainService k)).count (.free (.addr (k + i))) = 1 := by
  obtain rfl | rfl | rfl | rfl | rfl : i = 0 ∨ i = 1 ∨ i = 2 ∨ i = 3 ∨ i = 4 := by omega
  all_goals simp [freeService, plainService]

theorem free_sens (k i : Nat) {ns : Nat} (hns : 0 < ns) (hi : i ≤ 5) :
    (freeService (sensService k ns)).count (.free (.addr (k + i))) = 1 := by
  obtain rfl | rfl | rfl | rfl | rfl | rfl : i = 0 ∨ i = 1 ∨ i = 2 ∨ i = 3 ∨ i = 4 ∨ i = 5 := by omega
  all_goals simp [freeService, sensService, hns]

theorem Shape.noLeak {k : Nat} {tr : List Ev} (h : Shape k true tr) : NoLeak tr := by
  intro n hn
  cases h with
  | plain hb =>
    rename_i b
    rw [if_pos rfl] at hn ⊢
    simp only [List.mem_append, base_create_iff, hb.no_create, or_false] at hn
    rcases hn with ⟨i, hi, rfl⟩ | hn
    · rw [List.count_append, List.count_append, List.count_eq_zero.mpr (base_free k _),
        List.count_eq_zero.mpr (hb.no_free _), free_plain k i hi]
    · simp [freeService, plainService] at hn
  | sens hns hb =>
    rename_i ns b
    rw [if_pos rfl] at hn ⊢
    have hn : ∃ i ≤ 5, n = k + i := by
      simp only [List.mem_append, base_create_iff, hb.no_create, or_false] at hn
      rcases hn with (⟨i, hi, rfl⟩ | hn) | hn
      · exact ⟨i, by omega, rfl⟩
      · simp at hn
        exact ⟨5, by omega, hn⟩
      · simp [freeService, sensService, hns] at hn
    obtain ⟨i, hi, rfl⟩ := hn
    rw [List.count_append, List.count_append, List.count_append, List.count_eq_zero.mpr (base_free k _),
      List.count_eq_zero.mpr (hb.no_free _), free_sens k i hns hi]
    simp

theorem Shape.last {k : Nat} {tr : List Ev} (h : Shape k true tr) : ∃ b, tr = b ++ [.free (.addr k)] := by
  cases h with
  | plain hb =>
    rename_i b
    exact ⟨baseEvents k ++ b ++ [.free (.addr (k + 4)), .free (.addr (k + 3)), .free (.addr (k + 2)),
      .free (.addr (k + 1))], by simp [freeService, plainService]⟩
  | sens hns hb =>
    rename_i ns b
    exact ⟨baseEvents k ++ [.use (.addr (k + 1)), .create (k + 5)] ++ b ++ [.free (.addr (k + 4)), .free (.addr (k + 3)),
      .free (.addr (k + 2)), .free (.addr (k + 1)), .free (.addr (k + 5))], by simp [freeService, sensService, hns]⟩

theorem Shape.first {k : Nat} {fin : Bool} {tr : List Ev} (h : Shape k fin tr) : Ev.create k ∈ tr := by
  have := base_create k 0 (by omega)
  cases h <;> simp_all

theorem Shape.contextLast {k : Nat} {tr : List Ev} (h : Shape k true tr) : ContextLast tr k := by
  intro before after e n hn hc
  obtain ⟨b, hb⟩ := h.last
  have hcount := h.noLeak k h.first
  have hb' : before = b := by
    rcases after.eq_nil_or_concat with rfl | ⟨l, x, rfl⟩
    · have := e.symm.trans hb
      exact (List.append_inj_left' this rfl)
    · have h1 := e.symm.trans hb
      rw [List.concat_eq_append, ← List.cons_append, ← List.append_assoc] at h1
      have h2 := (List.append_inj' h1 rfl).1
      rw [hb, ← h2] at hcount
      simp [List.count_append] at hcount
      omega
  subst hb'
  have := h.noLeak n (by rw [e]; simp [hc])
  rw [e, List.count_append] at this
  have h3 : after = [] := by
    have := e.symm.trans hb
    simpa using this
  subst h3
  have h4 : List.count (Ev.free (.addr n)) [Ev.free (.addr k)] = 0 := List.count_eq_zero.mpr (by simpa using hn)
  exact List.count_pos_iff.mp (by omega)

end Fz
