import Verif.Model.Basic
import Verif.Model.RealArith
import Mathlib.Algebra.Order.Floor.Semiring
import Mathlib.Data.Real.Archimedean

/-!
# Words that satisfy the laws of `transfer`

The theorems assume `LawfulRep W R`.  Two instances: words of 32 bits for reals of 64 bits, with any
arithmetic whose zero is the all-zero pattern; and, for the exact reading, words that can hold a real
number (only used to show that the assumptions of the theorems over `ℝ` can be met).
-/

namespace Fz

/-- bit patterns: `transfer` of 64 bits to two words of 32 bits -/
instance instRepBits : Rep (BitVec 32) (BitVec 64) where
  lo r := r.setWidth 32
  hi r := (r >>> 32).setWidth 32
  join a b := b.setWidth 64 <<< 32 ||| a.setWidth 64
  ofNat n := BitVec.ofNat 32 n
  toNat w := w.toNat

theorem lawful_bits [Arith (BitVec 64)] (h0 : (Arith.zero : BitVec 64) = 0#64) :
    LawfulRep (BitVec 32) (BitVec 64) where
  join_lo_hi r := by
    show ((r >>> 32).setWidth 32).setWidth 64 <<< 32 ||| (r.setWidth 32).setWidth 64 = r
    ext i hi
    simp only [BitVec.getElem_or, BitVec.getElem_shiftLeft, BitVec.getElem_setWidth,
      BitVec.getLsbD_setWidth, BitVec.getLsbD_ushiftRight]
    by_cases h : i < 32
    · simp [h, BitVec.getLsbD_eq_getElem hi]
    · have h2 : i - 32 < 32 := by omega
      have h3 : 32 + (i - 32) = i := by omega
      simp [h, h2, h3, BitVec.getLsbD_eq_getElem hi]
  toNat_ofNat n hn := by
    show (BitVec.ofNat 32 n).toNat = n
    rw [BitVec.toNat_ofNat]
    apply Nat.mod_eq_of_lt
    unfold int32Max at hn
    omega
  lo_zero := by rw [h0]; rfl
  hi_zero := by rw [h0]; rfl

/-- words that hold a real number each -/
noncomputable instance instRepReal : Rep ℝ ℝ where
  lo r := r
  hi _ := 0
  join a _ := a
  ofNat n := (n : ℝ)
  toNat w := ⌊w⌋₊

noncomputable instance instLawfulReal : LawfulRep ℝ ℝ where
  join_lo_hi _ := rfl
  toNat_ofNat n _ := Nat.floor_natCast n
  lo_zero := by show (0:ℝ) = ((0:ℕ):ℝ); simp
  hi_zero := by show (0:ℝ) = ((0:ℕ):ℝ); simp

end Fz
