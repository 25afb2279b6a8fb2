import Verif.Model.Bits
import Verif.Model.IntGeo

/-! The concrete geometries are lawful. -/
namespace Traceon

theorem bitsGeo_lawful (d t1 t2 t3) : (bitsGeo d t1 t2 t3).Lawful := by
  constructor
  · intro a b
    simp only [bitsGeo, BPoint.le, Bool.or_eq_true, Bool.and_eq_true, decide_eq_true_eq, beq_iff_eq]
    omega
  · intro a b c
    simp only [bitsGeo, BPoint.le, Bool.or_eq_true, Bool.and_eq_true, decide_eq_true_eq, beq_iff_eq]
    omega
  · intro a b
    simp only [bitsGeo, BPoint.le, BPoint.eq, Bool.or_eq_true, Bool.and_eq_true, decide_eq_true_eq,
      beq_iff_eq]
    omega

theorem intGeo_lawful : intGeo.Lawful := by
  constructor
  · intro a b
    simp only [intGeo, IPoint.le, Bool.or_eq_true, Bool.and_eq_true, decide_eq_true_eq, beq_iff_eq]
    omega
  · intro a b c
    simp only [intGeo, IPoint.le, Bool.or_eq_true, Bool.and_eq_true, decide_eq_true_eq, beq_iff_eq]
    omega
  · intro a b
    obtain ⟨x, y, z⟩ := a
    obtain ⟨x', y', z'⟩ := b
    simp only [intGeo, IPoint.le, Bool.or_eq_true, Bool.and_eq_true, decide_eq_true_eq,
      beq_iff_eq, IPoint.mk.injEq]
    omega

/-- Truncation rounds the magnitude down to a multiple of 65536 (units in the last place). -/
theorem Dbl.trunc_toNat (b : Dbl) : b.trunc.toNat = b.toNat / 65536 * 65536 := by
  unfold Dbl.trunc
  have h : (0xFFFFFFFFFFFF0000#64 : Dbl) = (BitVec.allOnes 64 >>> 16) <<< 16 := by decide
  have h2 : b &&& 0xFFFFFFFFFFFF0000#64 = (b >>> 16) <<< 16 := by
    apply BitVec.eq_of_getLsbD_eq
    intro i hi
    rw [h]
    simp only [BitVec.getLsbD_and, BitVec.getLsbD_shiftLeft, BitVec.getLsbD_ushiftRight,
      BitVec.getLsbD_allOnes]
    by_cases h16 : i < 16
    · simp [h16]
    · have e : 16 + (i - 16) = i := by omega
      simp [h16, e, hi]
  rw [h2, BitVec.toNat_shiftLeft, BitVec.toNat_ushiftRight, Nat.shiftRight_eq_div_pow,
    Nat.shiftLeft_eq]
  have := b.isLt
  rw [Nat.mod_eq_of_lt]
  omega

theorem Dbl.trunc_msb (b : Dbl) : b.trunc.msb = b.msb := by
  rw [BitVec.msb_eq_decide, BitVec.msb_eq_decide, Dbl.trunc_toNat]
  have := b.isLt
  congr 1
  simp only [eq_iff_iff]
  omega

end Traceon
