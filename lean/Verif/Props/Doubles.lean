import Verif.Props.Mesh
import Mathlib.Data.Real.Basic
import Mathlib.Order.Monotone.Basic
import Mathlib.Algebra.Order.Ring.Abs
import Mathlib.Tactic.Positivity
import Mathlib.Tactic.FieldSimp
import Mathlib.Tactic.Linarith
import Mathlib.Tactic.Ring
import Mathlib.Tactic.GCongr
import Mathlib.Algebra.Order.Field.Basic
import Mathlib.Algebra.Order.Field.Power
import Mathlib.Tactic.NormNum.Pow

/-!
# C62: the order and the clearing of low bits, in terms of the numbers that the doubles stand for
-/
namespace Traceon

/-! ## IEEE 754 -/

/-- The exponent field of a double. -/
def Spec.exponentField (b : Dbl) : ℕ := b.toNat / 2 ^ 52 % 2 ^ 11
/-- The fraction field of a double. -/
def Spec.fractionField (b : Dbl) : ℕ := b.toNat % 2 ^ 52
/-- Neither infinite nor a NaN. -/
def Spec.Finite (b : Dbl) : Prop := exponentField b < 2047

/-- The number that a finite double stands for: `(-1)^s (2^52 + f) 2^(e-1075)`, and without the leading bit for the exponent field 0. -/
noncomputable def Spec.doubleValue (b : Dbl) : ℝ :=
  (if b.msb then -1 else 1) *
    (if exponentField b = 0 then (fractionField b : ℝ) * 2 ^ (-1074 : ℤ) else (2 ^ 52 + (fractionField b : ℝ)) * 2 ^ ((exponentField b : ℤ) - 1075))

open Spec

/-! ## The size of a double as an integer -/

/-- The absolute value in units of 2^-1074. -/
def magnitude (n : ℕ) : ℕ := if n / 4503599627370496 = 0 then n else (4503599627370496 + n % 4503599627370496) * 2 ^ (n / 4503599627370496 - 1)

theorem magnitude_strictMono : StrictMono magnitude := by
  refine strictMono_nat_of_lt_succ fun n => ?_
  unfold magnitude
  by_cases h0 : n / 4503599627370496 = 0
  · rw [if_pos h0]
    by_cases h1 : (n + 1) / 4503599627370496 = 0
    · rw [if_pos h1]; omega
    · rw [if_neg h1]
      have e : (n + 1) / 4503599627370496 - 1 = 0 := by omega
      rw [e]; omega
  · rw [if_neg h0, if_neg (by omega)]
    by_cases h1 : n % 4503599627370496 + 1 < 4503599627370496
    · have e1 : (n + 1) / 4503599627370496 = n / 4503599627370496 := by omega
      have e2 : (n + 1) % 4503599627370496 = n % 4503599627370496 + 1 := by omega
      rw [e1, e2]
      have : 0 < 2 ^ (n / 4503599627370496 - 1) := by positivity
      nlinarith
    · have e1 : (n + 1) / 4503599627370496 - 1 = (n / 4503599627370496 - 1) + 1 := by omega
      have e2 : (n + 1) % 4503599627370496 = 0 := by omega
      have e3 : n % 4503599627370496 = 4503599627370495 := by omega
      rw [e1, e2, e3, pow_succ]
      have : 0 < 2 ^ (n / 4503599627370496 - 1) := by positivity
      omega

theorem exponentField_eq (b : Dbl) : exponentField b = b.toNat % 2 ^ 63 / 4503599627370496 := by
  unfold exponentField
  have := b.isLt
  norm_num
  omega

theorem fractionField_eq (b : Dbl) : fractionField b = b.toNat % 2 ^ 63 % 4503599627370496 := by
  unfold fractionField
  omega

theorem doubleValue_eq (b : Dbl) : doubleValue b = (if b.msb then -1 else 1) * (magnitude (b.toNat % 2 ^ 63) : ℝ) * 2 ^ (-1074 : ℤ) := by
  unfold doubleValue magnitude
  rw [mul_assoc]
  congr 1
  rw [← exponentField_eq, ← fractionField_eq]
  split_ifs with h
  · have : fractionField b = b.toNat % 2 ^ 63 := by
      rw [exponentField_eq] at h
      rw [fractionField_eq]
      omega
    rw [this]
  · push_cast
    obtain ⟨e, he⟩ : ∃ e, exponentField b = e + 1 := ⟨exponentField b - 1, by omega⟩
    rw [he, Nat.add_sub_cancel, mul_assoc, ← zpow_natCast (2 : ℝ) e, ← zpow_add₀ (by norm_num)]
    congr 2
    · norm_num
    · push_cast; ring

theorem doubleValue_key (b : Dbl) : doubleValue b = (if b.key < 0 then -1 else 1) * (magnitude b.key.natAbs : ℝ) * 2 ^ (-1074 : ℤ) := by
  rw [doubleValue_eq]
  have hk : b.key.natAbs = b.toNat % 2 ^ 63 := by unfold Dbl.key; split <;> omega
  rw [hk]
  by_cases hm : b.msb
  · rw [if_pos hm]
    by_cases h0 : b.toNat % 2 ^ 63 = 0
    · rw [h0]; simp [magnitude]
    · rw [if_pos (by unfold Dbl.key; rw [if_pos hm]; omega)]
  · rw [if_neg hm, if_neg (by unfold Dbl.key; rw [if_neg hm]; omega)]

/-- **C62.** The order used in sorting the points is the order of the numbers. -/
theorem C62_order (a b : Dbl) : a.key ≤ b.key ↔ doubleValue a ≤ doubleValue b := by
  have hu : (0 : ℝ) < 2 ^ (-1074 : ℤ) := by positivity
  have hval : ∀ c : Dbl, doubleValue c = ((if c.key < 0 then -(magnitude c.key.natAbs : ℤ) else (magnitude c.key.natAbs : ℤ) : ℤ) : ℝ) * 2 ^ (-1074 : ℤ) := by
    intro c
    rw [doubleValue_key]
    split_ifs <;> push_cast <;> ring
  rw [hval, hval, mul_le_mul_iff_left₀ hu, Int.cast_le]
  have hpos : ∀ n, 0 < n → 0 < magnitude n := fun n hn => by
    have := magnitude_strictMono hn
    have h0 : magnitude 0 = 0 := by simp [magnitude]
    omega
  have hmono : ∀ m n : ℕ, magnitude m ≤ magnitude n ↔ m ≤ n := fun m n => magnitude_strictMono.le_iff_le
  split_ifs with h1 h2 h2
  · have := hmono b.key.natAbs a.key.natAbs; omega
  · constructor
    · intro _; omega
    · intro _; omega
  · have := hpos b.key.natAbs (by omega); omega
  · have := hmono a.key.natAbs b.key.natAbs; omega

/-- **C62.** Two coordinates are taken to be equal exactly if they are the same number. -/
theorem C62_equal (a b : Dbl) : a.key = b.key ↔ doubleValue a = doubleValue b := by
  rw [le_antisymm_iff, le_antisymm_iff, C62_order, C62_order]

/-- **C62.** The points are sorted by z, then y, then x. -/
theorem C62_lexicographic (p q : BPoint) :
    BPoint.le p q = true ↔ doubleValue p.z < doubleValue q.z ∨ (doubleValue p.z = doubleValue q.z ∧
      (doubleValue p.y < doubleValue q.y ∨ (doubleValue p.y = doubleValue q.y ∧ doubleValue p.x ≤ doubleValue q.x))) := by
  have hlt : ∀ a b : Dbl, a.key < b.key ↔ doubleValue a < doubleValue b := fun a b => by rw [← not_le, ← not_le, C62_order]
  simp only [BPoint.le, Bool.or_eq_true, Bool.and_eq_true, decide_eq_true_eq, beq_iff_eq, hlt, C62_equal, C62_order]

/-! ## Clearing the low bits -/

theorem magnitude_trunc (n : ℕ) : magnitude (n / 65536 * 65536) ≤ magnitude n ∧
    magnitude n < magnitude (n / 65536 * 65536) + 65536 * 2 ^ (n / 4503599627370496 - 1) := by
  refine ⟨magnitude_strictMono.monotone (by omega), ?_⟩
  unfold magnitude
  have e1 : n / 65536 * 65536 / 4503599627370496 = n / 4503599627370496 := by omega
  rw [e1]
  split_ifs with h
  · have e2 : n / 4503599627370496 - 1 = 0 := by omega
    rw [e2]; omega
  · have e2 : n % 4503599627370496 < n / 65536 * 65536 % 4503599627370496 + 65536 := by omega
    have : 0 < 2 ^ (n / 4503599627370496 - 1) := by positivity
    nlinarith

/-- **C62.** Constructing a mesh changes a coordinate by a relative amount of at most 2^-36 (and by less than 2^-1058 if the coordinate is denormal), towards zero. -/
theorem C62_relative (b : Dbl) (hf : Finite b) :
    Finite b.trunc ∧ |doubleValue b.trunc| ≤ |doubleValue b| ∧ 0 ≤ doubleValue b * doubleValue b.trunc ∧
      |doubleValue b - doubleValue b.trunc| ≤ max (2 ^ (-36 : ℤ) * |doubleValue b|) (2 ^ (-1058 : ℤ)) := by
  have hu : (0 : ℝ) < 2 ^ (-1074 : ℤ) := by positivity
  have ht := Dbl.trunc_toNat b
  have hmod : b.trunc.toNat % 2 ^ 63 = b.toNat % 2 ^ 63 / 65536 * 65536 := by rw [ht]; omega
  set n := b.toNat % 2 ^ 63 with hn
  obtain ⟨h1, h2⟩ := magnitude_trunc n
  set M := magnitude n with hM
  set M' := magnitude (n / 65536 * 65536) with hM'
  have hb : doubleValue b = (if b.msb then -1 else 1) * (M : ℝ) * 2 ^ (-1074 : ℤ) := doubleValue_eq b
  have hb' : doubleValue b.trunc = (if b.msb then -1 else 1) * (M' : ℝ) * 2 ^ (-1074 : ℤ) := by
    rw [doubleValue_eq, hmod, Dbl.trunc_msb]
  have hs : |(if b.msb then -1 else 1 : ℝ)| = 1 := by split_ifs <;> simp
  have hss : (if b.msb then -1 else 1 : ℝ) * (if b.msb then -1 else 1 : ℝ) = 1 := by split_ifs <;> simp
  have a1 : |doubleValue b| = M * 2 ^ (-1074 : ℤ) := by rw [hb, abs_mul, abs_mul, hs, one_mul, abs_of_pos hu, abs_of_nonneg (by positivity)]
  have a2 : |doubleValue b.trunc| = M' * 2 ^ (-1074 : ℤ) := by rw [hb', abs_mul, abs_mul, hs, one_mul, abs_of_pos hu, abs_of_nonneg (by positivity)]
  have h1' : (M' : ℝ) ≤ M := by exact_mod_cast h1
  refine ⟨?_, ?_, ?_, ?_⟩
  · unfold Spec.Finite at hf ⊢
    rw [exponentField_eq] at hf ⊢
    rw [hmod]
    omega
  · rw [a1, a2]; gcongr
  · rw [hb, hb']
    have : (if b.msb then -1 else 1 : ℝ) * (M : ℝ) * 2 ^ (-1074 : ℤ) * ((if b.msb then -1 else 1 : ℝ) * (M' : ℝ) * 2 ^ (-1074 : ℤ)) =
        ((if b.msb then -1 else 1 : ℝ) * (if b.msb then -1 else 1 : ℝ)) * (M * 2 ^ (-1074 : ℤ)) * (M' * 2 ^ (-1074 : ℤ)) := by ring
    rw [this, hss]
    positivity
  · have a3 : |doubleValue b - doubleValue b.trunc| = (M - M') * 2 ^ (-1074 : ℤ) := by
      have : doubleValue b - doubleValue b.trunc = (if b.msb then -1 else 1 : ℝ) * ((M - M') * 2 ^ (-1074 : ℤ)) := by rw [hb, hb']; ring
      rw [this, abs_mul, hs, one_mul, abs_of_nonneg]
      exact mul_nonneg (by linarith) hu.le
    rw [a3]
    by_cases h0 : n / 4503599627370496 = 0
    · refine le_max_of_le_right ?_
      have e : n / 4503599627370496 - 1 = 0 := by omega
      rw [e] at h2
      have h3 : (M : ℝ) - M' ≤ 65536 := by
        have : (M : ℝ) < M' + 65536 := by exact_mod_cast (by simpa using h2)
        linarith
      calc ((M : ℝ) - M') * 2 ^ (-1074 : ℤ) ≤ 65536 * 2 ^ (-1074 : ℤ) := by gcongr
        _ = 2 ^ (-1058 : ℤ) := by
          rw [show (65536 : ℝ) = 2 ^ (16 : ℤ) by norm_num, ← zpow_add₀ (by norm_num)]; norm_num
    · refine le_max_of_le_left ?_
      rw [a1]
      have hMbig : 4503599627370496 * 2 ^ (n / 4503599627370496 - 1) ≤ M := by
        rw [hM]; unfold magnitude; rw [if_neg h0]; gcongr; omega
      have h3 : (M : ℝ) - M' ≤ 65536 * 2 ^ (n / 4503599627370496 - 1) := by
        have : (M : ℝ) < M' + 65536 * 2 ^ (n / 4503599627370496 - 1) := by exact_mod_cast h2
        linarith
      have h4 : (4503599627370496 : ℝ) * 2 ^ (n / 4503599627370496 - 1) ≤ M := by exact_mod_cast hMbig
      have e : (2 : ℝ) ^ (-36 : ℤ) = 65536 / 4503599627370496 := by norm_num
      rw [e]
      have h5 : (65536 : ℝ) * 2 ^ (n / 4503599627370496 - 1) ≤ 65536 / 4503599627370496 * M := by
        have := mul_le_mul_of_nonneg_left h4 (show (0 : ℝ) ≤ 65536 / 4503599627370496 by positivity)
        calc (65536 : ℝ) * 2 ^ (n / 4503599627370496 - 1) = 65536 / 4503599627370496 * (4503599627370496 * 2 ^ (n / 4503599627370496 - 1)) := by field_simp
          _ ≤ _ := this
      calc ((M : ℝ) - M') * 2 ^ (-1074 : ℤ) ≤ 65536 / 4503599627370496 * M * 2 ^ (-1074 : ℤ) := by
            refine mul_le_mul_of_nonneg_right (by linarith) hu.le
        _ = _ := by ring

/-- The numbers one, and minus five halves. -/
example : doubleValue 0x3FF0000000000000#64 = 1 ∧ doubleValue 0xC004000000000000#64 = -2.5 ∧ Finite 0xC004000000000000#64 := by
  have h1 : exponentField 0x3FF0000000000000#64 = 1023 := by decide
  have h2 : fractionField 0x3FF0000000000000#64 = 0 := by decide
  have h3 : exponentField 0xC004000000000000#64 = 1024 := by decide
  have h4 : fractionField 0xC004000000000000#64 = 1125899906842624 := by decide
  have m1 : (0x3FF0000000000000#64 : Dbl).msb = false := by decide
  have m2 : (0xC004000000000000#64 : Dbl).msb = true := by decide
  refine ⟨?_, ?_, ?_⟩
  · unfold doubleValue; rw [h1, h2, m1]; norm_num
  · unfold doubleValue; rw [h3, h4, m2]; norm_num
  · unfold Spec.Finite; rw [h3]; norm_num

end Traceon
