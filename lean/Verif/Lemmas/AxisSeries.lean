import Mathlib.Analysis.SpecialFunctions.Integrals.Basic
import Mathlib.MeasureTheory.Integral.IntervalIntegral.Basic

/-!
# Expansion of the integrals over a ring near the axis

Used for the accuracy of the radial series (C52). The polynomials were generated by a script; Lean checks them.
-/
namespace Traceon
open Real

/-- If `P² m = 1` up to order ten then `P` approximates `1/√m` to order ten. -/
theorem binom_bound (n : ℕ) (P Q : ℝ → ℝ) (hP : Continuous P) (hQ : Continuous Q) (hP0 : P 0 = 1) (h : ∀ w, (1 + w) ^ n * P w ^ 2 - 1 = w ^ 10 * Q w) :
    ∃ C δ : ℝ, 0 ≤ C ∧ 0 < δ ∧ δ < 1 ∧ ∀ w, |w| ≤ δ → |1 / √(1 + w) ^ n - P w| ≤ C * |w| ^ 10 := by
  have hc : Continuous (fun w : ℝ => (1 + w) ^ n * P w) := by fun_prop
  obtain ⟨δ1, hδ1, h1⟩ := Metric.continuous_iff.1 hc 0 (1 / 2) (by norm_num)
  obtain ⟨M, hM⟩ := (isCompact_Icc (a := (-1 : ℝ)) (b := 1)).exists_bound_of_continuousOn hQ.continuousOn
  refine ⟨2 * |M|, min (δ1 / 2) (1 / 2), by positivity, by positivity, lt_of_le_of_lt (min_le_right _ _) (by norm_num), ?_⟩
  intro w hw
  have hw1 : |w| < δ1 := lt_of_le_of_lt (le_trans hw (min_le_left _ _)) (by linarith)
  have hw2 : |w| ≤ 1 / 2 := le_trans hw (min_le_right _ _)
  have hlow := h1 w (by rw [Real.dist_eq, sub_zero]; exact hw1)
  rw [Real.dist_eq, hP0] at hlow
  simp only [add_zero, one_pow, mul_one] at hlow
  have hPl : 1 / 2 < (1 + w) ^ n * P w := by have := (abs_lt.1 hlow).1; linarith
  have hpos : 0 < 1 + w := by have := (abs_le.1 hw2).1; linarith
  set y := 1 / √(1 + w) ^ n with hy
  have hy0 : 0 < y := by have := Real.sqrt_pos.2 hpos; positivity
  have hy2 : y ^ 2 * (1 + w) ^ n = 1 := by
    rw [hy, div_pow, one_pow, ← pow_mul, mul_comm n 2, pow_mul, Real.sq_sqrt hpos.le, one_div, inv_mul_cancel₀ (pow_pos hpos n).ne']
  have hprod : (y - P w) * ((1 + w) ^ n * y + (1 + w) ^ n * P w) = -(w ^ 10 * Q w) := by
    rw [← h w]; linear_combination hy2
  have hden : 1 / 2 ≤ (1 + w) ^ n * y + (1 + w) ^ n * P w := by
    have : 0 < (1 + w) ^ n * y := by positivity
    linarith
  have habs := congrArg abs hprod
  rw [abs_mul, abs_neg, abs_mul, abs_pow, abs_of_pos (lt_of_lt_of_le (by norm_num) hden)] at habs
  have hQM : |Q w| ≤ |M| := by
    have := hM w ⟨by have := (abs_le.1 hw2).1; linarith, by have := (abs_le.1 hw2).2; linarith⟩
    exact le_trans this (le_abs_self M)
  have h10 : (0 : ℝ) ≤ |w| ^ 10 := by positivity
  nlinarith [mul_le_mul_of_nonneg_left hden (abs_nonneg (y - P w)), mul_le_mul_of_nonneg_left hQM h10]

/-- The mean of a power of the cosine. -/
noncomputable def cosMoment : ℕ → ℝ
  | 0 => 1
  | 1 => 0
  | n + 2 => (n + 1) / (n + 2) * cosMoment n

theorem integral_cosMoment (n : ℕ) : ∫ φ in (0 : ℝ)..2 * π, cos φ ^ n = 2 * π * cosMoment n := by
  induction n using Nat.twoStepInduction with
  | zero => simp [cosMoment]
  | one => simp [cosMoment]
  | more n ih1 ih2 =>
    rw [integral_cos_pow, ih1]
    simp [cosMoment]
    ring

/-- The mean of `cos^e (x + y cos)^k`. -/
noncomputable def binomAvg (e : ℕ) (x y : ℝ) (k : ℕ) : ℝ := ∑ j ∈ Finset.range (k + 1), x ^ j * y ^ (k - j) * (k.choose j) * cosMoment (e + (k - j))

theorem integral_binom (e : ℕ) (x y : ℝ) (k : ℕ) : ∫ φ in (0 : ℝ)..2 * π, cos φ ^ e * (x + y * cos φ) ^ k = 2 * π * binomAvg e x y k := by
  simp only [add_pow, Finset.mul_sum]
  rw [intervalIntegral.integral_finset_sum (fun k _ => by apply Continuous.intervalIntegrable; fun_prop)]
  unfold binomAvg
  rw [Finset.mul_sum]
  refine Finset.sum_congr rfl (fun j _ => ?_)
  rw [show (fun φ => cos φ ^ e * (x ^ j * (y * cos φ) ^ (k - j) * (k.choose j))) = fun φ => x ^ j * y ^ (k - j) * (k.choose j) * cos φ ^ (e + (k - j)) by
    funext φ; rw [mul_pow, pow_add]; ring, intervalIntegral.integral_const_mul, integral_cosMoment]
  ring

/-- Coefficients of the Taylor polynomial. -/
noncomputable def taylorCoeff1 : ℕ → ℝ
  | 0 => 1
  | 1 => -1 / 2
  | 2 => 3 / 8
  | 3 => -5 / 16
  | 4 => 35 / 128
  | 5 => -63 / 256
  | 6 => 231 / 1024
  | 7 => -429 / 2048
  | 8 => 6435 / 32768
  | 9 => -12155 / 65536
  | _ => 0

/-- Coefficients of the Taylor polynomial. -/
noncomputable def taylorCoeff3 : ℕ → ℝ
  | 0 => 1
  | 1 => -3 / 2
  | 2 => 15 / 8
  | 3 => -35 / 16
  | 4 => 315 / 128
  | 5 => -693 / 256
  | 6 => 3003 / 1024
  | 7 => -6435 / 2048
  | 8 => 109395 / 32768
  | 9 => -230945 / 65536
  | _ => 0
/-- Taylor polynomial of `(1 + w)^(-1/2)` -/
noncomputable def taylor1 (w : ℝ) : ℝ := (1) + (-1 / 2) * w + (3 / 8) * w ^ 2 + (-5 / 16) * w ^ 3 + (35 / 128) * w ^ 4 + (-63 / 256) * w ^ 5 + (231 / 1024) * w ^ 6 + (-429 / 2048) * w ^ 7 + (6435 / 32768) * w ^ 8 + (-12155 / 65536) * w ^ 9
theorem taylor1_sum (w : ℝ) : taylor1 w = ∑ k ∈ Finset.range 10, taylorCoeff1 k * w ^ k := by
  simp only [Finset.sum_range_succ, Finset.sum_range_zero, taylorCoeff1, taylor1]
  ring
theorem taylor1_bound : ∃ C δ : ℝ, 0 ≤ C ∧ 0 < δ ∧ δ < 1 ∧ ∀ w, |w| ≤ δ → |1 / √(1 + w) ^ 1 - taylor1 w| ≤ C * |w| ^ 10 := by
  refine binom_bound 1 taylor1 (fun w => (-46189 / 131072) + (20995 / 131072) * w + (-230945 / 2097152) * w ^ 2 + (88825 / 1048576) * w ^ 3 + (-1154725 / 16777216) * w ^ 4 + (969969 / 16777216) * w ^ 5 + (-53348295 / 1073741824) * w ^ 6 + (5827965 / 134217728) * w ^ 7 + (-165125675 / 4294967296) * w ^ 8 + (147744025 / 4294967296) * w ^ 9) (by unfold taylor1; fun_prop) (by fun_prop) (by norm_num [taylor1]) ?_
  intro w
  unfold taylor1
  ring

/-- Taylor polynomial of `(1 + w)^(-3/2)` -/
noncomputable def taylor3 (w : ℝ) : ℝ := (1) + (-3 / 2) * w + (15 / 8) * w ^ 2 + (-35 / 16) * w ^ 3 + (315 / 128) * w ^ 4 + (-693 / 256) * w ^ 5 + (3003 / 1024) * w ^ 6 + (-6435 / 2048) * w ^ 7 + (109395 / 32768) * w ^ 8 + (-230945 / 65536) * w ^ 9
theorem taylor3_sum (w : ℝ) : taylor3 w = ∑ k ∈ Finset.range 10, taylorCoeff3 k * w ^ k := by
  simp only [Finset.sum_range_succ, Finset.sum_range_zero, taylorCoeff3, taylor3]
  ring
theorem taylor3_bound : ∃ C δ : ℝ, 0 ≤ C ∧ 0 < δ ∧ δ < 1 ∧ ∀ w, |w| ≤ δ → |1 / √(1 + w) ^ 3 - taylor3 w| ≤ C * |w| ^ 10 := by
  refine binom_bound 3 taylor3 (fun w => (-969969 / 131072) + (-440895 / 131072) * w + (1616615 / 2097152) * w ^ 2 + (-373065 / 1048576) * w ^ 3 + (3464175 / 16777216) * w ^ 4 + (-2263261 / 16777216) * w ^ 5 + (101846745 / 1073741824) * w ^ 6 + (-9414405 / 134217728) * w ^ 7 + (231175945 / 4294967296) * w ^ 8 + (-182507325 / 4294967296) * w ^ 9 + (58949865975 / 4294967296) * w ^ 10 + (53335593025 / 4294967296) * w ^ 11) (by unfold taylor3; fun_prop) (by fun_prop) (by norm_num [taylor3]) ?_
  intro w
  unfold taylor3
  ring
noncomputable def axisPot (u r s : ℝ) : ℝ := (1) + (-1 / 2) * u ^ 2 * s + (3 / 4) * u ^ 2 * r ^ 2 * s ^ 2 + (3 / 8) * u ^ 4 * s ^ 2 + (-15 / 8) * u ^ 4 * r ^ 2 * s ^ 3 + (105 / 64) * u ^ 4 * r ^ 4 * s ^ 4 + (-5 / 16) * u ^ 6 * s ^ 3 + (105 / 32) * u ^ 6 * r ^ 2 * s ^ 4 + (-945 / 128) * u ^ 6 * r ^ 4 * s ^ 5 + (1155 / 256) * u ^ 6 * r ^ 6 * s ^ 6 + (35 / 128) * u ^ 8 * s ^ 4 + (-315 / 64) * u ^ 8 * r ^ 2 * s ^ 5 + (10395 / 512) * u ^ 8 * r ^ 4 * s ^ 6 + (-15015 / 512) * u ^ 8 * r ^ 6 * s ^ 7 + (225225 / 16384) * u ^ 8 * r ^ 8 * s ^ 8
noncomputable def axisPotRest (u r s : ℝ) : ℝ := (-63 / 256) * s ^ 5 + (3465 / 512) * r ^ 2 * s ^ 6 + (-45045 / 1024) * r ^ 4 * s ^ 7 + (225225 / 2048) * r ^ 6 * s ^ 8 + (-3828825 / 32768) * r ^ 8 * s ^ 9 + (231 / 1024) * u ^ 2 * s ^ 6 + (-9009 / 1024) * u ^ 2 * r ^ 2 * s ^ 7 + (675675 / 8192) * u ^ 2 * r ^ 4 * s ^ 8 + (-1276275 / 4096) * u ^ 2 * r ^ 6 * s ^ 9 + (-429 / 2048) * u ^ 4 * s ^ 7 + (45045 / 4096) * u ^ 4 * r ^ 2 * s ^ 8 + (-2297295 / 16384) * u ^ 4 * r ^ 4 * s ^ 9 + (6435 / 32768) * u ^ 6 * s ^ 8 + (-109395 / 8192) * u ^ 6 * r ^ 2 * s ^ 9 + (-12155 / 65536) * u ^ 8 * s ^ 9
theorem axisPot_avg (u r s : ℝ) : ∫ φ in (0 : ℝ)..2 * π, cos φ ^ 0 * taylor1 (s * (u ^ 2 + (-2 * r * u) * cos φ)) =
    2 * π * (axisPot u r s + u ^ 10 * axisPotRest u r s) := by
  simp only [taylor1_sum, Finset.mul_sum]
  rw [intervalIntegral.integral_finset_sum (fun k _ => by apply Continuous.intervalIntegrable; fun_prop)]
  have h : ∀ k : ℕ, ∫ φ in (0 : ℝ)..2 * π, cos φ ^ 0 * (taylorCoeff1 k * (s * (u ^ 2 + (-2 * r * u) * cos φ)) ^ k) = 2 * π * (taylorCoeff1 k * s ^ k * binomAvg 0 (u ^ 2) (-2 * r * u) k) := by
    intro k
    rw [show (fun φ => cos φ ^ 0 * (taylorCoeff1 k * (s * (u ^ 2 + (-2 * r * u) * cos φ)) ^ k)) = fun φ => taylorCoeff1 k * s ^ k * (cos φ ^ 0 * (u ^ 2 + (-2 * r * u) * cos φ) ^ k) by
      funext φ; rw [mul_pow]; ring, intervalIntegral.integral_const_mul, integral_binom]
    ring
  simp only [h, ← Finset.mul_sum]
  congr 1
  unfold binomAvg
  simp [Finset.sum_range_succ, taylorCoeff1, cosMoment, Nat.choose]
  unfold axisPot axisPotRest
  ring

noncomputable def axisJ0 (u r s : ℝ) : ℝ := (1) + (-3 / 2) * u ^ 2 * s + (15 / 4) * u ^ 2 * r ^ 2 * s ^ 2 + (15 / 8) * u ^ 4 * s ^ 2 + (-105 / 8) * u ^ 4 * r ^ 2 * s ^ 3 + (945 / 64) * u ^ 4 * r ^ 4 * s ^ 4 + (-35 / 16) * u ^ 6 * s ^ 3 + (945 / 32) * u ^ 6 * r ^ 2 * s ^ 4 + (-10395 / 128) * u ^ 6 * r ^ 4 * s ^ 5 + (15015 / 256) * u ^ 6 * r ^ 6 * s ^ 6
noncomputable def axisJ0Rest (u r s : ℝ) : ℝ := (315 / 128) * s ^ 4 + (-3465 / 64) * r ^ 2 * s ^ 5 + (135135 / 512) * r ^ 4 * s ^ 6 + (-225225 / 512) * r ^ 6 * s ^ 7 + (3828825 / 16384) * r ^ 8 * s ^ 8 + (-693 / 256) * u ^ 2 * s ^ 5 + (45045 / 512) * u ^ 2 * r ^ 2 * s ^ 6 + (-675675 / 1024) * u ^ 2 * r ^ 4 * s ^ 7 + (3828825 / 2048) * u ^ 2 * r ^ 6 * s ^ 8 + (-72747675 / 32768) * u ^ 2 * r ^ 8 * s ^ 9 + (3003 / 1024) * u ^ 4 * s ^ 6 + (-135135 / 1024) * u ^ 4 * r ^ 2 * s ^ 7 + (11486475 / 8192) * u ^ 4 * r ^ 4 * s ^ 8 + (-24249225 / 4096) * u ^ 4 * r ^ 6 * s ^ 9 + (-6435 / 2048) * u ^ 6 * s ^ 7 + (765765 / 4096) * u ^ 6 * r ^ 2 * s ^ 8 + (-43648605 / 16384) * u ^ 6 * r ^ 4 * s ^ 9 + (109395 / 32768) * u ^ 8 * s ^ 8 + (-2078505 / 8192) * u ^ 8 * r ^ 2 * s ^ 9 + (-230945 / 65536) * u ^ 10 * s ^ 9
theorem axisJ0_avg (u r s : ℝ) : ∫ φ in (0 : ℝ)..2 * π, cos φ ^ 0 * taylor3 (s * (u ^ 2 + (-2 * r * u) * cos φ)) =
    2 * π * (axisJ0 u r s + u ^ 8 * axisJ0Rest u r s) := by
  simp only [taylor3_sum, Finset.mul_sum]
  rw [intervalIntegral.integral_finset_sum (fun k _ => by apply Continuous.intervalIntegrable; fun_prop)]
  have h : ∀ k : ℕ, ∫ φ in (0 : ℝ)..2 * π, cos φ ^ 0 * (taylorCoeff3 k * (s * (u ^ 2 + (-2 * r * u) * cos φ)) ^ k) = 2 * π * (taylorCoeff3 k * s ^ k * binomAvg 0 (u ^ 2) (-2 * r * u) k) := by
    intro k
    rw [show (fun φ => cos φ ^ 0 * (taylorCoeff3 k * (s * (u ^ 2 + (-2 * r * u) * cos φ)) ^ k)) = fun φ => taylorCoeff3 k * s ^ k * (cos φ ^ 0 * (u ^ 2 + (-2 * r * u) * cos φ) ^ k) by
      funext φ; rw [mul_pow]; ring, intervalIntegral.integral_const_mul, integral_binom]
    ring
  simp only [h, ← Finset.mul_sum]
  congr 1
  unfold binomAvg
  simp [Finset.sum_range_succ, taylorCoeff3, cosMoment, Nat.choose]
  unfold axisJ0 axisJ0Rest
  ring

noncomputable def axisJ1 (u r s : ℝ) : ℝ := (3 / 2) * u * r * s + (-15 / 4) * u ^ 3 * r * s ^ 2 + (105 / 16) * u ^ 3 * r ^ 3 * s ^ 3 + (105 / 16) * u ^ 5 * r * s ^ 3 + (-945 / 32) * u ^ 5 * r ^ 3 * s ^ 4 + (3465 / 128) * u ^ 5 * r ^ 5 * s ^ 5 + (-315 / 32) * u ^ 7 * r * s ^ 4 + (10395 / 128) * u ^ 7 * r ^ 3 * s ^ 5 + (-45045 / 256) * u ^ 7 * r ^ 5 * s ^ 6 + (225225 / 2048) * u ^ 7 * r ^ 7 * s ^ 7
noncomputable def axisJ1Rest (u r s : ℝ) : ℝ := (3465 / 256) * r * s ^ 5 + (-45045 / 256) * r ^ 3 * s ^ 6 + (675675 / 1024) * r ^ 5 * s ^ 7 + (-3828825 / 4096) * r ^ 7 * s ^ 8 + (14549535 / 32768) * r ^ 9 * s ^ 9 + (-9009 / 512) * u ^ 2 * r * s ^ 6 + (675675 / 2048) * u ^ 2 * r ^ 3 * s ^ 7 + (-3828825 / 2048) * u ^ 2 * r ^ 5 * s ^ 8 + (72747675 / 16384) * u ^ 2 * r ^ 7 * s ^ 9 + (45045 / 2048) * u ^ 4 * r * s ^ 7 + (-2297295 / 4096) * u ^ 4 * r ^ 3 * s ^ 8 + (72747675 / 16384) * u ^ 4 * r ^ 5 * s ^ 9 + (-109395 / 4096) * u ^ 6 * r * s ^ 8 + (14549535 / 16384) * u ^ 6 * r ^ 3 * s ^ 9 + (2078505 / 65536) * u ^ 8 * r * s ^ 9
theorem axisJ1_avg (u r s : ℝ) : ∫ φ in (0 : ℝ)..2 * π, cos φ ^ 1 * taylor3 (s * (u ^ 2 + (-2 * r * u) * cos φ)) =
    2 * π * (axisJ1 u r s + u ^ 9 * axisJ1Rest u r s) := by
  simp only [taylor3_sum, Finset.mul_sum]
  rw [intervalIntegral.integral_finset_sum (fun k _ => by apply Continuous.intervalIntegrable; fun_prop)]
  have h : ∀ k : ℕ, ∫ φ in (0 : ℝ)..2 * π, cos φ ^ 1 * (taylorCoeff3 k * (s * (u ^ 2 + (-2 * r * u) * cos φ)) ^ k) = 2 * π * (taylorCoeff3 k * s ^ k * binomAvg 1 (u ^ 2) (-2 * r * u) k) := by
    intro k
    rw [show (fun φ => cos φ ^ 1 * (taylorCoeff3 k * (s * (u ^ 2 + (-2 * r * u) * cos φ)) ^ k)) = fun φ => taylorCoeff3 k * s ^ k * (cos φ ^ 1 * (u ^ 2 + (-2 * r * u) * cos φ) ^ k) by
      funext φ; rw [mul_pow]; ring, intervalIntegral.integral_const_mul, integral_binom]
    ring
  simp only [h, ← Finset.mul_sum]
  congr 1
  unfold binomAvg
  simp [Finset.sum_range_succ, taylorCoeff3, cosMoment, Nat.choose]
  unfold axisJ1 axisJ1Rest
  ring

/-- From the Taylor polynomials to the integrals. -/
theorem ring_expansion (k e m : ℕ) (hm : m ≤ 10) (P : ℝ → ℝ) (G R : ℝ → ℝ → ℝ) (hPc : Continuous P) (hRc : Continuous fun p : ℝ × ℝ => R p.1 p.2) {r : ℝ} (hr : 0 < r)
    (hP : ∃ C δ : ℝ, 0 ≤ C ∧ 0 < δ ∧ δ < 1 ∧ ∀ w, |w| ≤ δ → |1 / √(1 + w) ^ k - P w| ≤ C * |w| ^ 10)
    (hG : ∀ s u, ∫ φ in (0 : ℝ)..2 * π, cos φ ^ e * P (s * (u ^ 2 + (-2 * r * u) * cos φ)) = 2 * π * (G s u + u ^ m * R s u)) :
    ∃ C δ : ℝ, 0 ≤ C ∧ 0 < δ ∧ ∀ z v u, 0 ≤ u → u ≤ δ →
      |(∫ φ in (0 : ℝ)..2 * π, cos φ ^ e / √(u ^ 2 + r ^ 2 + (z - v) ^ 2 - 2 * r * u * cos φ) ^ k) - 2 * π / √(r ^ 2 + (z - v) ^ 2) ^ k * G (1 / (r ^ 2 + (z - v) ^ 2)) u| ≤ C * u ^ m := by
  obtain ⟨C0, δ0, hC0, hδ0, hδ1, hb⟩ := hP
  obtain ⟨M, hM⟩ := ((isCompact_Icc (a := (0 : ℝ)) (b := 1 / r ^ 2)).prod (isCompact_Icc (a := (0 : ℝ)) (b := 1))).exists_bound_of_continuousOn hRc.continuousOn
  set K := 1 / r ^ 2 * (1 + 2 * r) with hK
  have hKpos : 0 < K := by positivity
  have hpi := Real.pi_pos
  refine ⟨1 / r ^ k * (C0 * K ^ 10) * (2 * π) + 2 * π / r ^ k * |M|, min 1 (δ0 / K), by positivity, by positivity, ?_⟩
  intro z v u hu0 hu
  set S := r ^ 2 + (z - v) ^ 2 with hS
  have hSpos : 0 < S := by positivity
  set N := √S with hN
  have hNpos : 0 < N := Real.sqrt_pos.2 hSpos
  have hSr : 1 / S ≤ 1 / r ^ 2 := one_div_le_one_div_of_le (by positivity) (by rw [hS]; nlinarith [sq_nonneg (z - v)])
  have hNr : r ≤ N := by
    rw [hN, Real.le_sqrt hr.le hSpos.le, hS]
    nlinarith [sq_nonneg (z - v)]
  have hNk : 1 / N ^ k ≤ 1 / r ^ k := one_div_le_one_div_of_le (by positivity) (pow_le_pow_left₀ hr.le hNr k)
  have hu1 : u ≤ 1 := le_trans hu (min_le_left _ _)
  have huK : K * u ≤ δ0 := by
    have := le_trans hu (min_le_right _ _)
    rwa [le_div_iff₀ hKpos, mul_comm] at this
  have hw : ∀ φ, |1 / S * (u ^ 2 + (-2 * r * u) * cos φ)| ≤ K * u := by
    intro φ
    have h1 : |u ^ 2 + (-2 * r * u) * cos φ| ≤ (1 + 2 * r) * u := by
      have hc := abs_le.1 (Real.abs_cos_le_one φ)
      have hru : 0 ≤ 2 * r * u := by positivity
      rw [abs_le]
      constructor <;> nlinarith [mul_le_mul_of_nonneg_left hc.1 hru, mul_le_mul_of_nonneg_left hc.2 hru]
    rw [abs_mul, abs_of_pos (by positivity : 0 < 1 / S), hK, mul_assoc (1 / r ^ 2)]
    exact mul_le_mul hSr h1 (abs_nonneg _) (by positivity)
  have hpos : ∀ φ, 0 < 1 + 1 / S * (u ^ 2 + (-2 * r * u) * cos φ) := by
    intro φ
    have := (abs_le.1 (le_trans (hw φ) huK)).1
    linarith
  have hfac : ∀ φ, √(u ^ 2 + r ^ 2 + (z - v) ^ 2 - 2 * r * u * cos φ) = N * √(1 + 1 / S * (u ^ 2 + (-2 * r * u) * cos φ)) := by
    intro φ
    rw [hN, ← Real.sqrt_mul hSpos.le]
    congr 1
    field_simp
    rw [hS]; ring
  have hpt : ∀ φ, |cos φ ^ e / √(u ^ 2 + r ^ 2 + (z - v) ^ 2 - 2 * r * u * cos φ) ^ k - 1 / N ^ k * (cos φ ^ e * P (1 / S * (u ^ 2 + (-2 * r * u) * cos φ)))| ≤
      1 / N ^ k * (C0 * (K * u) ^ 10) := by
    intro φ
    have h1 := hb _ (le_trans (hw φ) huK)
    have h2 : C0 * |1 / S * (u ^ 2 + (-2 * r * u) * cos φ)| ^ 10 ≤ C0 * (K * u) ^ 10 :=
      mul_le_mul_of_nonneg_left (pow_le_pow_left₀ (abs_nonneg _) (hw φ) 10) hC0
    have hsq := Real.sqrt_pos.2 (hpos φ)
    rw [hfac φ]
    have : cos φ ^ e / (N * √(1 + 1 / S * (u ^ 2 + (-2 * r * u) * cos φ))) ^ k - 1 / N ^ k * (cos φ ^ e * P (1 / S * (u ^ 2 + (-2 * r * u) * cos φ))) =
        1 / N ^ k * (cos φ ^ e * (1 / √(1 + 1 / S * (u ^ 2 + (-2 * r * u) * cos φ)) ^ k - P (1 / S * (u ^ 2 + (-2 * r * u) * cos φ)))) := by
      rw [mul_pow]
      generalize P _ = p
      generalize √(1 + _) = q at *
      field_simp
    rw [this, abs_mul, abs_of_pos (by positivity : 0 < 1 / N ^ k), abs_mul]
    refine mul_le_mul_of_nonneg_left ?_ (by positivity)
    have h3 : |cos φ ^ e| ≤ 1 := by rw [abs_pow]; exact pow_le_one₀ (abs_nonneg _) (Real.abs_cos_le_one φ)
    calc _ ≤ 1 * |1 / √(1 + 1 / S * (u ^ 2 + (-2 * r * u) * cos φ)) ^ k - P (1 / S * (u ^ 2 + (-2 * r * u) * cos φ))| := mul_le_mul_of_nonneg_right h3 (abs_nonneg _)
      _ ≤ _ := by rw [one_mul]; exact le_trans h1 h2
  have hc1 : Continuous (fun φ => cos φ ^ e / √(u ^ 2 + r ^ 2 + (z - v) ^ 2 - 2 * r * u * cos φ) ^ k) := by
    refine Continuous.div (by fun_prop) (by fun_prop) (fun φ => ?_)
    rw [hfac φ]
    have := Real.sqrt_pos.2 (hpos φ)
    positivity
  have hc2 : Continuous (fun φ => 1 / N ^ k * (cos φ ^ e * P (1 / S * (u ^ 2 + (-2 * r * u) * cos φ)))) := by fun_prop
  have hint : |(∫ φ in (0 : ℝ)..2 * π, cos φ ^ e / √(u ^ 2 + r ^ 2 + (z - v) ^ 2 - 2 * r * u * cos φ) ^ k) - 1 / N ^ k * (2 * π * (G (1 / S) u + u ^ m * R (1 / S) u))| ≤
      1 / N ^ k * (C0 * (K * u) ^ 10) * (2 * π) := by
    rw [← hG (1 / S) u, ← intervalIntegral.integral_const_mul, ← intervalIntegral.integral_sub (hc1.intervalIntegrable _ _) (hc2.intervalIntegrable _ _)]
    have := intervalIntegral.norm_integral_le_of_norm_le_const (a := 0) (b := 2 * π)
      (f := fun φ => cos φ ^ e / √(u ^ 2 + r ^ 2 + (z - v) ^ 2 - 2 * r * u * cos φ) ^ k - 1 / N ^ k * (cos φ ^ e * P (1 / S * (u ^ 2 + (-2 * r * u) * cos φ)))) (fun φ _ => hpt φ)
    rwa [sub_zero, abs_of_pos (by positivity : 0 < 2 * π)] at this
  have hRM : |R (1 / S) u| ≤ |M| := le_trans (hM (1 / S, u) ⟨⟨by positivity, hSr⟩, hu0, hu1⟩) (le_abs_self M)
  have hpow : u ^ 10 ≤ u ^ m := pow_le_pow_of_le_one hu0 hu1 hm
  have hsplit : (∫ φ in (0 : ℝ)..2 * π, cos φ ^ e / √(u ^ 2 + r ^ 2 + (z - v) ^ 2 - 2 * r * u * cos φ) ^ k) - 2 * π / N ^ k * G (1 / S) u =
      ((∫ φ in (0 : ℝ)..2 * π, cos φ ^ e / √(u ^ 2 + r ^ 2 + (z - v) ^ 2 - 2 * r * u * cos φ) ^ k) - 1 / N ^ k * (2 * π * (G (1 / S) u + u ^ m * R (1 / S) u))) + 2 * π / N ^ k * (u ^ m * R (1 / S) u) := by ring
  rw [hsplit]
  refine le_trans (abs_add_le _ _) ?_
  have h4 : |2 * π / N ^ k * (u ^ m * R (1 / S) u)| ≤ 2 * π / N ^ k * |M| * u ^ m := by
    rw [abs_mul, abs_of_pos (by positivity : 0 < 2 * π / N ^ k), abs_mul, abs_of_nonneg (by positivity : 0 ≤ u ^ m), mul_assoc, mul_comm (|M|)]
    exact mul_le_mul_of_nonneg_left (mul_le_mul_of_nonneg_left hRM (by positivity)) (by positivity)
  have h5 : 1 / N ^ k * (C0 * (K * u) ^ 10) * (2 * π) ≤ 1 / N ^ k * (C0 * K ^ 10) * (2 * π) * u ^ m := by
    have : 1 / N ^ k * (C0 * (K * u) ^ 10) * (2 * π) = 1 / N ^ k * (C0 * K ^ 10) * (2 * π) * u ^ 10 := by rw [mul_pow]; ring
    rw [this]
    exact mul_le_mul_of_nonneg_left hpow (by positivity)
  have hum : 0 ≤ u ^ m := by positivity
  have h6 : 1 / N ^ k * (C0 * K ^ 10) * (2 * π) * u ^ m ≤ 1 / r ^ k * (C0 * K ^ 10) * (2 * π) * u ^ m := by gcongr
  have h7 : 2 * π / N ^ k * |M| * u ^ m ≤ 2 * π / r ^ k * |M| * u ^ m := by gcongr
  rw [add_mul]
  linarith

end Traceon
