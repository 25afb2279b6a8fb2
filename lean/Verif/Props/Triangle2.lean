import Verif.Props.Triangle
import Mathlib.Analysis.SpecialFunctions.Log.NegMulLog

namespace Traceon
open Spec V3

/-! ## The functions return -/

section
variable {v0 v1 v2 : V3} (h : cross (v1 - v0) (v2 - v0) ≠ 0) (p n : V3)
include h

theorem line_dist_y {d : ℝ} (hd : 0 ≤ d) (haway : AwayFromLines v0 v1 v2 p d) {y : ℝ} (hy0 : 0 ≤ y)
    (hy1 : y ≤ (normalizeTri v0 v1 v2 p n).c) :
    d ≤ Real.sqrt ((y + (normalizeTri v0 v1 v2 p n).y0) * (y + (normalizeTri v0 v1 v2 p n).y0) +
      (normalizeTri v0 v1 v2 p n).z * (normalizeTri v0 v1 v2 p n).z) := by
  have hc := tri_c_pos h p n
  have := line_dist h p n hd haway (v := y / (normalizeTri v0 v1 v2 p n).c) (by positivity) ((div_le_one hc).2 hy1)
  rwa [mul_div_cancel₀ _ hc.ne'] at this

/-- **C55.** `potential_triangle` returns for every target that is not (nearly) on a line through the triangle parallel
to its first side. -/
theorem C55_potential_returns (haway : AwayFromLines v0 v1 v2 p 1e-12) : ∃ r, PotentialTriangleReturns v0 v1 v2 p r := by
  have hc := tri_c_pos h p 0
  unfold PotentialTriangleReturns
  set t := normalizeTri v0 v1 v2 p 0 with ht
  have hd : ∀ y ∈ Set.Icc 0 t.c, 1e-12 ≤ Real.sqrt ((y + t.y0) * (y + t.y0) + t.z * t.z) :=
    fun y hy => line_dist_y h p 0 (by norm_num) haway hy.1 hy.2
  have hcont : ContinuousOn t.potentialIntegrand (Set.Icc 0 t.c) := by
    have : ContinuousOn (fun y => Real.arsinh (t.xmax y / Real.sqrt ((y + t.y0) * (y + t.y0) + t.z * t.z)) -
        Real.arsinh (t.xmin y / Real.sqrt ((y + t.y0) * (y + t.y0) + t.z * t.z))) (Set.Icc 0 t.c) := by
      have k1 : Continuous t.xmax := by unfold NormTri.xmax; fun_prop
      have k2 : Continuous t.xmin := by unfold NormTri.xmin; fun_prop
      have k3 : Continuous fun y => Real.sqrt ((y + t.y0) * (y + t.y0) + t.z * t.z) := by fun_prop
      have k4 : ∀ y ∈ Set.Icc 0 t.c, Real.sqrt ((y + t.y0) * (y + t.y0) + t.z * t.z) ≠ 0 :=
        fun y hy => (lt_of_lt_of_le (by norm_num) (hd y hy)).ne'
      exact (Real.continuous_arsinh.comp_continuousOn (k1.continuousOn.div k3.continuousOn k4)).sub
        (Real.continuous_arsinh.comp_continuousOn (k2.continuousOn.div k3.continuousOn k4))
    refine this.congr fun y hy => ?_
    simp only [NormTri.potentialIntegrand]
    rw [if_neg (not_lt.2 (hd y hy))]
  obtain ⟨M, hM⟩ := isCompact_Icc.exists_bound_of_continuousOn hcont
  exact C56_returns (by norm_num) fun x h0 h1 => by simpa using hM x ⟨h0, h1⟩

/-- **C55.** `flux_triangle` returns for every target that is not close to a line through the triangle parallel to its
first side. -/
theorem C55_flux_returns (haway : AwayFromLines v0 v1 v2 p (Real.sqrt 1e-9)) : ∃ r, FluxTriangleReturns v0 v1 v2 p n r := by
  have hc := tri_c_pos h p n
  unfold FluxTriangleReturns
  set t := normalizeTri v0 v1 v2 p n with ht
  have hd : ∀ y ∈ Set.Icc 0 t.c, 1e-9 ≤ t.z * t.z + (y + t.y0) * (y + t.y0) := by
    intro y hy
    have h1 := line_dist_y h p n (Real.sqrt_nonneg _) haway hy.1 hy.2
    rw [← ht] at h1
    have h2 := (Real.sqrt_le_sqrt_iff (by nlinarith [mul_self_nonneg (y + t.y0), mul_self_nonneg t.z])).1 h1
    linarith
  have hcont : ContinuousOn t.fluxIntegrand (Set.Icc 0 t.c) := by
    have k1 : Continuous t.xmax := by unfold NormTri.xmax; fun_prop
    have k2 : Continuous t.xmin := by unfold NormTri.xmin; fun_prop
    have s1 : Continuous fun y => Real.sqrt (t.z * t.z + (y + t.y0) * (y + t.y0) + t.xmax y * t.xmax y) := by fun_prop
    have s2 : Continuous fun y => Real.sqrt (t.z * t.z + (y + t.y0) * (y + t.y0) + t.xmin y * t.xmin y) := by fun_prop
    have p0 : ∀ y ∈ Set.Icc 0 t.c, t.z * t.z + (y + t.y0) * (y + t.y0) ≠ 0 :=
      fun y hy => (lt_of_lt_of_le (by norm_num) (hd y hy)).ne'
    have p1 : ∀ y ∈ Set.Icc 0 t.c, Real.sqrt (t.z * t.z + (y + t.y0) * (y + t.y0) + t.xmax y * t.xmax y) ≠ 0 := by
      intro y hy
      have := hd y hy
      exact (Real.sqrt_pos.2 (by nlinarith [mul_self_nonneg (t.xmax y)])).ne'
    have p2 : ∀ y ∈ Set.Icc 0 t.c, Real.sqrt (t.z * t.z + (y + t.y0) * (y + t.y0) + t.xmin y * t.xmin y) ≠ 0 := by
      intro y hy
      have := hd y hy
      exact (Real.sqrt_pos.2 (by nlinarith [mul_self_nonneg (t.xmin y)])).ne'
    have r2c : Continuous fun y => t.z * t.z + (y + t.y0) * (y + t.y0) := by fun_prop
    have d1 := r2c.continuousOn.mul s1.continuousOn (s := Set.Icc 0 t.c)
    have d2 := r2c.continuousOn.mul s2.continuousOn (s := Set.Icc 0 t.c)
    have q1 : ∀ y ∈ Set.Icc 0 t.c, (t.z * t.z + (y + t.y0) * (y + t.y0)) *
        Real.sqrt (t.z * t.z + (y + t.y0) * (y + t.y0) + t.xmax y * t.xmax y) ≠ 0 := fun y hy => mul_ne_zero (p0 y hy) (p1 y hy)
    have q2 : ∀ y ∈ Set.Icc 0 t.c, (t.z * t.z + (y + t.y0) * (y + t.y0)) *
        Real.sqrt (t.z * t.z + (y + t.y0) * (y + t.y0) + t.xmin y * t.xmin y) ≠ 0 := fun y hy => mul_ne_zero (p0 y hy) (p2 y hy)
    have cy : Continuous fun y => y + t.y0 := by fun_prop
    have f0 := (continuousOn_const (c := (1:ℝ))).div s1.continuousOn p1 |>.sub
      ((continuousOn_const (c := (1:ℝ))).div s2.continuousOn p2)
    have f1 := ((k1.mul cy).continuousOn.div d1 q1).neg.add ((k2.mul cy).continuousOn.div d2 q2)
    have f2 := ((k1.mul (continuous_const (y := t.z))).continuousOn.div d1 q1).sub
      ((k2.mul (continuous_const (y := t.z))).continuousOn.div d2 q2)
    refine (((f0.const_mul t.normal.x).add (f1.const_mul t.normal.y)).add (f2.const_mul t.normal.z)).congr fun y hy => ?_
    simp only [NormTri.fluxIntegrand, NormTri.fluxVector]
    have h1 := hd y hy
    have h2 : 0 < t.z * t.z + (y + t.y0) * (y + t.y0) := lt_of_lt_of_le (by norm_num) h1
    rw [if_neg (by rw [abs_of_pos h2]; exact not_lt.2 h1)]
    simp only [dot, Pi.mul_apply, Pi.div_apply, Pi.neg_apply, Pi.sub_apply, Pi.add_apply]
  obtain ⟨M, hM⟩ := isCompact_Icc.exists_bound_of_continuousOn hcont
  exact C56_returns (by norm_num) fun x h0 h1 => by simpa using hM x ⟨h0, h1⟩

end

/-! ## The branch for small distances -/

/-- In the branch for small distances from the line the integrand is accurate if the triangle lies on the side of the
positive axis: the error is at most `d²/(4 xmin²)`, with `d` below `1e-12`. -/
theorem C55_potential_branch (t : NormTri) (y : ℝ) (hmin : 0 < t.xmin y) (hle : t.xmin y ≤ t.xmax y)
    (hd : Real.sqrt ((y + t.y0) * (y + t.y0) + t.z * t.z) < 1e-12) :
    |t.potentialIntegrand y - ∫ x in t.xmin y..t.xmax y, 1 / Real.sqrt (x ^ 2 + Real.sqrt ((y + t.y0) * (y + t.y0) + t.z * t.z) ^ 2)| ≤
      Real.sqrt ((y + t.y0) * (y + t.y0) + t.z * t.z) ^ 2 / (4 * t.xmin y ^ 2) := by
  simp only [NormTri.potentialIntegrand]
  rw [if_pos hd]
  set d := Real.sqrt ((y + t.y0) * (y + t.y0) + t.z * t.z)
  have hmax : 0 < t.xmax y := lt_of_lt_of_le hmin hle
  rw [abs_of_pos hmin, abs_of_pos hmax]
  have hdn : 0 ≤ d := Real.sqrt_nonneg _
  rcases hdn.eq_or_lt with h0 | hpos
  · have : ∫ x in t.xmin y..t.xmax y, 1 / Real.sqrt (x ^ 2 + d ^ 2) = Real.log (t.xmax y) - Real.log (t.xmin y) := by
      have e : ∀ x ∈ Set.uIcc (t.xmin y) (t.xmax y), 1 / Real.sqrt (x ^ 2 + d ^ 2) = 1 / x := by
        intro x hx
        rw [Set.uIcc_of_le hle] at hx
        rw [← h0, zero_pow two_ne_zero, add_zero, Real.sqrt_sq (hmin.le.trans hx.1)]
      rw [intervalIntegral.integral_congr e, integral_one_div_of_pos hmin hmax, Real.log_div hmax.ne' hmin.ne']
    rw [this, sub_self, abs_zero]
    positivity
  · rw [integral_inv_sqrt hpos]
    have key : ∀ x : ℝ, 0 < x → Real.arsinh (x / d) = Real.log x - Real.log d + Real.log 2 + Real.log ((1 + Real.sqrt (1 + (d / x) ^ 2)) / 2) := by
      intro x hx
      have hs : Real.sqrt (1 + (x / d) ^ 2) = x / d * Real.sqrt (1 + (d / x) ^ 2) := by
        rw [show 1 + (x / d) ^ 2 = (x / d) ^ 2 * (1 + (d / x) ^ 2) by field_simp; ring, Real.sqrt_mul (by positivity),
          Real.sqrt_sq (by positivity)]
      have hpos' : 0 < 1 + Real.sqrt (1 + (d / x) ^ 2) := by positivity
      rw [Real.arsinh, hs, show x / d + x / d * Real.sqrt (1 + (d / x) ^ 2) = x / d * (2 * ((1 + Real.sqrt (1 + (d / x) ^ 2)) / 2)) by ring,
        Real.log_mul (by positivity) (by positivity), Real.log_mul two_ne_zero (by positivity), Real.log_div hx.ne' hpos.ne']
      ring
    have small : ∀ x : ℝ, 0 < x → 0 ≤ Real.log ((1 + Real.sqrt (1 + (d / x) ^ 2)) / 2) ∧
        Real.log ((1 + Real.sqrt (1 + (d / x) ^ 2)) / 2) ≤ d ^ 2 / (4 * x ^ 2) := by
      intro x hx
      have h1 : 1 ≤ Real.sqrt (1 + (d / x) ^ 2) := by rw [Real.one_le_sqrt]; nlinarith [sq_nonneg (d / x)]
      have h2 : Real.sqrt (1 + (d / x) ^ 2) ≤ 1 + (d / x) ^ 2 / 2 := by
        rw [Real.sqrt_le_left (by positivity)]
        nlinarith [sq_nonneg ((d / x) ^ 2)]
      constructor
      · exact Real.log_nonneg (by linarith)
      · refine (Real.log_le_sub_one_of_pos (by linarith)).trans ?_
        have : d ^ 2 / (4 * x ^ 2) = (d / x) ^ 2 / 4 := by field_simp
        rw [this]; linarith
    rw [key _ hmax, key _ hmin]
    obtain ⟨a1, a2⟩ := small _ hmin
    obtain ⟨b1, b2⟩ := small _ hmax
    have b3 : d ^ 2 / (4 * t.xmax y ^ 2) ≤ d ^ 2 / (4 * t.xmin y ^ 2) := by
      gcongr
    rw [abs_le]
    constructor <;> linarith

/-- If the triangle lies on the side of the negative axis, the value in the branch for small distances has the wrong
sign. -/
theorem C55_potential_branch_refuted (t : NormTri) (y : ℝ) (hlt : t.xmin y < t.xmax y) (hmax : t.xmax y < 0)
    (hd : Real.sqrt ((y + t.y0) * (y + t.y0) + t.z * t.z) < 1e-12) :
    t.potentialIntegrand y < 0 ∧
    0 < ∫ x in t.xmin y..t.xmax y, 1 / Real.sqrt (x ^ 2 + Real.sqrt ((y + t.y0) * (y + t.y0) + t.z * t.z) ^ 2) := by
  constructor
  · simp only [NormTri.potentialIntegrand]
    rw [if_pos hd, abs_of_neg hmax, abs_of_neg (hlt.trans hmax)]
    have := Real.log_lt_log (x := -t.xmax y) (y := -t.xmin y) (by linarith) (by linarith)
    linarith
  · set d := Real.sqrt ((y + t.y0) * (y + t.y0) + t.z * t.z)
    have hp : ∀ x ∈ Set.Icc (t.xmin y) (t.xmax y), 0 < Real.sqrt (x ^ 2 + d ^ 2) := by
      intro x hx
      have : x < 0 := lt_of_le_of_lt hx.2 hmax
      exact Real.sqrt_pos.2 (by have := sq_pos_of_neg this; positivity)
    apply intervalIntegral.integral_pos hlt
    · apply ContinuousOn.div continuousOn_const
      · fun_prop
      · exact fun x hx => (hp x hx).ne'
    · intro x hx
      have := hp x (Set.Ioc_subset_Icc_self hx)
      positivity
    · exact ⟨t.xmax y, ⟨hlt.le, le_rfl⟩, by have := hp _ ⟨hlt.le, le_rfl⟩; positivity⟩

/-! ## The self potential -/

section
variable (a b c : ℝ)

/-- The antiderivative of the inner integral in the height `y` above the first side. -/
noncomputable def selfF (y : ℝ) : ℝ :=
  y * (Real.arsinh ((b - a) / c + a / y) - Real.arsinh (b / c)) +
    a / Real.sqrt (((b - a) / c) ^ 2 + 1) *
      Real.arsinh (((((b - a) / c) ^ 2 + 1) * y + (b - a) / c * a) / a)

variable {a b c} (ha : 0 < a) (hc : 0 < c)
include ha hc

omit hc in
theorem selfF_deriv {y : ℝ} (hy : 0 < y) :
    HasDerivAt (selfF a b c) (Real.arsinh ((b - a) / c + a / y) - Real.arsinh (b / c)) y := by
  unfold selfF
  generalize (b - a) / c = β
  generalize Real.arsinh (b / c) = k
  have h1 : HasDerivAt (fun y : ℝ => β + a / y) (-a / y ^ 2) y := by
    have := ((hasDerivAt_inv hy.ne').const_mul a).const_add β
    refine HasDerivAt.congr_deriv (this.congr_of_eventuallyEq (Filter.Eventually.of_forall fun x => ?_)) ?_
    · simp [div_eq_mul_inv]
    · field_simp
  have h2 := (hasDerivAt_id y).mul (h1.arsinh.sub_const k)
  have h3 : HasDerivAt (fun y : ℝ => ((β ^ 2 + 1) * y + β * a) / a) ((β ^ 2 + 1) / a) y := by
    refine HasDerivAt.congr_deriv ((((hasDerivAt_id y).const_mul (β ^ 2 + 1)).add_const (β * a)).div_const a) ?_
    simp
  have h4 := (h3.arsinh).const_mul (a / Real.sqrt (β ^ 2 + 1))
  refine HasDerivAt.congr_deriv (h2.add h4) ?_
  have hs : 0 < Real.sqrt (β ^ 2 + 1) := Real.sqrt_pos.2 (by positivity)
  set q := Real.sqrt (y ^ 2 + (β * y + a) ^ 2) with hq
  have hq0 : 0 < q := Real.sqrt_pos.2 (by positivity)
  have e1 : Real.sqrt (1 + (β + a / y) ^ 2) = q / y := by
    rw [show 1 + (β + a / y) ^ 2 = (y ^ 2 + (β * y + a) ^ 2) / y ^ 2 by field_simp, Real.sqrt_div (by positivity),
      Real.sqrt_sq hy.le]
  have e2 : Real.sqrt (1 + (((β ^ 2 + 1) * y + β * a) / a) ^ 2) = Real.sqrt (β ^ 2 + 1) * q / a := by
    rw [show 1 + (((β ^ 2 + 1) * y + β * a) / a) ^ 2 = ((β ^ 2 + 1) * (y ^ 2 + (β * y + a) ^ 2)) / a ^ 2 by field_simp; ring,
      Real.sqrt_div (by positivity), Real.sqrt_mul (by positivity), Real.sqrt_sq ha.le]
  rw [e1, e2]
  have hsq : Real.sqrt (β ^ 2 + 1) ^ 2 = β ^ 2 + 1 := Real.sq_sqrt (by positivity)
  simp only [smul_eq_mul, id, one_mul]
  generalize Real.sqrt (β ^ 2 + 1) = s at *
  field_simp
  rw [hsq]
  ring

omit hc in
theorem selfF_continuous : ContinuousOn (selfF a b c) (Set.Icc 0 c) := by
  unfold selfF
  generalize (b - a) / c = β
  generalize Real.arsinh (b / c) = k
  apply ContinuousOn.add
  · have key : ∀ y ∈ Set.Icc 0 c, y * (Real.arsinh (β + a / y) - k) =
        y * Real.log (β * y + a + Real.sqrt (y ^ 2 + (β * y + a) ^ 2)) - y * Real.log y - y * k := by
      intro y hy
      rcases hy.1.eq_or_lt with h0 | hpos
      · rw [← h0]; simp
      have e1 : Real.sqrt (1 + (β + a / y) ^ 2) = Real.sqrt (y ^ 2 + (β * y + a) ^ 2) / y := by
        rw [show 1 + (β + a / y) ^ 2 = (y ^ 2 + (β * y + a) ^ 2) / y ^ 2 by field_simp, Real.sqrt_div (by positivity),
          Real.sqrt_sq hpos.le]
      have hgt : |β * y + a| < Real.sqrt (y ^ 2 + (β * y + a) ^ 2) := by
        rw [← Real.sqrt_sq_eq_abs]
        exact Real.sqrt_lt_sqrt (sq_nonneg _) (by have := sq_pos_of_pos hpos; linarith)
      have hN : 0 < β * y + a + Real.sqrt (y ^ 2 + (β * y + a) ^ 2) := by linarith [neg_abs_le (β * y + a)]
      rw [Real.arsinh, e1, show β + a / y + Real.sqrt (y ^ 2 + (β * y + a) ^ 2) / y =
        (β * y + a + Real.sqrt (y ^ 2 + (β * y + a) ^ 2)) / y by field_simp, Real.log_div hN.ne' hpos.ne']
      ring
    refine ContinuousOn.congr ?_ key
    apply ContinuousOn.sub
    · apply ContinuousOn.sub
      · apply continuousOn_id.mul
        apply ContinuousOn.log (by fun_prop)
        intro y hy
        rcases hy.1.eq_or_lt with h0 | hpos
        · rw [← h0]
          simp only [mul_zero, zero_add, ne_eq, OfNat.ofNat_ne_zero, not_false_eq_true, zero_pow]
          rw [Real.sqrt_sq ha.le]
          linarith
        · have hgt : |β * y + a| < Real.sqrt (y ^ 2 + (β * y + a) ^ 2) := by
            rw [← Real.sqrt_sq_eq_abs]
            exact Real.sqrt_lt_sqrt (sq_nonneg _) (by have := sq_pos_of_pos hpos; linarith)
          have hN : 0 < β * y + a + Real.sqrt (y ^ 2 + (β * y + a) ^ 2) := by linarith [neg_abs_le (β * y + a)]
          exact hN.ne'
      · exact Real.continuous_mul_log.continuousOn
    · fun_prop
  · have k1 : Continuous fun y : ℝ => ((β ^ 2 + 1) * y + β * a) / a := by fun_prop
    exact (continuous_const.mul (Real.continuous_arsinh.comp k1)).continuousOn

theorem self_integrand_nonneg {y : ℝ} (hy : 0 < y) (hyc : y ≤ c) :
    0 ≤ Real.arsinh ((b - a) / c + a / y) - Real.arsinh (b / c) := by
  have : b / c ≤ (b - a) / c + a / y := by
    have h1 : a / c ≤ a / y := by gcongr
    have h2 : (b - a) / c = b / c - a / c := by ring
    linarith
  have := Real.arsinh_le_arsinh.2 this
  linarith

theorem self_integrable : IntervalIntegrable (fun y => Real.arsinh ((b - a) / c + a / y) - Real.arsinh (b / c)) MeasureTheory.volume 0 c := by
  refine intervalIntegral.intervalIntegrable_deriv_of_nonneg (g := selfF a b c) ?_ ?_ ?_
  · rw [Set.uIcc_of_le hc.le]; exact selfF_continuous ha
  · intro y hy
    rw [min_eq_left hc.le] at hy
    exact selfF_deriv ha hy.1
  · intro y hy
    rw [min_eq_left hc.le, max_eq_right hc.le] at hy
    exact self_integrand_nonneg ha hc hy.1 hy.2.le

theorem self_integral :
    ∫ y in (0 : ℝ)..c, (Real.arsinh ((b - a) / c + a / y) - Real.arsinh (b / c)) =
      a / Real.sqrt (((b - a) / c) ^ 2 + 1) *
        (Real.arsinh (((((b - a) / c) ^ 2 + 1) * c + (b - a) / c * a) / a) - Real.arsinh ((b - a) / c)) := by
  rw [intervalIntegral.integral_eq_sub_of_hasDerivAt_of_le hc.le (selfF_continuous ha)
    (fun y hy => selfF_deriv ha hy.1) (self_integrable ha hc)]
  simp only [selfF]
  have e : (b - a) / c + a / c = b / c := by field_simp; ring
  rw [e, sub_self, mul_zero, mul_zero, zero_mul, zero_add, zero_add, zero_add, mul_div_assoc, div_self ha.ne', mul_one]
  ring

end

/-- **C55.** The closed formula for the potential of a triangle at its own first corner. -/
theorem C55_self_v0 {v0 v1 v2 : V3} (h : cross (v1 - v0) (v2 - v0) ≠ 0) :
    selfPotentialTriangleV0 v0 v1 v2 = triPotential v0 v1 v2 v0 := by
  have ha := tri_a_pos h v0 0
  have hc := tri_c_pos h v0 0
  have x00 : (normalizeTri v0 v1 v2 v0 0).x0 = 0 := by simp [normalizeTri, dot]
  have y00 : (normalizeTri v0 v1 v2 v0 0).y0 = 0 := by simp [normalizeTri, dot]
  have z00 : (normalizeTri v0 v1 v2 v0 0).z = 0 := by simp [normalizeTri, dot]
  have inner : ∀ v : ℝ, 0 < v → (∫ u in (0 : ℝ)..(1 - v), norm (cross (v1 - v0) (v2 - v0)) * (1 / norm (v0 - triPoint v0 v1 v2 u v))) =
      (normalizeTri v0 v1 v2 v0 0).c * (Real.arsinh (((normalizeTri v0 v1 v2 v0 0).b - (normalizeTri v0 v1 v2 v0 0).a) / (normalizeTri v0 v1 v2 v0 0).c +
        (normalizeTri v0 v1 v2 v0 0).a / ((normalizeTri v0 v1 v2 v0 0).c * v)) -
          Real.arsinh ((normalizeTri v0 v1 v2 v0 0).b / (normalizeTri v0 v1 v2 v0 0).c)) := by
    intro v hv
    set t := normalizeTri v0 v1 v2 v0 0 with ht
    have hcv : 0 < t.c * v := by positivity
    have e := inner_subst h v0 0 (fun x => 1 / Real.sqrt (x ^ 2 + (t.c * v) ^ 2)) v
    rw [← ht] at e
    have e2 : (∫ u in (0 : ℝ)..(1 - v), norm (cross (v1 - v0) (v2 - v0)) * (1 / norm (v0 - triPoint v0 v1 v2 u v))) =
        ∫ u in (0 : ℝ)..(1 - v), norm (cross (v1 - v0) (v2 - v0)) *
          (fun x => 1 / Real.sqrt (x ^ 2 + (t.c * v) ^ 2)) (t.x0 + v * t.b + u * t.a) := by
      refine intervalIntegral.integral_congr fun u _ => ?_
      beta_reduce
      rw [C55_isometric h v0 0, ← ht, y00, z00, show (0 + v * t.c) ^ 2 = (t.c * v) ^ 2 by ring,
        zero_pow two_ne_zero, add_zero]
    rw [e2.trans e, integral_inv_sqrt hcv]
    unfold NormTri.xmin NormTri.xmax
    rw [x00]
    congr 3
    · field_simp; ring
    · field_simp; ring
  unfold triPotential triIntegral
  have step : (∫ v in (0 : ℝ)..1, ∫ u in (0 : ℝ)..(1 - v), norm (cross (v1 - v0) (v2 - v0)) * (1 / norm (v0 - triPoint v0 v1 v2 u v))) =
      ∫ v in (0 : ℝ)..1, (normalizeTri v0 v1 v2 v0 0).c * (fun y => Real.arsinh (((normalizeTri v0 v1 v2 v0 0).b - (normalizeTri v0 v1 v2 v0 0).a) / (normalizeTri v0 v1 v2 v0 0).c +
        (normalizeTri v0 v1 v2 v0 0).a / y) -
          Real.arsinh ((normalizeTri v0 v1 v2 v0 0).b / (normalizeTri v0 v1 v2 v0 0).c)) ((normalizeTri v0 v1 v2 v0 0).c * v) := by
    refine intervalIntegral.integral_congr_ae (Filter.Eventually.of_forall fun v hv => ?_)
    rw [Set.uIoc_of_le zero_le_one] at hv
    exact inner v hv.1
  rw [step, intervalIntegral.integral_const_mul]
  refine Eq.trans ?_ (intervalIntegral.mul_integral_comp_mul_left
    (f := fun y => Real.arsinh (((normalizeTri v0 v1 v2 v0 0).b - (normalizeTri v0 v1 v2 v0 0).a) / (normalizeTri v0 v1 v2 v0 0).c +
        (normalizeTri v0 v1 v2 v0 0).a / y) -
          Real.arsinh ((normalizeTri v0 v1 v2 v0 0).b / (normalizeTri v0 v1 v2 v0 0).c)) (normalizeTri v0 v1 v2 v0 0).c).symm
  rw [mul_zero, mul_one, self_integral ha hc]
  unfold selfPotentialTriangleV0
  simp only
  generalize (normalizeTri v0 v1 v2 v0 0).a = a at *
  generalize (normalizeTri v0 v1 v2 v0 0).b = b at *
  generalize (normalizeTri v0 v1 v2 v0 0).c = c at *
  have e3 : ((b - a) / c * c + a) / c = b / c := by field_simp; ring
  rw [e3]
  have e4 : (b - a) / c * ((b - a) / c) * c + c + (b - a) / c * a = (((b - a) / c) ^ 2 + 1) * c + (b - a) / c * a := by ring
  have e5 : (b - a) / c * ((b - a) / c) + 1 = ((b - a) / c) ^ 2 + 1 := by ring
  rw [e4, e5]
  ring

end Traceon
