import Verif.Spec.Elliptic
import Mathlib.Analysis.Calculus.ParametricIntervalIntegral
import Mathlib.Analysis.SpecialFunctions.Sqrt
import Mathlib.Analysis.SpecialFunctions.Trigonometric.Deriv
import Mathlib.Analysis.SpecialFunctions.Integrals.Basic
import Mathlib.Tactic.FieldSimp
import Mathlib.Tactic.LinearCombination

/-!
# Lemmas about complete elliptic integrals
-/
namespace Traceon
open Real Spec MeasureTheory intervalIntegral

/-- `cos² + p sin²` -/
noncomputable def ellD (p θ : ℝ) : ℝ := cos θ ^ 2 + p * sin θ ^ 2

theorem ellD_ge {p c : ℝ} (hc1 : c ≤ 1) (hcp : c ≤ p) (θ : ℝ) : c ≤ ellD p θ := by
  have h := sin_sq_add_cos_sq θ
  unfold ellD
  nlinarith [sq_nonneg (sin θ), sq_nonneg (cos θ)]

theorem ellD_pos {p : ℝ} (hp : 0 < p) (θ : ℝ) : 0 < ellD p θ :=
  lt_of_lt_of_le (lt_min one_pos hp) (ellD_ge (min_le_left _ _) (min_le_right _ _) θ)

theorem continuous_ellD (p : ℝ) : Continuous (ellD p) := by unfold ellD; fun_prop

theorem continuous_sqrt_ellD (p : ℝ) : Continuous (fun θ => √(ellD p θ)) := (continuous_ellD p).sqrt

theorem sqrt_ellD_ne {p : ℝ} (hp : 0 < p) (θ : ℝ) : √(ellD p θ) ≠ 0 := (Real.sqrt_pos.2 (ellD_pos hp θ)).ne'

theorem hasDerivAt_ellD (p θ : ℝ) : HasDerivAt (ellD p) (2 * (p - 1) * sin θ * cos θ) θ := by
  have h := ((hasDerivAt_cos θ).pow 2).add (((hasDerivAt_sin θ).pow 2).const_mul p)
  refine h.congr_deriv ?_
  simp; ring

/-- The function whose derivative relates the integrals. -/
theorem hasDerivAt_scD {p : ℝ} (hp : 0 < p) (θ : ℝ) :
    HasDerivAt (fun θ => sin θ * cos θ / √(ellD p θ)) ((cos θ ^ 4 - p * sin θ ^ 4) / √(ellD p θ) ^ 3) θ := by
  have hs := sqrt_ellD_ne hp θ
  have h1 := (hasDerivAt_ellD p θ).sqrt (ellD_pos hp θ).ne'
  have h2 := ((hasDerivAt_sin θ).mul (hasDerivAt_cos θ)).div h1 hs
  refine h2.congr_deriv ?_
  have h3 : √(ellD p θ) ^ 2 = cos θ ^ 2 + p * sin θ ^ 2 := Real.sq_sqrt (ellD_pos hp θ).le
  simp only [Pi.mul_apply]
  field_simp
  rw [h3]
  ring

theorem scD_integral {p : ℝ} (hp : 0 < p) : ∫ θ in (0 : ℝ)..π / 2, (cos θ ^ 4 - p * sin θ ^ 4) / √(ellD p θ) ^ 3 = 0 := by
  have hc : Continuous (fun θ => (cos θ ^ 4 - p * sin θ ^ 4) / √(ellD p θ) ^ 3) :=
    Continuous.div (by fun_prop) ((continuous_sqrt_ellD p).pow 3) (fun θ => pow_ne_zero _ (sqrt_ellD_ne hp θ))
  rw [integral_eq_sub_of_hasDerivAt (fun θ _ => hasDerivAt_scD hp θ) (hc.intervalIntegrable _ _)]
  simp

/-- `∫ Δ⁻³ = E / p` -/
theorem integral_inv_cube {p : ℝ} (hp : 0 < p) : ∫ θ in (0 : ℝ)..π / 2, 1 / √(ellD p θ) ^ 3 = ellE p / p := by
  have hi : ∀ n : ℕ, Continuous (fun θ => 1 / √(ellD p θ) ^ n) := fun n =>
    Continuous.div continuous_const ((continuous_sqrt_ellD p).pow n) (fun θ => pow_ne_zero _ (sqrt_ellD_ne hp θ))
  have hc : Continuous (fun θ => (cos θ ^ 4 - p * sin θ ^ 4) / √(ellD p θ) ^ 3) :=
    Continuous.div (by fun_prop) ((continuous_sqrt_ellD p).pow 3) (fun θ => pow_ne_zero _ (sqrt_ellD_ne hp θ))
  have hcA : Continuous (fun θ => (1 - p) * ((cos θ ^ 4 - p * sin θ ^ 4) / √(ellD p θ) ^ 3)) := continuous_const.mul hc
  have h1 : ∀ θ, p * (1 / √(ellD p θ) ^ 3) = √(ellD p θ) - (1 - p) * ((cos θ ^ 4 - p * sin θ ^ 4) / √(ellD p θ) ^ 3) := by
    intro θ
    have hs := sqrt_ellD_ne hp θ
    have h3 : √(ellD p θ) ^ 2 = cos θ ^ 2 + p * sin θ ^ 2 := Real.sq_sqrt (ellD_pos hp θ).le
    have h4 : √(ellD p θ) ^ 4 = (cos θ ^ 2 + p * sin θ ^ 2) ^ 2 := by rw [← h3]; ring
    have h5 := sin_sq_add_cos_sq θ
    field_simp
    rw [h4]
    linear_combination (-p * (sin θ ^ 2 + cos θ ^ 2 + 1)) * h5
  have h2 : ∫ θ in (0 : ℝ)..π / 2, p * (1 / √(ellD p θ) ^ 3) = ellE p := by
    rw [integral_congr (g := fun θ => √(ellD p θ) - (1 - p) * ((cos θ ^ 4 - p * sin θ ^ 4) / √(ellD p θ) ^ 3)) (fun θ _ => h1 θ),
      integral_sub ((continuous_sqrt_ellD p).intervalIntegrable _ _) (hcA.intervalIntegrable _ _), intervalIntegral.integral_const_mul,
      scD_integral hp, mul_zero, sub_zero]
    rfl
  rw [intervalIntegral.integral_const_mul] at h2
  rw [eq_div_iff hp.ne', mul_comm]; exact h2

/-- `∫ sin² Δ⁻³ = (E - pK) / (p (1 - p))` -/
theorem integral_sin_sq_cube {p : ℝ} (hp : 0 < p) : p * (1 - p) * ∫ θ in (0 : ℝ)..π / 2, sin θ ^ 2 / √(ellD p θ) ^ 3 = ellE p - p * ellK p := by
  have hi : Continuous (fun θ => 1 / √(ellD p θ)) := Continuous.div continuous_const (continuous_sqrt_ellD p) (fun θ => sqrt_ellD_ne hp θ)
  have hc : Continuous (fun θ => (cos θ ^ 4 - p * sin θ ^ 4) / √(ellD p θ) ^ 3) :=
    Continuous.div (by fun_prop) ((continuous_sqrt_ellD p).pow 3) (fun θ => pow_ne_zero _ (sqrt_ellD_ne hp θ))
  have hcA : Continuous (fun θ => (1 - p) * ((cos θ ^ 4 - p * sin θ ^ 4) / √(ellD p θ) ^ 3)) := continuous_const.mul hc
  have hcB : Continuous (fun θ => √(ellD p θ) - p * (1 / √(ellD p θ))) := (continuous_sqrt_ellD p).sub (continuous_const.mul hi)
  have hcC : Continuous (fun θ => p * (1 / √(ellD p θ))) := continuous_const.mul hi
  have h1 : ∀ θ, p * (1 - p) * (sin θ ^ 2 / √(ellD p θ) ^ 3) =
      √(ellD p θ) - p * (1 / √(ellD p θ)) - (1 - p) * ((cos θ ^ 4 - p * sin θ ^ 4) / √(ellD p θ) ^ 3) := by
    intro θ
    have hs := sqrt_ellD_ne hp θ
    have h3 : √(ellD p θ) ^ 2 = cos θ ^ 2 + p * sin θ ^ 2 := Real.sq_sqrt (ellD_pos hp θ).le
    have h5 := sin_sq_add_cos_sq θ
    field_simp
    rw [h3]
    linear_combination (-p * cos θ ^ 2 - p ^ 2 * sin θ ^ 2 - p * (1 - p) * sin θ ^ 2) * h5
  have h2 : ∫ θ in (0 : ℝ)..π / 2, p * (1 - p) * (sin θ ^ 2 / √(ellD p θ) ^ 3) = ellE p - p * ellK p := by
    rw [integral_congr (g := fun θ => √(ellD p θ) - p * (1 / √(ellD p θ)) - (1 - p) * ((cos θ ^ 4 - p * sin θ ^ 4) / √(ellD p θ) ^ 3)) (fun θ _ => h1 θ),
      integral_sub (hcB.intervalIntegrable _ _) (hcA.intervalIntegrable _ _),
      integral_sub ((continuous_sqrt_ellD p).intervalIntegrable _ _) (hcC.intervalIntegrable _ _), intervalIntegral.integral_const_mul, intervalIntegral.integral_const_mul,
      scD_integral hp, mul_zero, sub_zero]
    rfl
  rw [intervalIntegral.integral_const_mul] at h2
  exact h2

theorem hasDerivAt_ellK' {p : ℝ} (hp : 0 < p) : HasDerivAt ellK (∫ θ in (0 : ℝ)..π / 2, -(sin θ ^ 2 / √(ellD p θ) ^ 3) / 2) p := by
  set c := min 1 (p / 2) with hcdef
  have hc : 0 < c := lt_min one_pos (by linarith)
  have hball : ∀ x ∈ Metric.ball p (p / 2), 0 < x ∧ c ≤ x := by
    intro x hx
    rw [Metric.mem_ball, Real.dist_eq, abs_lt] at hx
    exact ⟨by linarith, le_trans (min_le_right _ _) (by linarith)⟩
  refine (intervalIntegral.hasDerivAt_integral_of_dominated_loc_of_deriv_le (F := fun p θ => 1 / √(ellD p θ)) (F' := fun p θ => -(sin θ ^ 2 / √(ellD p θ) ^ 3) / 2)
    (s := Metric.ball p (p / 2)) (bound := fun _ => 1 / √c ^ 3 / 2) (Metric.ball_mem_nhds p (by linarith)) ?_ ?_ ?_ ?_ ?_ ?_).2
  · filter_upwards [Metric.ball_mem_nhds p (show 0 < p / 2 by linarith)] with x hx
    exact (Continuous.div continuous_const (continuous_sqrt_ellD x) (fun θ => sqrt_ellD_ne (hball x hx).1 θ)).aestronglyMeasurable
  · exact (Continuous.div continuous_const (continuous_sqrt_ellD p) (fun θ => sqrt_ellD_ne hp θ)).intervalIntegrable _ _
  · exact (((Continuous.div (by fun_prop) ((continuous_sqrt_ellD p).pow 3) (fun θ => pow_ne_zero _ (sqrt_ellD_ne hp θ)) :
      Continuous (fun θ => sin θ ^ 2 / √(ellD p θ) ^ 3)).neg).div_const 2).aestronglyMeasurable
  · refine Filter.Eventually.of_forall (fun θ _ x hx => ?_)
    obtain ⟨h0, h1⟩ := hball x hx
    have h2 : √c ≤ √(ellD x θ) := Real.sqrt_le_sqrt (ellD_ge (min_le_left _ _) h1 θ)
    have h3 : 0 < √c := Real.sqrt_pos.2 hc
    rw [norm_div, norm_neg, Real.norm_of_nonneg (div_nonneg (sq_nonneg _) (by positivity)), Real.norm_of_nonneg (by norm_num)]
    have h4 : sin θ ^ 2 ≤ 1 := by nlinarith [sin_sq_add_cos_sq θ, sq_nonneg (cos θ)]
    gcongr
  · exact continuous_const.intervalIntegrable _ _
  · refine Filter.Eventually.of_forall (fun θ _ x hx => ?_)
    obtain ⟨h0, h1⟩ := hball x hx
    have hD : HasDerivAt (fun x => ellD x θ) (sin θ ^ 2) x := by
      unfold ellD
      simpa using ((hasDerivAt_id x).mul_const (sin θ ^ 2)).const_add (cos θ ^ 2)
    have hs := sqrt_ellD_ne h0 θ
    have h2 := (hD.sqrt (ellD_pos h0 θ).ne').inv hs
    have h3 : (fun x => 1 / √(ellD x θ)) = (fun x => √(ellD x θ))⁻¹ := by ext; simp
    rw [h3]
    refine h2.congr_deriv ?_
    field_simp

/-- The derivative of the complete elliptic integral of the first kind. -/
theorem hasDerivAt_ellK {p : ℝ} (hp : 0 < p) (h1 : p ≠ 1) : HasDerivAt ellK (-(ellE p - p * ellK p) / (2 * p * (1 - p))) p := by
  refine (hasDerivAt_ellK' hp).congr_deriv ?_
  rw [intervalIntegral.integral_div, intervalIntegral.integral_neg, ← integral_sin_sq_cube hp]
  have : 1 - p ≠ 0 := fun h => h1 (by linarith)
  field_simp

theorem ellK_one : ellK 1 = π / 2 := by
  unfold ellK
  rw [integral_congr (g := fun _ => (1 : ℝ)) (fun θ _ => by simp)]
  simp

theorem ellE_one : ellE 1 = π / 2 := by
  unfold ellE
  rw [integral_congr (g := fun _ => (1 : ℝ)) (fun θ _ => by simp)]
  simp

end Traceon
