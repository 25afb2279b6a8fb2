import Verif.Props.EllipticAccuracy

/-!
# C75 for negative parameters
-/

namespace Traceon
open Real

/-- **C75** for negative parameters: the second elliptic integral is accurate there too (`ellipk` is not: its `sqrt(k)` has no value). -/
theorem C75_elliptic_negative {k : ℝ} (h : k < 0) :
    |ellipe k - ∫ θ in (0 : ℝ)..π / 2, √(1 - k * sin θ ^ 2)| ≤ 6e-13 * √(1 - k) := by
  have hp : 0 < 1 - k := by linarith
  have h2 := (C75_elliptic (p := 1 / (1 - k)) (by positivity) (by rw [div_le_one hp]; linarith)).2
  have e1 : ellipe k = ellipem1 (1 / (1 - k)) * √(1 - k) := by
    unfold ellipe
    rw [if_neg (by intro hh; linarith [hh.1]), show -1 / (k - 1) = 1 / (1 - k) by rw [← neg_div_neg_eq]; congr 1 <;> ring]
  have e2 : (∫ θ in (0 : ℝ)..π / 2, √(1 - k * sin θ ^ 2)) = (∫ θ in (0 : ℝ)..π / 2, √(cos θ ^ 2 + 1 / (1 - k) * sin θ ^ 2)) * √(1 - k) := by
    rw [← intervalIntegral.integral_mul_const]
    have := intervalIntegral.integral_comp_sub_left (a := (0 : ℝ)) (b := π / 2) (fun θ => √(cos θ ^ 2 + 1 / (1 - k) * sin θ ^ 2) * √(1 - k)) (π / 2)
    rw [sub_self, sub_zero] at this
    rw [← this]
    congr 1
    funext θ
    rw [← sqrt_mul' _ hp.le, cos_pi_div_two_sub, sin_pi_div_two_sub]
    congr 1
    field_simp
    have := sin_sq_add_cos_sq θ
    nlinarith
  rw [e1, e2, ← sub_mul, abs_mul, abs_of_nonneg (sqrt_nonneg (1 - k))]
  exact mul_le_mul_of_nonneg_right h2 (sqrt_nonneg _)
end Traceon
