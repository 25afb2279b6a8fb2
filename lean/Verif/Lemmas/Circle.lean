import Verif.Lemmas.Elliptic
import Verif.Model.Vec
import Mathlib.MeasureTheory.Integral.IntervalIntegral.Periodic
import Mathlib.Analysis.SpecialFunctions.Complex.Arg

/-!
# Integrals over a circle
-/
namespace Traceon
open Real Spec MeasureTheory

theorem circle_reflect (F : ℝ → ℝ) : ∫ φ in (0 : ℝ)..2 * π, F (2 * π - φ) = ∫ φ in (0 : ℝ)..2 * π, F φ := by
  rw [intervalIntegral.integral_comp_sub_left]; simp

/-- Half of the circle. -/
theorem circle_half (g : ℝ → ℝ) (hg : Continuous (fun φ => g (cos φ))) :
    ∫ φ in (0 : ℝ)..2 * π, g (cos φ) = 2 * ∫ φ in (0 : ℝ)..π, g (cos φ) := by
  rw [← intervalIntegral.integral_add_adjacent_intervals (hg.intervalIntegrable 0 π) (hg.intervalIntegrable π (2 * π))]
  have h : ∫ φ in π..2 * π, g (cos φ) = ∫ φ in (0 : ℝ)..π, g (cos φ) := by
    have := intervalIntegral.integral_comp_sub_left (a := 0) (b := π) (fun φ => g (cos φ)) (2 * π)
    simp only [Real.cos_two_pi_sub] at this
    rw [this]; congr 1 <;> ring
  rw [h]; ring

/-- A quarter of the circle. -/
theorem circle_quarter (g : ℝ → ℝ) (hg : Continuous (fun φ => g (cos φ))) :
    ∫ φ in (0 : ℝ)..2 * π, g (cos φ) = 4 * ∫ θ in (0 : ℝ)..π / 2, g (2 * sin θ ^ 2 - 1) := by
  rw [circle_half g hg]
  have h := intervalIntegral.integral_comp_sub_mul (a := 0) (b := π / 2) (fun φ => g (cos φ)) (c := 2) two_ne_zero π
  have h2 : ∀ θ, cos (π - 2 * θ) = 2 * sin θ ^ 2 - 1 := by
    intro θ; rw [Real.cos_pi_sub, Real.cos_two_mul, Real.cos_sq']; ring
  simp only [h2] at h
  rw [h, show π - 2 * (π / 2) = 0 by ring, show π - 2 * 0 = π by ring, smul_eq_mul]
  ring

/-- Odd parts vanish. -/
theorem circle_odd (g : ℝ → ℝ) : ∫ φ in (0 : ℝ)..2 * π, sin φ * g (cos φ) = 0 := by
  have h := circle_reflect (fun φ => sin φ * g (cos φ))
  simp only [Real.cos_two_pi_sub, Real.sin_two_pi_sub] at h
  rw [intervalIntegral.integral_congr (g := fun φ => -(sin φ * g (cos φ))) (fun φ _ => by ring), intervalIntegral.integral_neg] at h
  linarith

/-- Rotating the circle. -/
theorem circle_shift (F : ℝ → ℝ) (hF : Function.Periodic F (2 * π)) (α : ℝ) : ∫ φ in (0 : ℝ)..2 * π, F (φ - α) = ∫ φ in (0 : ℝ)..2 * π, F φ := by
  rw [intervalIntegral.integral_comp_sub_right]
  have := hF.intervalIntegral_add_eq (0 - α) 0
  rw [zero_add] at this
  rw [← this]; congr 1; ring

/-- Polar coordinates. -/
theorem exists_polar2d (x y : ℝ) : ∃ α, x = √(x * x + y * y) * cos α ∧ y = √(x * x + y * y) * sin α := by
  refine ⟨Complex.arg ⟨x, y⟩, ?_, ?_⟩
  · have := Complex.norm_mul_cos_arg ⟨x, y⟩
    rw [Complex.norm_def, Complex.normSq_mk] at this
    exact this.symm
  · have := Complex.norm_mul_sin_arg ⟨x, y⟩
    rw [Complex.norm_def, Complex.normSq_mk] at this
    exact this.symm

end Traceon
