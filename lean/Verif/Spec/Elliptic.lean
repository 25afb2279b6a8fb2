import Mathlib.MeasureTheory.Integral.IntervalIntegral.Basic
import Mathlib.Analysis.SpecialFunctions.Trigonometric.Basic

/-!
# Complete elliptic integrals (specification)

As functions of the complementary parameter `p = 1 - m`, which is the argument of `ellipkm1` and `ellipem1` in elliptic.c.
-/
namespace Traceon.Spec

/-- The complete elliptic integral of the first kind, `∫ (1 - m sin² θ)^(-1/2)`, with `1 - m sin² θ = cos² θ + p sin² θ`. -/
noncomputable def ellK (p : ℝ) : ℝ := ∫ θ in (0 : ℝ)..Real.pi / 2, 1 / Real.sqrt (Real.cos θ ^ 2 + p * Real.sin θ ^ 2)

/-- The complete elliptic integral of the second kind, `∫ (1 - m sin² θ)^(1/2)`. -/
noncomputable def ellE (p : ℝ) : ℝ := ∫ θ in (0 : ℝ)..Real.pi / 2, Real.sqrt (Real.cos θ ^ 2 + p * Real.sin θ ^ 2)

end Traceon.Spec
