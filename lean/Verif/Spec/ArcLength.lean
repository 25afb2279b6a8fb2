import Verif.Spec.NotAKnot
import Mathlib.MeasureTheory.Integral.IntervalIntegral.Basic

/-!
# The arc length of a curve (specification)
-/
namespace Traceon.Spec

/-- The speed with which the parametrisation runs through the curve. -/
noncomputable def speed (F : ℝ → V3) (t : ℝ) : ℝ := √(deriv (fun u => (F u).x) t ^ 2 + deriv (fun u => (F u).y) t ^ 2 + deriv (fun u => (F u).z) t ^ 2)

/-- The length of the curve between the parameters zero and `u`. -/
noncomputable def arcLength (F : ℝ → V3) (u : ℝ) : ℝ := ∫ t in (0 : ℝ)..u, speed F t

/-- A curve with four continuous derivatives that nowhere stands still between the parameters zero and one. -/
structure RegularCurve (F : ℝ → V3) : Prop where
  x : ContDiff ℝ 4 (fun u => (F u).x)
  y : ContDiff ℝ 4 (fun u => (F u).y)
  z : ContDiff ℝ 4 (fun u => (F u).z)
  moves : ∀ t, 0 ≤ t → t ≤ 1 → 0 < speed F t

end Traceon.Spec
