import Verif.Model.Vec
import Mathlib.MeasureTheory.Integral.IntervalIntegral.Basic

/-!
# Potential and field of a uniformly charged triangle
-/
namespace Traceon.Spec

/-- The point of the triangle with coordinates `u`, `v` (`0 ≤ u`, `0 ≤ v`, `u + v ≤ 1`). -/
noncomputable def triPoint (v0 v1 v2 : V3) (u v : ℝ) : V3 := v0 + u * (v1 - v0) + v * (v2 - v0)

/-- The integral of a function over the surface of a triangle. -/
noncomputable def triIntegral (v0 v1 v2 : V3) (F : V3 → ℝ) : ℝ :=
  ∫ v in (0 : ℝ)..1, ∫ u in (0 : ℝ)..(1 - v),
    V3.norm (V3.cross (v1 - v0) (v2 - v0)) * F (triPoint v0 v1 v2 u v)

/-- `∫ 1/r`, which is `4 π ε₀` times the potential of a unit surface charge. -/
noncomputable def triPotential (v0 v1 v2 p : V3) : ℝ := triIntegral v0 v1 v2 fun s => 1 / V3.norm (p - s)

/-- `∫ n·(p - s)/r³`, which is `4 π ε₀` times the component along `n` of the field of a unit surface charge. -/
noncomputable def triFieldAlong (v0 v1 v2 p n : V3) : ℝ :=
  triIntegral v0 v1 v2 fun s => V3.dot n (p - s) / V3.norm (p - s) ^ 3

/-- The distance between `p` and any line that is parallel to the side `v0 v1` and meets the triangle is at least `d`. -/
def AwayFromLines (v0 v1 v2 p : V3) (d : ℝ) : Prop :=
  ∀ v : ℝ, 0 ≤ v → v ≤ 1 → ∀ t : ℝ, d ≤ V3.norm (p - triPoint v0 v1 v2 t v)

end Traceon.Spec
