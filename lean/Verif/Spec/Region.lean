import Verif.Model.Vec
import Mathlib.Topology.MetricSpace.ProperSpace.Real

/-!
# Regions of space
-/
namespace Traceon.Spec

/-- The vector with the given coordinates. -/
def pt (v : ℝ × ℝ × ℝ) : V3 := ⟨v.1, v.2.1, v.2.2⟩

/-- At every point of the region `K`, the values of `φ` lie between two values that `φ` takes on the boundary of the region. -/
def ExtremesOnBoundary (K : Set (ℝ × ℝ × ℝ)) (φ : V3 → ℝ) : Prop :=
  ∀ p ∈ K, ∃ a ∈ frontier K, ∃ b ∈ frontier K, φ (pt a) ≤ φ (pt p) ∧ φ (pt p) ≤ φ (pt b)

end Traceon.Spec
