import Verif.Spec.Vacuum
import Mathlib.MeasureTheory.Integral.IntervalIntegral.Basic

/-!
# Specification for C117: the circulation around a rectangle in the plane of the mesh
-/
namespace Traceon.Spec
open MeasureTheory

/-- The line integral of the vector field `H` around the rectangle `x₁ ≤ x ≤ x₂`, `z₁ ≤ z ≤ z₂` of the plane `y = 0`, in the direction that goes with the direction of positive `y`: up along the side
`x = x₁`, outward along the side `z = z₂`, down along `x = x₂` and back along `z = z₁`. -/
noncomputable def circulation (H : V3 → V3) (x₁ x₂ z₁ z₂ : ℝ) : ℝ :=
  (∫ z in z₁..z₂, (H ⟨x₁, 0, z⟩).z) + (∫ x in x₁..x₂, (H ⟨x, 0, z₂⟩).x) - (∫ z in z₁..z₂, (H ⟨x₂, 0, z⟩).z) - ∫ x in x₁..x₂, (H ⟨x, 0, z₁⟩).x

/-- `p` is inside the rectangle. -/
def InRectangle (x₁ x₂ z₁ z₂ : ℝ) (p : V3) : Prop := x₁ < p.x ∧ p.x < x₂ ∧ z₁ < p.z ∧ p.z < z₂

/-- `p` is outside the rectangle (and not on its boundary). -/
def OutRectangle (x₁ x₂ z₁ z₂ : ℝ) (p : V3) : Prop := p.x < x₁ ∨ x₂ < p.x ∨ p.z < z₁ ∨ z₂ < p.z

end Traceon.Spec
