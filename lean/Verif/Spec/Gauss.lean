import Verif.Model.Vec
import Verif.Model.Mesh
import Mathlib.MeasureTheory.Integral.IntervalIntegral.Basic

/-!
# The flux out of a box (specification of C107)
-/
namespace Traceon.Spec
open MeasureTheory

/-- The flux of the vector field `E` out of the box with the corners `a` and `b`: over each of the six faces, the component of `E` along the outward normal is integrated. -/
noncomputable def boxFlux (E : V3 → V3) (a b : V3) : ℝ :=
  (∫ y in a.y..b.y, ∫ z in a.z..b.z, (E ⟨b.x, y, z⟩).x) - (∫ y in a.y..b.y, ∫ z in a.z..b.z, (E ⟨a.x, y, z⟩).x) +
  ((∫ x in a.x..b.x, ∫ z in a.z..b.z, (E ⟨x, b.y, z⟩).y) - ∫ x in a.x..b.x, ∫ z in a.z..b.z, (E ⟨x, a.y, z⟩).y) +
  ((∫ x in a.x..b.x, ∫ y in a.y..b.y, (E ⟨x, y, b.z⟩).z) - ∫ x in a.x..b.x, ∫ y in a.y..b.y, (E ⟨x, y, a.z⟩).z)

/-- `p` is inside the box. -/
def InsideBox (a b p : V3) : Prop := (a.x < p.x ∧ p.x < b.x) ∧ (a.y < p.y ∧ p.y < b.y) ∧ (a.z < p.z ∧ p.z < b.z)

/-- `p` is outside the box (and not on its surface). -/
def OutsideBox (a b p : V3) : Prop := (p.x < a.x ∨ b.x < p.x) ∨ (p.y < a.y ∨ b.y < p.y) ∨ (p.z < a.z ∨ b.z < p.z)

/-- Every corner of triangle `i` of the mesh satisfies `P`. -/
def Corners (m : Mesh V3) (i : Nat) (P : V3 → Prop) : Prop := ∀ t, m.triangles[i]? = some t → ∀ j ∈ t, ∀ p, m.points[j]? = some p → P p

/-- Triangle `i` of the mesh is on the far side of one of the planes of the six faces of the box. -/
def BeyondFace (m : Mesh V3) (a b : V3) (i : Nat) : Prop :=
  Corners m i (fun p => p.x < a.x) ∨ Corners m i (fun p => b.x < p.x) ∨ Corners m i (fun p => p.y < a.y) ∨ Corners m i (fun p => b.y < p.y) ∨ Corners m i (fun p => p.z < a.z) ∨
    Corners m i (fun p => b.z < p.z)

end Traceon.Spec
