import Verif.Model.Matrix3D
import Mathlib.Algebra.BigOperators.Group.Finset.Basic

/-!
# The boundary conditions which a row of the matrix has to express

`p` is the centre of an element. The potential at `p` and the component of the field along a normal at `p` are sums over the elements; for an element far
away what is counted is the potential or field of the field object which the solver returns (`potential3d`, `field3d`, the subjects of C38 and C43), for an
element nearby and for the element itself the integral over the triangle (`potential_triangle`, `flux_triangle`, the subjects of C55), divided by `4 π`.
-/
namespace Traceon.Spec

/-- The centre of mass of a triangle. -/
noncomputable def centroid (t : Tri3) : V3 :=
  ⟨(t.v0.x + t.v1.x + t.v2.x) / 3, (t.v0.y + t.v1.y + t.v2.y) / 3, (t.v0.z + t.v1.z + t.v2.z) / 3⟩

open Classical in
/-- The elements other than `i` which are more than five times the length of their first side away from the centre of element `i`. -/
noncomputable def farElements (n : Nat) (t : Nat → Tri3) (i : Nat) : List Nat :=
  (List.range n).filter fun j => i ≠ j ∧ 5 * V3.norm ((t j).v1 - (t j).v0) < V3.norm (centroid (t i) - (t j).v0)

open Classical in
/-- The remaining elements, among them `i`. -/
noncomputable def nearElements (n : Nat) (t : Nat → Tri3) (i : Nat) : List Nat :=
  (List.range n).filter fun j => ¬(i ≠ j ∧ 5 * V3.norm ((t j).v1 - (t j).v0) < V3.norm (centroid (t i) - (t j).v0))

/-- `φ` is the potential at the centre of element `i` for charges `q`. -/
def PotentialAtCentre (n : Nat) (t : Nat → Tri3) (q : Nat → ℝ) (i : Nat) (φ : ℝ) : Prop :=
  ∃ near : Nat → ℝ,
    (∀ j ∈ nearElements n t i, PotentialTriangleReturns (t j).v0 (t j).v1 (t j).v2 (centroid (t i)) (near j)) ∧
    φ = potential3d (centroid (t i)) (triCharges ((farElements n t i).map t) ((farElements n t i).map q)) +
      ((nearElements n t i).map fun j => q j * (near j / (4 * Real.pi))).sum

/-- `e` is the component along the normal of element `i` of the field that the other elements produce at its centre. -/
def NormalFieldAtCentre (n : Nat) (t : Nat → Tri3) (q : Nat → ℝ) (i : Nat) (e : ℝ) : Prop :=
  ∃ near : Nat → ℝ,
    (∀ j ∈ nearElements n t i, j ≠ i → FluxTriangleReturns (t j).v0 (t j).v1 (t j).v2 (centroid (t i)) (normal3d (t i).v0 (t i).v1 (t i).v2) (near j)) ∧
    e = V3.dot (normal3d (t i).v0 (t i).v1 (t i).v2)
        (field3d (centroid (t i)) (triCharges ((farElements n t i).map t) ((farElements n t i).map q))) +
      (((nearElements n t i).filter (· ≠ i)).map fun j => q j * (near j / (4 * Real.pi))).sum

/-- The interface condition at a surface with relative permittivity (permeability) `K` on the side away from the normal: with `e` the mean of the normal field on both
sides and `σ` the charge, the field is `e + σ/2` on the side of the normal and `e - σ/2` on the other. -/
def InterfaceCondition (K e σ : ℝ) : Prop := e + σ / 2 = K * (e - σ / 2)

end Traceon.Spec
