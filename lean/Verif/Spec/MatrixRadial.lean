import Verif.Model.MatrixRadial
import Mathlib.Analysis.Calculus.Deriv.Basic

/-!
# The boundary conditions which a row of the matrix has to express, radial symmetry

The potential and the field which other elements produce at the centre of an element are those of the field object that the solver returns (`potentialRadial` and
`fieldRadial`, the subjects of C38, C58 and C68). For the element itself they are integrals along the element.
-/
namespace Traceon.Spec

/-- The curved element: the cubic curve with `l0`, `l2`, `l3`, `l1` at -1, -1/3, 1/3 and 1, in the form of Lagrange. -/
noncomputable def elemPoint (l : Line4) (α : ℝ) : V3 :=
  (-9 / 16 * ((α + 1 / 3) * (α - 1 / 3) * (α - 1))) * l.l0 + (27 / 16 * ((α + 1) * (α - 1 / 3) * (α - 1))) * l.l2 +
    (-27 / 16 * ((α + 1) * (α + 1 / 3) * (α - 1))) * l.l3 + (9 / 16 * ((α + 1) * (α + 1 / 3) * (α - 1 / 3))) * l.l1

/-- The tangent. -/
noncomputable def elemTangent (l : Line4) (α : ℝ) : V3 :=
  ⟨deriv (fun s => (elemPoint l s).x) α, deriv (fun s => (elemPoint l s).y) α, deriv (fun s => (elemPoint l s).z) α⟩

/-- The unit normal at the centre: the tangent, turned clockwise in the plane of x and z. -/
noncomputable def elemNormal (l : Line4) : V3 :=
  ⟨(elemTangent l 0).z / V3.norm (elemTangent l 0), 0, -(elemTangent l 0).x / V3.norm (elemTangent l 0)⟩

/-- The integral along the element with respect to arc length. -/
noncomputable def alongElem (l : Line4) (f : V3 → ℝ) : ℝ := ∫ α in (-1 : ℝ)..1, V3.norm (elemTangent l α) * f (elemPoint l α)

/-- The elements other than `i`. -/
def otherElements (n i : Nat) : List Nat := (List.range n).filter (· ≠ i)

/-- The field that the solver returns, with the charges of the elements other than `i`. -/
noncomputable def othersCharges (n : Nat) (l : Nat → Line4) (q : Nat → ℝ) (i : Nat) : EffCharges (ℝ × ℝ) :=
  lineCharges ((otherElements n i).map l) ((otherElements n i).map q)

/-- The potential at the centre of element `i` for charges `q`. -/
noncomputable def radialPotentialAtCentre (n : Nat) (l : Nat → Line4) (q : Nat → ℝ) (i : Nat) : ℝ :=
  potentialRadial (elemPoint (l i) 0) (othersCharges n l q i) +
    q i * alongElem (l i) fun p => potentialRadialRing (elemPoint (l i) 0).x (elemPoint (l i) 0).z p.x p.z

/-- The mean of the normal field on both sides of the centre of element `i`: the field of the other elements and the integral over the element itself. -/
noncomputable def radialNormalFieldAtCentre (n : Nat) (l : Nat → Line4) (q : Nat → ℝ) (i : Nat) : ℝ :=
  V3.dot (elemNormal (l i)) (fieldRadial (elemPoint (l i) 0) (othersCharges n l q i)) +
    q i * alongElem (l i) fun p => V3.dot (elemNormal (l i))
      ⟨-dr1PotentialRadialRing (elemPoint (l i) 0).x (elemPoint (l i) 0).z p.x p.z, 0, -dz1PotentialRadialRing (elemPoint (l i) 0).x (elemPoint (l i) 0).z p.x p.z⟩

/-- The line lies in the half plane `y = 0`, `x ≥ 0` (its centre does). -/
def InHalfPlane (l : Line4) : Prop := (l.l0.y = 0 ∧ l.l1.y = 0 ∧ l.l2.y = 0 ∧ l.l3.y = 0) ∧ 0 ≤ (elemPoint l 0).x

end Traceon.Spec
