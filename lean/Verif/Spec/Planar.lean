import Mathlib.Data.Real.Basic

/-!
# Triangles in the plane (specification)
-/
namespace Traceon
namespace Spec

/-- a triangle in the plane -/
abbrev Tri2 := (ℝ × ℝ) × (ℝ × ℝ) × (ℝ × ℝ)

/-- twice the signed area: positive for triangles that run counter-clockwise -/
def twiceArea (t : Tri2) : ℝ :=
  (t.2.1.1 - t.1.1) * (t.2.2.2 - t.1.2) - (t.2.1.2 - t.1.2) * (t.2.2.1 - t.1.1)

/-- the point is in the triangle (boundary included) -/
def InTri (p : ℝ × ℝ) (t : Tri2) : Prop :=
  ∃ x y z : ℝ, 0 ≤ x ∧ 0 ≤ y ∧ 0 ≤ z ∧ x + y + z = 1 ∧
    p.1 = x * t.1.1 + y * t.2.1.1 + z * t.2.2.1 ∧ p.2 = x * t.1.2 + y * t.2.1.2 + z * t.2.2.2

/-- the point is in the triangle, and not on its boundary -/
def StrictlyInTri (p : ℝ × ℝ) (t : Tri2) : Prop :=
  ∃ x y z : ℝ, 0 < x ∧ 0 < y ∧ 0 < z ∧ x + y + z = 1 ∧
    p.1 = x * t.1.1 + y * t.2.1.1 + z * t.2.2.1 ∧ p.2 = x * t.1.2 + y * t.2.1.2 + z * t.2.2.2

/-- The triangles tile the rectangle `[x0,x1] × [y0,y1]`: they all have the same orientation, lie in the rectangle, leave no
hole, do not overlap, and (which follows) their areas add up to that of the rectangle. -/
structure TilesRect (ts : List Tri2) (x0 x1 y0 y1 : ℝ) : Prop where
  orient : ∀ t ∈ ts, twiceArea t < 0
  inside : ∀ t ∈ ts, ∀ p, InTri p t → x0 ≤ p.1 ∧ p.1 ≤ x1 ∧ y0 ≤ p.2 ∧ p.2 ≤ y1
  cover : ∀ p : ℝ × ℝ, x0 ≤ p.1 → p.1 ≤ x1 → y0 ≤ p.2 → p.2 ≤ y1 → ∃ t ∈ ts, InTri p t
  disjoint : ts.Pairwise (fun t t' => ∀ p, ¬ (StrictlyInTri p t ∧ StrictlyInTri p t'))
  area : (ts.map twiceArea).sum = -2 * ((x1 - x0) * (y1 - y0))

end Spec
end Traceon
