import Verif.Spec.Planar
import Verif.Spec.Shape
import Verif.Props.Arcs
import Verif.Model.Surface

/-!
# Specification: meshes without cracks

A mesh of a surface has a crack if a corner of one triangle lies on an edge of another triangle without being one of its ends: on a
curved surface the two sides of such an edge do not meet.
-/
namespace Traceon.Spec

/-- the point lies on the segment between two others and is none of its ends -/
def Between2 (p q r : ℝ × ℝ) : Prop :=
  p ≠ q ∧ p ≠ r ∧ ∃ t : ℝ, 0 ≤ t ∧ t ≤ 1 ∧ p.1 = q.1 + t * (r.1 - q.1) ∧ p.2 = q.2 + t * (r.2 - q.2)

/-- the same in space -/
def Between3 (p q r : V3) : Prop := p ≠ q ∧ p ≠ r ∧ ∃ t : ℝ, 0 ≤ t ∧ t ≤ 1 ∧ p = q + t * (r - q)

/-- the three corners -/
def cornersOf (T : Tri2) : List (ℝ × ℝ) := [T.1, T.2.1, T.2.2]

/-- no corner of a triangle lies inside an edge of another (or the same) one -/
def Conforming2 (tris : List Tri2) : Prop :=
  ∀ T ∈ tris, ∀ T' ∈ tris, ∀ q ∈ cornersOf T, ∀ r ∈ cornersOf T, ∀ p ∈ cornersOf T', ¬ Between2 p q r

/-- the same for triangles in space, given by their corners -/
def Conforming3 (tris : List (List V3)) : Prop :=
  ∀ T ∈ tris, ∀ T' ∈ tris, ∀ q ∈ T, ∀ r ∈ T, ∀ p ∈ T', ¬ Between3 p q r

/-- Going the same distance along a parameter is going the same distance (as the crow flies) in space, wherever one starts. Flat surfaces with
straight parameter lines are like this, and cylinders. -/
structure Even (s : Surface) (fu fv : ℝ → ℝ) : Prop where
  first : ∀ u u' v p p', 0 ≤ u → u ≤ s.length1 → 0 ≤ u' → u' ≤ s.length1 → 0 ≤ v → v ≤ s.length2 → s.func u v = some p → s.func u' v = some p' →
    Spec.dist p p' = fu |u - u'|
  second : ∀ u v v' p p', 0 ≤ u → u ≤ s.length1 → 0 ≤ v → v ≤ s.length2 → 0 ≤ v' → v' ≤ s.length2 → s.func u v = some p → s.func u v' = some p' →
    Spec.dist p p' = fv |v - v'|

end Traceon.Spec
