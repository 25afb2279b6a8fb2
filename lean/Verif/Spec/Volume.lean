import Verif.Spec.Orient
import Verif.Model.Vec

/-!
# Specification: enclosed volume and enclosed area
-/
namespace Traceon.Spec
open V3

/-- Corner number `k` of an element. -/
noncomputable def corner (pts : List V3) (e : List Nat) (k : Nat) : V3 := (pts[e.getD k 0]?).getD 0

/-- Six times the signed volume of the tetrahedron spanned by the origin and a triangle. -/
noncomputable def det3 (a b c : V3) : ℝ := dot a (cross b c)

/-- The signed volume enclosed by a surface (positive if the normals point outward). -/
noncomputable def signedVolume (pts : List V3) (tris : List (List Nat)) : ℝ :=
  (tris.map (fun t => det3 (corner pts t 0) (corner pts t 1) (corner pts t 2) / 6)).sum

/-- The directed edges of a triangle. -/
def dirEdges (t : List Nat) : List (Nat × Nat) :=
  [(t.getD 0 0, t.getD 1 0), (t.getD 1 0, t.getD 2 0), (t.getD 2 0, t.getD 0 0)]

/-- A closed surface: every directed edge is traversed equally often in both directions. -/
def ClosedSurface (tris : List (List Nat)) : Prop :=
  (tris.flatMap dirEdges).Perm ((tris.flatMap dirEdges).map Prod.swap)

/-- The signed area enclosed by a curve in the (x, z)-plane (shoelace formula; positive if the curve
is traversed anti-clockwise). -/
noncomputable def signedArea (pts : List V3) (ls : List (List Nat)) : ℝ :=
  (ls.map (fun l => ((corner pts l 0).x * (corner pts l 1).z - (corner pts l 1).x * (corner pts l 0).z) / 2)).sum

open Classical in
/-- A curve that is closed, possibly after adding pieces of the axis x = 0: away from the axis every
vertex is as often an end as a start. -/
def ClosedCurve (pts : List V3) (ls : List (List Nat)) : Prop :=
  ((ls.map (fun l => l.getD 0 0)).filter (fun v => decide (((pts[v]?).getD 0).x ≠ 0))).Perm
    ((ls.map (fun l => l.getD 1 0)).filter (fun v => decide (((pts[v]?).getD 0).x ≠ 0)))

end Traceon.Spec
