import Verif.Model.GroupCharge
import Verif.Spec.SolveField
import Verif.Spec.Quadrature

/-!
# The charge on a physical group
-/
namespace Traceon.Spec

/-- The area of triangle number `i` of the mesh. -/
noncomputable def meshTriArea (m : Mesh V3) (i : Nat) : ℝ :=
  match (m.triangles[i]?).bind (triVerts m.points) with
  | some t => triIntegral t.v0 t.v1 t.v2 fun _ => 1
  | none => 0

/-- The potential at `p` of a uniform unit charge on triangle number `i` of the mesh, as summed over the 12 points of the triangle (for its accuracy see C76). -/
noncomputable def meshTriPotential (m : Mesh V3) (p : V3) (i : Nat) : ℝ :=
  match (m.triangles[i]?).bind (triVerts m.points) with
  | some t => sumOver t fun q => 1 / (4 * Real.pi * V3.norm (q - p))
  | none => 0

/-- Line number `i` of the (higher order) mesh. -/
def meshLine (m : Mesh V3) (i : Nat) : Option Line4 :=
  match m.lines[i]? with
  | some [a, b, c, d] => do return ⟨← m.points[a]?, ← m.points[b]?, ← m.points[c]?, ← m.points[d]?⟩
  | _ => none

/-- The area swept out by line number `i` around the axis, as summed over the 16 points of the line (exact for straight lines, for curved ones see C73 and C76). -/
noncomputable def meshLineArea (m : Mesh V3) (i : Nat) : ℝ :=
  match meshLine m i with
  | some l => 2 * Real.pi * sumAlong l fun p => p.1
  | none => 0

/-- The potential at `p` of a uniform unit charge on the surface swept out by line number `i` of the mesh, as summed over the 16 rings. -/
noncomputable def meshLinePotential (m : Mesh V3) (p : V3) (i : Nat) : ℝ :=
  match meshLine m i with
  | some l => sumAlong l fun q => potentialRadialRing (norm2d p.x p.y) p.z q.1 q.2
  | none => 0

end Traceon.Spec
