import Verif.Model.Charges
import Verif.Model.Excitation

/-!
# Model of `fill_jacobian_buffer_3d` (tracing.c:252-281) and of `get_current_charges` (solver.py:270-305)
-/
namespace Traceon

/-- A triangle as three points. [`vertices_3d`, three_d.c:16; solver.py:274-305] -/
structure Tri3 where
  v0 : V3
  v1 : V3
  v2 : V3

/-- utilities_3d.c:8-46: `QUAD_WEIGHTS`, `QUAD_B1`, `QUAD_B2`, one triple per quadrature point. -/
noncomputable def quadRule : List (ℝ × ℝ × ℝ) :=
  [(0.0254224531851035, 0.873821971016996, 0.063089014491502),
   (0.0254224531851035, 0.063089014491502, 0.873821971016996),
   (0.0254224531851035, 0.063089014491502, 0.063089014491502),
   (0.0583931378631895, 0.501426509658179, 0.249286745170910),
   (0.0583931378631895, 0.249286745170910, 0.501426509658179),
   (0.0583931378631895, 0.249286745170910, 0.249286745170910),
   (0.041425537809187, 0.636502499121399, 0.310352451033785),
   (0.041425537809187, 0.636502499121399, 0.053145049844816),
   (0.041425537809187, 0.310352451033785, 0.636502499121399),
   (0.041425537809187, 0.310352451033785, 0.053145049844816),
   (0.041425537809187, 0.053145049844816, 0.636502499121399),
   (0.041425537809187, 0.053145049844816, 0.310352451033785)]

/-- tracing.c:264-267 -/
noncomputable def triArea (t : Tri3) : ℝ :=
  0.5 * Real.sqrt (
    ((t.v1.y - t.v0.y) * (t.v2.z - t.v0.z) - (t.v2.y - t.v0.y) * (t.v1.z - t.v0.z)) ^ 2 +
    ((t.v2.x - t.v0.x) * (t.v1.z - t.v0.z) - (t.v1.x - t.v0.x) * (t.v2.z - t.v0.z)) ^ 2 +
    ((t.v1.x - t.v0.x) * (t.v2.y - t.v0.y) - (t.v2.x - t.v0.x) * (t.v1.y - t.v0.y)) ^ 2)

/-- tracing.c:269-274, one row of `jacobian_buffer` -/
noncomputable def jacRow (t : Tri3) : List ℝ := quadRule.map (fun q => 2 * q.1 * triArea t)

/-- tracing.c:275-277, one row of `pos_buffer` -/
noncomputable def posRow (t : Tri3) : List V3 := quadRule.map (fun q =>
  ⟨t.v0.x + q.2.1 * (t.v1.x - t.v0.x) + q.2.2 * (t.v2.x - t.v0.x),
   t.v0.y + q.2.1 * (t.v1.y - t.v0.y) + q.2.2 * (t.v2.y - t.v0.y),
   t.v0.z + q.2.1 * (t.v1.z - t.v0.z) + q.2.2 * (t.v2.z - t.v0.z)⟩)

/-- `points[triangle]`; `none` is an IndexError or a wrong shape (assertion of backend/__init__.py:586). -/
def triVerts (pts : List V3) (t : Elem) : Option Tri3 :=
  match t with
  | [a, b, c] => do return ⟨← pts[a]?, ← pts[b]?, ← pts[c]?⟩
  | _ => none

namespace Excitation

/-- The body of the loop of solver.py:283-299; the state consists of the lists `currents`, `jacobians`, `positions`. A value that is not a number raises
in the division of line 297 (before anything is appended). If all jacobians are zero the code divides by zero; see the hypothesis of `C41_total_current`. -/
noncomputable def currentStep (x : Excitation ℝ V3) (jac : List (List ℝ)) (pos : List (List V3))
    (s : List ℝ × List (List ℝ) × List (List V3)) (nv : String × ExcType × ExcVal ℝ V3) :
    Option (List ℝ × List (List ℝ) × List (List V3)) :=
  if nv.2.1 = .current ∧ x.mesh.physTris.has nv.1 then do
    let indices ← x.mesh.physTris.get nv.1
    if indices = [] then return s
    let j ← gather jac indices
    let p ← gather pos indices
    let area := (j.map List.sum).sum
    match nv.2.2 with
    | .num v => return (s.1 ++ List.replicate indices.length (v / area), s.2.1 ++ j, s.2.2 ++ p)
    | _ => none
  else return s

/-- solver.py:270-305, `MagnetostaticSolver.get_current_charges` -/
noncomputable def currentCharges (x : Excitation ℝ V3) : Option (EffCharges V3) :=
  if x.mesh.triangles = [] ∨ ¬x.hasCurrent then some .empty3d
  else do
    let verts ← x.mesh.triangles.mapM (triVerts x.mesh.points)
    let jac := verts.map jacRow
    let pos := verts.map posRow
    let (c, j, p) ← x.types.foldlM (x.currentStep jac pos) ([], [], [])
    if c = [] then some .empty3d else EffCharges.new 12 c j p

end Excitation
end Traceon
