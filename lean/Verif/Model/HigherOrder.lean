import Verif.Model.Mesh
import Verif.Model.Vec

/-!
# Upgrade of straight lines to higher order, and curved line elements
-/
namespace Traceon
open V3

/-- The geometry of the upgrade: points at one third and two thirds of a segment
(mesher.py:513-514), and the test `y == 0` used by `is_2d` (mesher.py:449). -/
structure Thirds (P : Type) where
  one : P → P → P
  two : P → P → P
  yZero : P → Bool

namespace Mesh
variable {P : Type}

/-- mesher.py:512-514: the end points of one line (`v0, v1 = elements.T` raises if the number of
columns is not 2; an index out of range raises). -/
def lineEnds (pts : List P) : Elem → Option (P × P)
  | [a, b] => do return (← pts[a]?, ← pts[b]?)
  | _ => none

/-- mesher.py:507-526 -/
def linesToHigherOrder (t : Thirds P) (pts : List P) (lines : List Elem) : Option (List P × List Elem) := do
  let ends ← lines.mapM (lineEnds pts)
  let N := pts.length
  let Ne := lines.length
  return (pts ++ ends.map (fun e => t.one e.1 e.2) ++ ends.map (fun e => t.two e.1 e.2),
    lines.zipIdx.map (fun le => le.1 ++ [N + le.2, N + Ne + le.2]))

/-- mesher.py:529-544, the arguments passed to the constructor. -/
def higherOrderRaw (t : Thirds P) (m : Mesh P) : Option (Mesh P) :=
  if m.lines.isEmpty then some { m with lineCols := 4 }
  else if m.lineCols = 2 then do
    let (pts, lines) ← linesToHigherOrder t m.points m.lines
    return { m with points := pts, lineCols := 4, lines := lines }
  else if m.lineCols = 4 then some m else none

/-- mesher.py:529-544 `_to_higher_order_mesh` -/
def toHigherOrder (G : Geo P) (t : Thirds P) (m : Mesh P) : Option (Mesh P) := do
  build G (← higherOrderRaw t m)

/-- mesher.py:441-449 -/
def is2d (t : Thirds P) (m : Mesh P) : Bool := m.points.all t.yZero

/-- mesher.py `is_higher_order`: the lines have four columns. [mesher.py:193-199] -/
def isHigherOrder (m : Mesh P) : Bool := m.lineCols == 4

/-- solver.py:397-403, 416-417, 450-451: the mesh that is used for solving. -/
def solverMesh (G : Geo P) (t : Thirds P) (m : Mesh P) : Option (Mesh P) :=
  if m.is2d t && !m.isHigherOrder then toHigherOrder G t m else some m

/-- excitation.py:195-211: what `add_electrostatic_boundary(name)` does to the mesh
(and excitation.py:213-232, `add_magnetostatic_boundary`). -/
def addBoundary (G : Geo P) (name : String) (m : Mesh P) : Option (Mesh P) := ensureNormals G false name m

end Mesh

/-- mesher.py:513-514 and 449 in real arithmetic -/
noncomputable def realThirds : Thirds V3 where
  one p q := p + (1/3 : ℝ) * (q - p)
  two p q := p + (2/3 : ℝ) * (q - p)
  yZero p := by classical exact decide (p.y = 0)

/-! ## Curved line elements, backend/utilities_2d.c:31-66

A line `[l0, l1, l2, l3]` of a higher order mesh is passed to the C code as
`v1 = l0, v2 = l2, v3 = l3, v4 = l1` (solver.py, `backend.__init__`, radial.c:213-217).  Only x (index
0) and z (index 2) are used. -/

/-- utilities_2d.c:61-62, one coordinate of the position -/
noncomputable def curvePos1 (α v1 v2 v3 v4 : ℝ) : ℝ :=
  (α^2 * (9*v4 - 9*v3 - 9*v2 + 9*v1) + α^3 * (9*v4 - 27*v3 + 27*v2 - 9*v1) - v4
    + α * (-v4 + 27*v3 - 27*v2 + v1) + 9*v3 + 9*v2 - v1) / 16

/-- utilities_2d.c:42-43, one coordinate of the tangent (also inside the Jacobian, line 65) -/
noncomputable def curveTan1 (α v1 v2 v3 v4 : ℝ) : ℝ :=
  (2*α * (9*v4 - 9*v3 - 9*v2 + 9*v1) + 3*α^2 * (9*v4 - 27*v3 + 27*v2 - 9*v1) - v4 + 27*v3 - 27*v2 + v1) / 16

/-- utilities_2d.c:61-62 -/
noncomputable def curvePos (α : ℝ) (v1 v2 v3 v4 : V3) : ℝ × ℝ :=
  (curvePos1 α v1.x v2.x v3.x v4.x, curvePos1 α v1.z v2.z v3.z v4.z)

/-- utilities_2d.c:65 -/
noncomputable def curveJac (α : ℝ) (v1 v2 v3 v4 : V3) : ℝ :=
  1/16 * Real.sqrt (
    (2*α * (9*v4.z - 9*v3.z - 9*v2.z + 9*v1.z) + 3*α^2 * (9*v4.z - 27*v3.z + 27*v2.z - 9*v1.z)
      - v4.z + 27*v3.z - 27*v2.z + v1.z)^2 +
    (2*α * (9*v4.x - 9*v3.x - 9*v2.x + 9*v1.x) + 3*α^2 * (9*v4.x - 27*v3.x + 27*v2.x - 9*v1.x)
      - v4.x + 27*v3.x - 27*v2.x + v1.x)^2)

/-- utilities_2d.c:18-29 `normal_2d` -/
noncomputable def normal2d (p1 p2 : ℝ × ℝ) : ℝ × ℝ :=
  let tx := p2.1 - p1.1
  let ty := p2.2 - p1.2
  let len := Real.sqrt (ty * ty + (-tx) * (-tx))
  (ty / len, -tx / len)

/-- utilities_2d.c:31-48 `higher_order_normal_radial` -/
noncomputable def curveNormal (α : ℝ) (v1 v2 v3 v4 : V3) : ℝ × ℝ :=
  normal2d (0, 0) (curveTan1 α v1.x v2.x v3.x v4.x, curveTan1 α v1.z v2.z v3.z v4.z)

end Traceon
