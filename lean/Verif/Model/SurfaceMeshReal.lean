import Verif.Model.Surface
import Verif.Model.SurfaceMesh

/-!
# The surface mesher on surfaces with real coordinates
-/
namespace Traceon
open V3

/-- mesher.py:893-903 `index_to_point` for the section `s` (2**depth + 1 indices per direction). -/
noncomputable def Surface.gridPoint (s : Surface) (d i j : ℕ) : Option V3 :=
  s.func (s.length1 / (2 : ℝ) ^ d * i) (s.length2 / (2 : ℝ) ^ d * j)

/-- mesher.py:988, for corners `p1 = (i0, j0)`, `p2 = (i0, j1)`, `p3 = (i1, j0)`, `p4 = (i1, j1)` -/
noncomputable def horizontalSize (p1 p2 p3 p4 : V3) : ℝ := max (V3.norm (p1 - p2)) (V3.norm (p3 - p4))

/-- mesher.py:989 -/
noncomputable def verticalSize (p1 p2 p3 p4 : V3) : ℝ := max (V3.norm (p1 - p3)) (V3.norm (p2 - p4))

/-- mesher.py:991, where the mesh size is evaluated -/
noncomputable def quadCentre (p1 p2 p3 p4 : V3) : V3 := (1 / 4 : ℝ) * (p1 + p2 + p3 + p4)

open Classical in
/-- mesher.py:988-994: split horizontally, vertically? `size` is the mesh size function (a constant function if the
user gave a number). -/
noncomputable def splitReal (size : V3 → ℝ) (p1 p2 p3 p4 : V3) : Bool × Bool :=
  let hor := horizontalSize p1 p2 p3 p4
  let ver := verticalSize p1 p2 p3 p4
  let ms := size (quadCentre p1 p2 p3 p4)
  (decide (hor > ms ∨ (hor > 2.5 * ver ∧ hor > 1 / 8 * ms)), decide (ver > ms ∨ (ver > 2.5 * hor ∧ ver > 1 / 8 * ms)))

/-- mesher.py:1038-1071 `_mesh`, before the call of the constructor -/
noncomputable def Surface.rawMesh (s : Surface) (size : V3 → ℝ) (fuel : ℕ) (name : Option String) (start : ℕ := 2) :
    Option (Mesh V3) :=
  SMesh.rawMesh (splitReal size) fuel start (s.sections.map Surface.gridPoint) (s.breaks1.length + 1) (s.breaks2.length + 1) name

open Classical in
/-- geometry.py:1306-1313, the mesh size used when the user gives none. -/
noncomputable def Surface.meshSize (s : Surface) (meshSize : Option (V3 → ℝ)) (factor : Option ℝ) : V3 → ℝ :=
  meshSize.elim (fun _ => factor.elim (min s.length1 s.length2 / 4) (fun f => min s.length1 s.length2 / 4 / Real.sqrt f)) id

/-- geometry.py:1286-1315 `Surface.mesh` -/
noncomputable def Surface.mesh (G : Geo V3) (s : Surface) (fuel : ℕ) (meshSize : Option (V3 → ℝ)) (factor : Option ℝ)
    (name : Option String) (ensure : Bool) : Option (Mesh V3) := do
  Mesh.build G (← s.rawMesh (s.meshSize meshSize factor) fuel (name.or s.name)) ensure

end Traceon
