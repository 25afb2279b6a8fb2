import Verif.Model.Path

/-!
# Model of the transformations of `GeometricObject` and of `traceon.geometry.Surface`

As for paths, `none` means that the code raises or computes NaN.  The average of a function along a
path is computed by `scipy.integrate.quad` (external); the average radius used by the revolve
methods is a parameter `rAvg`, and the theorems hold for every value of it that is not zero.
-/
namespace Traceon
open V3

/-! ## Transformations, mesher.py:45-133 -/

/-- mesher.py:45-64, the function mapped over the points by `move`. -/
def moveFn (d : V3) (p : V3) : Option V3 := some (p + d)

/-- a 3×3 matrix, as three rows [mesher.py:66-104] -/
structure Mat3 where
  r0 : V3
  r1 : V3
  r2 : V3

/-- `matrix @ v` [mesher.py:66-104] -/
def Mat3.apply (m : Mat3) (v : V3) : V3 := ⟨dot m.r0 v, dot m.r1 v, dot m.r2 v⟩

open Classical in
/-- mesher.py:87-102: the matrix, `none` if the local variable `matrix` is never assigned. -/
noncomputable def rotationMatrix (rx ry rz : ℝ) : Option Mat3 :=
  if rx ≠ 0 then some ⟨⟨1, 0, 0⟩, ⟨0, Real.cos rx, -Real.sin rx⟩, ⟨0, Real.sin rx, Real.cos rx⟩⟩
  else if ry ≠ 0 then some ⟨⟨Real.cos ry, 0, Real.sin ry⟩, ⟨0, 1, 0⟩, ⟨-Real.sin ry, 0, Real.cos ry⟩⟩
  else if rz ≠ 0 then some ⟨⟨Real.cos rz, -Real.sin rz, 0⟩, ⟨Real.sin rz, Real.cos rz, 0⟩, ⟨0, 0, 1⟩⟩
  else none

open Classical in
/-- mesher.py:83: at least two of the three angles are zero -/
noncomputable def oneAxis (rx ry rz : ℝ) : Bool :=
  decide ((if rx = 0 then 1 else 0) + (if ry = 0 then 1 else 0) + (if rz = 0 then 1 else 0) ≥ 2)

/-- mesher.py:104, the function mapped over the points by `rotate`: evaluating it without a matrix
raises a NameError. -/
noncomputable def rotateFn (rx ry rz : ℝ) (origin : V3) (p : V3) : Option V3 :=
  (rotationMatrix rx ry rz).map (fun m => origin + m.apply (p - origin))

/-- mesher.py:106-114 -/
def mirrorXZFn (p : V3) : Option V3 := some ⟨p.x, -p.y, p.z⟩
/-- mesher.py:116-123 -/
def mirrorYZFn (p : V3) : Option V3 := some ⟨-p.x, p.y, p.z⟩
/-- mesher.py:125-133 -/
def mirrorXYFn (p : V3) : Option V3 := some ⟨p.x, p.y, -p.z⟩

/-- mesher.py:66-104 on paths (`none`: the assertion of line 83 fails). -/
noncomputable def Path.rotate (p : Path) (rx ry rz : ℝ) (origin : V3 := 0) : Option Path :=
  if oneAxis rx ry rz then some (p.mapPoints (rotateFn rx ry rz origin)) else none

/-! ## Surfaces, geometry.py:825-1374 -/

/-- geometry.py:829-835 -/
structure Surface where
  func : ℝ → ℝ → Option V3
  length1 : ℝ
  length2 : ℝ
  breaks1 : List ℝ := []
  breaks2 : List ℝ := []
  name : Option String := none

namespace Surface

/-- geometry.py:862-865 -/
def mapPoints (f : V3 → Option V3) (s : Surface) : Surface :=
  { s with func := fun u v => (s.func u v).bind f }

/-- mesher.py:45-64 on surfaces -/
def move (s : Surface) (d : V3) : Surface := s.mapPoints (moveFn d)

/-- mesher.py:66-104 on surfaces -/
noncomputable def rotate (s : Surface) (rx ry rz : ℝ) (origin : V3 := 0) : Option Surface :=
  if oneAxis rx ry rz then some (s.mapPoints (rotateFn rx ry rz origin)) else none

end Surface

namespace Path

/-- geometry.py:409-430 -/
noncomputable def revolveX (p : Path) (rAvg angle : ℝ) : Surface :=
  let length2 := 2 * Real.pi * rAvg
  { func := fun u v => do
      let q ← p.func u
      let k ← safeDiv v length2
      let theta := atan2 q.z q.y
      let r := Real.sqrt (q.y ^ 2 + q.z ^ 2)
      return ⟨q.x, r * Real.cos (theta + k * angle), r * Real.sin (theta + k * angle)⟩
    length1 := p.length, length2 := length2, breaks1 := p.breaks, name := p.name }

/-- geometry.py:432-453 -/
noncomputable def revolveY (p : Path) (rAvg angle : ℝ) : Surface :=
  let length2 := 2 * Real.pi * rAvg
  { func := fun u v => do
      let q ← p.func u
      let k ← safeDiv v length2
      let theta := atan2 q.z q.x
      let r := Real.sqrt (q.x * q.x + q.z * q.z)
      return ⟨r * Real.cos (theta + k * angle), q.y, r * Real.sin (theta + k * angle)⟩
    length1 := p.length, length2 := length2, breaks1 := p.breaks, name := p.name }

/-- geometry.py:455-476 -/
noncomputable def revolveZ (p : Path) (rAvg angle : ℝ) : Surface :=
  let length2 := 2 * Real.pi * rAvg
  { func := fun u v => do
      let q ← p.func u
      let k ← safeDiv v length2
      let theta := atan2 q.y q.x
      let r := Real.sqrt (q.x * q.x + q.y * q.y)
      return ⟨r * Real.cos (theta + k * angle), r * Real.sin (theta + k * angle), q.z⟩
    length1 := p.length, length2 := length2, breaks1 := p.breaks, name := p.name }

/-- geometry.py:478-496 -/
noncomputable def extrude (p : Path) (vector : V3) : Surface :=
  { func := fun u v => do
      let q ← p.func u
      let k ← safeDiv v (V3.norm vector)
      return q + k * vector
    length1 := p.length, length2 := V3.norm vector, breaks1 := p.breaks, name := p.name }

/-- geometry.py:498-516 (`none`: the starting point of the second path cannot be computed). -/
noncomputable def extrudeByPath (p p2 : Path) : Option Surface := do
  let p0 ← p2.start
  return { func := fun u v => do return (← p.func u) + (← p2.func v) - p0
           length1 := p.length, length2 := p2.length, breaks1 := p.breaks, breaks2 := p2.breaks
           name := p.name }

end Path

namespace Surface

/-- geometry.py:867-897. The scaled breakpoints are NaN for a path of length zero; not modelled,
only paths of positive length are considered in the theorems. -/
noncomputable def spannedByPaths (p1 p2 : Path) : Option Surface := do
  let length1 := max p1.length p2.length
  let a1 ← p1.start
  let a2 ← p2.start
  let b1 ← p1.endpoint
  let b2 ← p2.endpoint
  let length2 := (V3.norm (a1 - a2) + V3.norm (b1 - b2)) / 2
  return { func := fun u v => do
             let r ← safeDiv u length1
             let q1 ← p1.func (r * p1.length)
             let q2 ← p2.func (r * p2.length)
             let k ← safeDiv v length2
             return (1 - k) * q1 + k * q2
           length1 := length1, length2 := length2
           breaks1 := pySorted (p1.breaks.map (fun b => length1 * b / p1.length) ++
             p2.breaks.map (fun b => length1 * b / p2.length)) }

/-- geometry.py:899-925 -/
noncomputable def sphere (radius : ℝ) : Surface :=
  { func := fun u v => do
      let phi ← safeDiv u radius
      let theta ← safeDiv v radius
      return ⟨radius * Real.sin theta * Real.cos phi, radius * Real.sin theta * Real.sin phi,
        radius * Real.cos theta⟩
    length1 := 2 * Real.pi * radius, length2 := Real.pi * radius }

/-- geometry.py:927-962, the three surfaces of the returned collection: top, bottom, side. -/
noncomputable def box (p0 p1 : V3) : Option (List Surface) := do
  let xmin := min p0.x p1.x; let ymin := min p0.y p1.y; let zmin := min p0.z p1.z
  let xmax := max p0.x p1.x; let ymax := max p0.y p1.y; let zmax := max p0.z p1.z
  let path1 := Path.line ⟨xmin, ymin, zmax⟩ ⟨xmax, ymin, zmax⟩
  let path2 := Path.line ⟨xmin, ymin, zmin⟩ ⟨xmax, ymin, zmin⟩
  let path3 := Path.line ⟨xmin, ymax, zmax⟩ ⟨xmax, ymax, zmax⟩
  let path4 := Path.line ⟨xmin, ymax, zmin⟩ ⟨xmax, ymax, zmin⟩
  let side ← (Path.line ⟨xmin, ymin, zmin⟩ ⟨xmax, ymin, zmin⟩).lineTo ⟨xmax, ymin, zmax⟩
  let side ← side.lineTo ⟨xmin, ymin, zmax⟩
  let side ← side.close
  let sideSurface := side.extrude ⟨0, ymax - ymin, 0⟩
  let top ← spannedByPaths path1 path2
  let bottom ← spannedByPaths path4 path3
  return [top, bottom, sideSurface]

/-- geometry.py:964-1007 (a path of length zero with breakpoints raises; not modelled). -/
noncomputable def fromBoundaryPaths (p1 p2 p3 p4 : Path) : Surface :=
  let l13 := (p1.length + p3.length) / 2
  let l24 := (p2.length + p4.length) / 2
  { func := fun u v => do
      let u ← safeDiv u l13
      let v ← safeDiv v l24
      let a := 1 - v
      let b := 1 - u
      let c := v
      let d := u
      let q1 ← p1.func (u * p1.length)
      let q4 ← p4.func ((1 - v) * p4.length)
      let q3 ← p3.func ((1 - u) * p3.length)
      let q2 ← p2.func (v * p2.length)
      return (1 / 2 : ℝ) * (a * q1 + b * q4 + c * q3 + d * q2)
    length1 := l13, length2 := l24
    breaks1 := pySorted (p1.breaks.map (fun b => b / p1.length * l13) ++ p3.breaks.map (fun b => b / p3.length * l13))
    breaks2 := pySorted (p2.breaks.map (fun b => b / p2.length * l24) ++ p4.breaks.map (fun b => b / p4.length * l24)) }

/-- geometry.py:1009-1026 -/
noncomputable def diskXZ (x0 z0 radius rAvg : ℝ) : Option Surface := open Classical in
  if radius > 0 then some (((Path.line 0 ⟨radius, 0, 0⟩).revolveY rAvg (2 * Real.pi)).move ⟨x0, 0, z0⟩) else none

/-- geometry.py:1028-1045 -/
noncomputable def diskYZ (y0 z0 radius rAvg : ℝ) : Option Surface := open Classical in
  if radius > 0 then some (((Path.line 0 ⟨0, radius, 0⟩).revolveX rAvg (2 * Real.pi)).move ⟨0, y0, z0⟩) else none

/-- geometry.py:1047-1064 -/
noncomputable def diskXY (x0 y0 radius rAvg : ℝ) : Option Surface := open Classical in
  if radius > 0 then some (((Path.line 0 ⟨radius, 0, 0⟩).revolveZ rAvg (2 * Real.pi)).move ⟨x0, y0, 0⟩) else none

/-- geometry.py:1066-1085 -/
noncomputable def rectangleXZ (xmin xmax zmin zmax : ℝ) : Surface :=
  (Path.line ⟨xmin, 0, zmin⟩ ⟨xmin, 0, zmax⟩).extrude ⟨xmax - xmin, 0, 0⟩

/-- geometry.py:1087-1106 -/
noncomputable def rectangleYZ (ymin ymax zmin zmax : ℝ) : Surface :=
  (Path.line ⟨0, ymin, zmin⟩ ⟨0, ymin, zmax⟩).extrude ⟨0, ymax - ymin, 0⟩

/-- geometry.py:1108-1127 -/
noncomputable def rectangleXY (xmin xmax ymin ymax : ℝ) : Surface :=
  (Path.line ⟨xmin, ymin, 0⟩ ⟨xmin, ymax, 0⟩).extrude ⟨xmax - xmin, 0, 0⟩

/-- geometry.py:1129-1131; `rAvg` is the average radius found by numerical integration in `revolve_z`. -/
noncomputable def aperture (height radius extent z rAvg : ℝ) : Option Surface :=
  (Path.aperture height radius extent z).map (fun p => p.revolveZ rAvg (2 * Real.pi))

/-- geometry.py:1145-1148: the four edges -/
noncomputable def edgePaths (s : Surface) : List Path :=
  [{ func := fun u => s.func u 0, length := s.length1, breaks := s.breaks1, name := s.name },
   { func := fun u => s.func u s.length2, length := s.length1, breaks := s.breaks1, name := s.name },
   { func := fun v => s.func 0 v, length := s.length2, breaks := s.breaks2, name := s.name },
   { func := fun v => s.func s.length1 v, length := s.length2, breaks := s.breaks2, name := s.name }]

/-- geometry.py:1133-1154 -/
noncomputable def boundaryPaths (s : Surface) : Option (List Path) := do
  let closed ← s.edgePaths.mapM (fun p => p.isClosed)
  if closed.any id then return compress closed s.edgePaths else return s.edgePaths

/-- geometry.py:1156-1179 (the members of the resulting collection; `self.move(*vector)`). -/
noncomputable def extrudeBoundary (s : Surface) (vector : V3) (enclose : Bool := true) : Option (List Surface) := do
  let b ← s.boundaryPaths
  let sides := b.map (fun p => p.extrude vector)
  return if enclose then [s] ++ sides ++ [s.move vector] else [s] ++ sides

/-- What `Path.extrude` (geometry.py:478-496) can be called with. -/
inductive ExtrudeArg where
  | vector (w : V3)
  | path (p : Path)

/-- geometry.py:478-496 for any argument. `np.array(path)` is a 0-dimensional array holding the Python object and
`np.linalg.norm` of it multiplies `Path` by `Path`, which `Path` does not define: TypeError. -/
noncomputable def _root_.Traceon.Path.extrudeArg (p : Path) : ExtrudeArg → Option Surface
  | .vector w => some (p.extrude w)
  | .path _ => none

/-- geometry.py:1181-1205. The sides are made by `boundary.extrude(path)` (line 1199), not by `extrude_by_path`. -/
noncomputable def extrudeBoundaryByPath (s : Surface) (path : Path) (enclose : Bool := true) : Option (List Surface) := do
  let b ← s.boundaryPaths
  let sides ← b.mapM (fun p => p.extrudeArg (.path path))
  if enclose then
    return [s] ++ sides ++ [s.move ((← path.endpoint) - (← path.start))]
  else return [s] ++ sides

open Classical in
/-- `np.isclose(angle, 2*pi, atol=1e-8)` [geometry.py:1225, 1248, 1271] -/
noncomputable def isFullTurn (angle : ℝ) : Bool :=
  decide (|angle - 2 * Real.pi| ≤ 1e-8 + 1e-5 * |2 * Real.pi|)

/-- geometry.py:1253-1274; `rAvg` gives the average radius of each boundary path. -/
noncomputable def revolveBoundaryZ (s : Surface) (rAvg : Path → ℝ) (angle : ℝ) (enclose : Bool := true) :
    Option (List Surface) := do
  let b ← s.boundaryPaths
  let sides := b.map (fun p => p.revolveZ (rAvg p) angle)
  if enclose && !isFullTurn angle then
    return [s] ++ sides ++ [← s.rotate 0 0 angle]
  else return [s] ++ sides

/-- geometry.py:1230-1251 -/
noncomputable def revolveBoundaryY (s : Surface) (rAvg : Path → ℝ) (angle : ℝ) (enclose : Bool := true) :
    Option (List Surface) := do
  let b ← s.boundaryPaths
  let sides := b.map (fun p => p.revolveY (rAvg p) angle)
  if enclose && !isFullTurn angle then
    return [s] ++ sides ++ [← s.rotate 0 angle 0]
  else return [s] ++ sides

/-- geometry.py:1207-1228 -/
noncomputable def revolveBoundaryX (s : Surface) (rAvg : Path → ℝ) (angle : ℝ) (enclose : Bool := true) :
    Option (List Surface) := do
  let b ← s.boundaryPaths
  let sides := b.map (fun p => p.revolveX (rAvg p) angle)
  if enclose && !isFullTurn angle then
    return [s] ++ sides ++ [← s.rotate angle 0 0]
  else return [s] ++ sides

/-- `zip(b[:-1], b[1:])` [used in geometry.py:837-842] -/
def pairs (l : List ℝ) : List (ℝ × ℝ) := l.zip l.tail

/-- geometry.py:837-845 -/
noncomputable def sections (s : Surface) : List Surface :=
  (pairs (0 :: s.breaks1 ++ [s.length1])).flatMap (fun uu =>
    (pairs (0 :: s.breaks2 ++ [s.length2])).map (fun vv =>
      { func := fun u v => s.func (uu.1 + u) (vv.1 + v), length1 := uu.2 - uu.1, length2 := vv.2 - vv.1 }))

end Surface
end Traceon
