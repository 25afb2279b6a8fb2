import Verif.Model.Vec
import Verif.Model.RealGeo
import Mathlib.Analysis.SpecialFunctions.Complex.Arg
import Mathlib.Algebra.Order.Floor.Ring
import Mathlib.Algebra.Order.Archimedean.Real.Basic

/-!
# Model of `traceon.geometry.Path` in exact real arithmetic

A path function returns an `Option`: `none` means that the call raises (an assertion fails) or
that the code would compute NaN (division by a length that is zero).  `atan2 y x` is the argument
of the complex number `x + iy`.
-/
namespace Traceon
open V3

/-- geometry.py:71-80, the attributes of a `Path`. -/
structure Path where
  func : ℝ → Option V3
  length : ℝ
  breaks : List ℝ := []
  name : Option String := none

/-- A division that gives NaN (or raises) for a zero denominator. [the divisions by lengths in geometry.py:53-700, 825-1270] -/
noncomputable def safeDiv (a b : ℝ) : Option ℝ := open Classical in if b = 0 then none else some (a / b)

/-- `math.atan2(y, x)` [used in geometry.py:396, 426, 449, 472] -/
noncomputable def atan2 (y x : ℝ) : ℝ := Complex.arg ⟨x, y⟩

/-- Python's `a % b` for a positive `b`. [used in geometry.py:202-204] -/
noncomputable def pyMod (a b : ℝ) : ℝ := a - b * ⌊a / b⌋

open Classical in
/-- Python's `sorted` on numbers. [used in geometry.py:204, 894, 1002-1004] -/
noncomputable def pySorted (l : List ℝ) : List ℝ := stableSort (fun a b => decide (a ≤ b)) l

open Classical in
/-- geometry.py:34-35: `np.allclose(p1, p2, atol=1e-8)` with numpy's default `rtol=1e-5`. -/
noncomputable def pointsClose (p q : V3) : Bool :=
  decide (|p.x - q.x| ≤ 1e-8 + 1e-5 * |q.x| ∧ |p.y - q.y| ≤ 1e-8 + 1e-5 * |q.y| ∧
    |p.z - q.z| ≤ 1e-8 + 1e-5 * |q.z|)

/-! ## discretize_path, geometry.py:37-68 -/

/-- geometry.py:52-55, the number of elements of a section. `none`: neither mesh size is given
(line 38), or division by zero. The mesh size factor is a whole number (`np.linspace` needs
one). -/
noncomputable def sectionCount (meshSize : Option ℝ) (factor : Option ℤ) (u0 u1 : ℝ) : Option ℕ :=
  match meshSize, factor with
  | some h, _ => (safeDiv (u1 - u0) h).map (fun q => (max ⌈q⌉ 3).toNat)
  | none, some k => some (3 * (max k 1).toNat)
  | none, none => none

/-- `np.linspace(u0, u1, n, endpoint=False)` [used in geometry.py:64] -/
noncomputable def linspaceOpen (u0 u1 : ℝ) (n : ℕ) : List ℝ :=
  (List.range n).map (fun k : ℕ => u0 + (k : ℝ) * ((u1 - u0) / n))

open Classical in
/-- geometry.py:47-64, the loop over the consecutive pairs. -/
noncomputable def discretizeLoop (meshSize : Option ℝ) (factor : Option ℤ) (nFactor : ℕ) :
    List ℝ → Option (List ℝ)
  | u0 :: u1 :: rest => do
      let tail ← discretizeLoop meshSize factor nFactor (u1 :: rest)
      if u0 = u1 then return tail
      let n ← sectionCount meshSize factor u0 u1
      return linspaceOpen u0 u1 (nFactor * n) ++ tail
  | _ => some []

/-- geometry.py:37-68 `discretize_path` -/
noncomputable def discretizePath (length : ℝ) (breaks : List ℝ) (meshSize : Option ℝ)
    (factor : Option ℤ) (nFactor : ℕ) : Option (List ℝ) :=
  if meshSize.isNone && factor.isNone then none else do
    let l ← discretizeLoop meshSize factor nFactor (0 :: breaks ++ [length])
    return l ++ [length]

namespace Path

/-- geometry.py:148-161 `map_points`. The function may itself raise. -/
def mapPoints (f : V3 → Option V3) (p : Path) : Path :=
  { p with func := fun u => (p.func u).bind f }

/-- geometry.py:236-244 -/
def start (p : Path) : Option V3 := p.func 0

/-- geometry.py:256-264 -/
def endpoint (p : Path) : Option V3 := p.func p.length

/-- geometry.py:246-254 -/
noncomputable def middle (p : Path) : Option V3 := p.func (p.length / 2)

/-- geometry.py:178-184 -/
noncomputable def isClosed (p : Path) : Option Bool := do
  return pointsClose (← p.start) (← p.endpoint)

/-- geometry.py:186-204 -/
noncomputable def addPhase (p : Path) (l : ℝ) : Option Path := do
  if !(← p.isClosed) then none
  return { func := fun u => open Classical in if p.length = 0 then none else p.func (pyMod (l + u) p.length)
           length := p.length
           breaks := pySorted ((p.breaks ++ [0]).map (fun b => pyMod (b - l) p.length))
           name := p.name }

open Classical in
/-- geometry.py:206-234, `self >> other` -/
noncomputable def join (p q : Path) : Option Path := do
  if !(pointsClose (← p.endpoint) (← q.start)) then none
  let total := p.length + q.length
  return { func := fun t =>
             if 0 ≤ t ∧ t ≤ total then
               if t ≤ p.length then p.func t else q.func (t - p.length)
             else none
           length := total
           breaks := p.breaks ++ [p.length] ++ q.breaks
           name := p.name }

/-- geometry.py:549-564 -/
noncomputable def line (a b : V3) : Path :=
  let l := norm (a - b)
  { func := fun s => (safeDiv s l).map (fun r => (1 - r) * a + r * b)
    length := l }

/-- geometry.py:266-281 -/
noncomputable def lineTo (p : Path) (b : V3) : Option Path := do
  p.join (line (← p.endpoint) b)

/-- geometry.py:518-524 -/
noncomputable def close (p : Path) : Option Path := do
  p.lineTo (← p.start)

/-- geometry.py:370-407. `none` in `func` when a unit vector or the angle per length is NaN. -/
noncomputable def arc (center start stop : V3) (reverse : Bool := false) : Path :=
  let xv := start - center
  let vector := stop - center
  let xu := unit xv
  let yv := vector - (dot vector xu) * xu
  let yu := unit yv
  let radius := norm (start - center)
  let theta := if reverse then atan2 (dot vector yu) (dot vector xu) - 2 * Real.pi
    else atan2 (dot vector yu) (dot vector xu)
  let len := |theta * radius|
  { func := fun l => open Classical in if xv = 0 ∨ yv = 0 then none else
      (safeDiv l len).map (fun r => center + (radius * Real.cos (r * theta)) * xu
        + (radius * Real.sin (r * theta)) * yu)
    length := len }

/-- geometry.py:352-367 -/
noncomputable def arcTo (p : Path) (center stop : V3) (reverse : Bool := false) : Option Path := do
  p.join (arc center (← p.endpoint) stop reverse)

/-- mesher.py:45-64 on paths -/
def move (p : Path) (d : V3) : Path := p.mapPoints (fun q => some (q + d))

/-- geometry.py:283-304 -/
noncomputable def circleXZ (x0 z0 radius angle : ℝ) : Path :=
  move { func := fun u => (safeDiv u radius).map (fun t =>
           ⟨radius * Real.cos t, 0, radius * Real.sin t⟩)
         length := angle * radius } ⟨x0, 0, z0⟩

/-- geometry.py:306-327 -/
noncomputable def circleYZ (y0 z0 radius angle : ℝ) : Path :=
  move { func := fun u => (safeDiv u radius).map (fun t =>
           ⟨0, radius * Real.cos t, radius * Real.sin t⟩)
         length := angle * radius } ⟨0, y0, z0⟩

/-- geometry.py:329-350 -/
noncomputable def circleXY (x0 y0 radius angle : ℝ) : Path :=
  move { func := fun u => (safeDiv u radius).map (fun t =>
           ⟨radius * Real.cos t, radius * Real.sin t, 0⟩)
         length := angle * radius } ⟨x0, y0, 0⟩

open Classical in
/-- geometry.py:566-580 -/
noncomputable def cut (p : Path) (l : ℝ) : Path × Path :=
  ({ func := p.func, length := l, breaks := p.breaks.filter (fun b => b ≤ l), name := p.name },
   { func := fun s => p.func (s + l), length := p.length - l,
     breaks := (p.breaks.filter (fun b => b ≥ l)).map (· - l), name := p.name })

/-- geometry.py:582-602 -/
noncomputable def rectangleXZ (xmin xmax zmin zmax : ℝ) : Option Path := do
  let p ← (line ⟨xmin, 0, zmin⟩ ⟨xmax, 0, zmin⟩).lineTo ⟨xmax, 0, zmax⟩
  let p ← p.lineTo ⟨xmin, 0, zmax⟩
  p.close

/-- geometry.py:604-625 -/
noncomputable def rectangleYZ (ymin ymax zmin zmax : ℝ) : Option Path := do
  let p ← (line ⟨0, ymin, zmin⟩ ⟨0, ymin, zmax⟩).lineTo ⟨0, ymax, zmax⟩
  let p ← p.lineTo ⟨0, ymax, zmin⟩
  p.close

/-- geometry.py:627-647 -/
noncomputable def rectangleXY (xmin xmax ymin ymax : ℝ) : Option Path := do
  let p ← (line ⟨xmin, ymin, 0⟩ ⟨xmin, ymax, 0⟩).lineTo ⟨xmax, ymax, 0⟩
  let p ← p.lineTo ⟨xmax, ymin, 0⟩
  p.close

/-- geometry.py:649-671 -/
noncomputable def aperture (height radius extent z : ℝ) : Option Path := do
  let p ← (line ⟨extent, 0, -height / 2⟩ ⟨radius, 0, -height / 2⟩).lineTo ⟨radius, 0, height / 2⟩
  let p ← p.lineTo ⟨extent, 0, height / 2⟩
  return p.move ⟨0, 0, z⟩

/-! ## Path.mesh, geometry.py:691-743 -/

/-- geometry.py:720-721: `[k, k+1]`. -/
def flatLines (n : ℕ) : List Elem := (List.range (n - 1)).map (fun k => [k, k + 1])

/-- `r[start:stop:3]` of `r = np.arange(N)`. [used in geometry.py:727-731] -/
def slice3 (start stop : ℕ) : List ℕ := (List.range ((stop - start + 2) / 3)).map (fun k => start + 3 * k)

/-- geometry.py:723-729: the four slices, put together row by row (`none`: the assertion of line 723
fails, or the slices have different lengths). -/
def curvedLines (n : ℕ) : Option (List Elem) :=
  if n % 3 ≠ 1 then none else
  let p0 := slice3 0 (n - 1); let p1 := slice3 3 n; let p2 := slice3 1 n; let p3 := slice3 2 n
  if p0.length = p1.length ∧ p1.length = p2.length ∧ p2.length = p3.length then
    some ((p0.zip (p1.zip (p2.zip p3))).map (fun x => [x.1, x.2.1, x.2.2.1, x.2.2.2]))
  else none

/-- geometry.py:713-742: the arrays handed to the `Mesh` constructor. -/
noncomputable def rawMesh (p : Path) (meshSize : Option ℝ) (factor : Option ℤ) (higherOrder : Bool)
    (name : Option String) : Option (Mesh V3) := do
  let u ← discretizePath p.length p.breaks meshSize factor (if higherOrder then 3 else 1)
  let pts ← u.mapM p.func
  let lines ← if higherOrder then curvedLines u.length else some (flatLines u.length)
  return { points := pts
           lineCols := if higherOrder then 4 else 2
           lines := lines
           physLines := (name.or p.name).elim [] (fun n => [(n, List.range lines.length)]) }

/-- geometry.py:691-743 `Path.mesh` -/
noncomputable def mesh (G : Geo V3) (p : Path) (meshSize : Option ℝ) (factor : Option ℤ)
    (higherOrder : Bool) (name : Option String) (ensure : Bool) : Option (Mesh V3) := do
  Mesh.build G (← p.rawMesh meshSize factor higherOrder name) ensure

end Path
end Traceon
