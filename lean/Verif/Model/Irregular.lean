import Verif.Model.Path
import Verif.Model.Spline
import Mathlib.Analysis.Calculus.Deriv.Basic
import Mathlib.MeasureTheory.Integral.IntervalIntegral.Basic

/-!
# Paths given by an arbitrary parametrisation, geometry.py:84-146 and 527-546

`scipy.interpolate.CubicSpline` is external code.  It is a parameter `cs` of the model: `cs xs ys`
is the function that scipy returns for the knots `xs` and the values `ys`.  What is assumed about it
is `Spec.SplineContract`.
-/
namespace Traceon

/-- `scipy.interpolate.CubicSpline(x, y)` for accepted arguments, used at geometry.py:107, 110, 111, 130. -/
abbrev SplineMaker := List ℝ → List ℝ → ℝ → ℝ

open Classical in
/-- `CubicSpline(x, y)` raises unless there are at least two knots, as many values as knots, and the
knots are strictly increasing (geometry.py:107, 110, 111, 130; argument checks of scipy). -/
noncomputable def cubicSpline (cs : SplineMaker) (xs ys : List ℝ) : Option (ℝ → ℝ) :=
  if 2 ≤ xs.length ∧ ys.length = xs.length ∧ xs.Pairwise (· < ·) then some (cs xs ys) else none

/-- `CubicSpline(x, points)` for rows of three coordinates: every coordinate is interpolated on its
own (geometry.py:107, 130). -/
noncomputable def cubicSpline3 (cs : SplineMaker) (xs : List ℝ) (ps : List V3) : Option (ℝ → V3) := do
  let fx ← cubicSpline cs xs (ps.map V3.x)
  let fy ← cubicSpline cs xs (ps.map V3.y)
  let fz ← cubicSpline cs xs (ps.map V3.z)
  return fun t => ⟨fx t, fy t, fz t⟩

/-- The derivative of a curve in space, one coordinate at a time (geometry.py:108). -/
noncomputable def curveDeriv (f : ℝ → V3) (t : ℝ) : V3 :=
  ⟨deriv (fun s => (f s).x) t, deriv (fun s => (f s).y) t, deriv (fun s => (f s).z) t⟩

namespace Path

/-- geometry.py:84-114 `Path.from_irregular_function`. `to_point` may raise (`none`). scipy's
`antiderivative` is the one that vanishes at the first knot. -/
noncomputable def fromIrregular (cs : SplineMaker) (toPoint : ℝ → Option V3) (N : ℕ := 100)
    (breaks : List ℝ := []) : Option Path := do
  let u := linspace 0 1 N
  let pts ← u.mapM toPoint
  let samples ← cubicSpline3 cs u pts
  let normDerivatives := u.map (fun t => V3.norm (curveDeriv samples t))
  let speed ← cubicSpline cs u normDerivatives
  let pathLengths := u.map (fun t => ∫ x in (0:ℝ)..t, speed x)
  let interpolation ← cubicSpline cs pathLengths u
  let len ← pathLengths.getLast?
  return { func := fun pl => toPoint (interpolation pl)
           length := len
           breaks := breaks.map (fun b => b * len) }

/-- geometry.py:117-131 `Path.spline_through_points` -/
noncomputable def splineThroughPoints (cs : SplineMaker) (points : List V3) (N : ℕ := 100) :
    Option Path := do
  let interp ← cubicSpline3 cs (linspace 0 1 points.length) points
  fromIrregular cs (fun u => some (interp u)) N

/-- geometry.py:527-546 `Path.ellipse` -/
noncomputable def ellipse (cs : SplineMaker) (major minor : ℝ) : Option Path :=
  fromIrregular cs (fun u => some ⟨major * Real.cos (2 * Real.pi * u), minor * Real.sin (2 * Real.pi * u), 0⟩)

open Classical in
/-- geometry.py:133-146 `Path.average`. The numerical `quad` is replaced by the exact integral. The
call is `none` (NaN or an exception) for a path of length zero and for a path that is not defined
everywhere. -/
noncomputable def average (p : Path) (f : V3 → ℝ) : Option ℝ :=
  if p.length = 0 ∨ ∃ s ∈ Set.Icc 0 p.length, p.func s = none then none
  else some ((∫ s in (0:ℝ)..p.length, ((p.func s).map f).getD 0) / p.length)

end Path
end Traceon
