import Verif.Model.Kronrod
import Mathlib.Analysis.SpecialFunctions.Arsinh
import Mathlib.Analysis.SpecialFunctions.Log.Basic

/-!
# Model of the integrals over triangles, `backend/triangle.c:1-182`

Exact real arithmetic. `normalize_3d` of a zero vector (triangles without area) trips the `assert` in C; the theorems
exclude such triangles.
-/
namespace Traceon

/-- The axes of the coordinate system of a triangle (triangle.c:52-64, 80-92, 152-164). -/
structure TriFrame where
  ex : V3
  ey : V3
  ez : V3

/-- triangle.c:52-64 -/
noncomputable def triFrame (v0 v1 v2 : V3) : TriFrame :=
  let vec1 := v1 - v0
  let vec2 := v2 - v0
  let ex := V3.unit vec1
  let ez := V3.unit (V3.cross vec1 vec2)
  { ex := ex, ez := ez, ey := V3.cross ez ex }

/-- `struct _normalized_triangle` (triangle.c:22-32). -/
structure NormTri where
  x0 : ℝ
  y0 : ℝ
  a : ℝ
  b : ℝ
  c : ℝ
  z : ℝ
  normal : V3

/-- The triangle and the target in this coordinate system (triangle.c:66-74, 166-179); `normal` is used for the flux. -/
noncomputable def normalizeTri (v0 v1 v2 target normal : V3) : NormTri :=
  let f := triFrame v0 v1 v2
  let toV0 := v0 - target
  { x0 := V3.dot toV0 f.ex
    y0 := V3.dot toV0 f.ey
    a := V3.norm (v1 - v0)
    b := V3.dot (v2 - v0) f.ex
    c := V3.dot (v2 - v0) f.ey
    z := -V3.dot f.ez toV0
    normal := ⟨V3.dot f.ex normal, V3.dot f.ey normal, V3.dot f.ez normal⟩ }

namespace NormTri

/-- triangle.c:36 and 119 -/
noncomputable def xmin (t : NormTri) (y : ℝ) : ℝ := t.x0 + y / t.c * t.b

/-- triangle.c:37 and 120 -/
noncomputable def xmax (t : NormTri) (y : ℝ) : ℝ := t.x0 + t.a + y / t.c * (t.b - t.a)

open Classical in
/-- `_potential_integrand` (triangle.c:34-49). -/
noncomputable def potentialIntegrand (t : NormTri) (y : ℝ) : ℝ :=
  let denom := Real.sqrt ((y + t.y0) * (y + t.y0) + t.z * t.z)
  if denom < 1e-12 then Real.log |t.xmax y| - Real.log |t.xmin y|
  else Real.arsinh (t.xmax y / denom) - Real.arsinh (t.xmin y / denom)

open Classical in
/-- The three components of the flux in `_flux_integrand` (triangle.c:122-143). -/
noncomputable def fluxVector (t : NormTri) (y : ℝ) : V3 :=
  let xmin2 := t.xmin y * t.xmin y
  let xmax2 := t.xmax y * t.xmax y
  let r2 := t.z * t.z + (y + t.y0) * (y + t.y0)
  let flux0 := 1 / Real.sqrt (r2 + xmax2) - 1 / Real.sqrt (r2 + xmin2)
  if |r2| < 1e-9 then
    ⟨flux0, ((xmin2 - xmax2) * t.y0 + (xmin2 - xmax2) * y) / (2 * xmax2 * xmin2),
      -((xmin2 - xmax2) * t.z) / (2 * xmax2 * xmin2)⟩
  else
    let denomMax := r2 * Real.sqrt (r2 + xmax2)
    let denomMin := r2 * Real.sqrt (r2 + xmin2)
    ⟨flux0, -((t.xmax y * (y + t.y0)) / denomMax) + (t.xmin y * (y + t.y0)) / denomMin,
      (t.xmax y * t.z) / denomMax - (t.xmin y * t.z) / denomMin⟩

/-- `_flux_integrand` (triangle.c:113-146). -/
noncomputable def fluxIntegrand (t : NormTri) (y : ℝ) : ℝ := V3.dot t.normal (t.fluxVector y)

end NormTri

/-- `potential_triangle` (triangle.c:51-77) returns `r`. -/
def PotentialTriangleReturns (v0 v1 v2 target : V3) (r : ℝ) : Prop :=
  let t := normalizeTri v0 v1 v2 target 0
  KronrodReturns t.potentialIntegrand 0 t.c 1e-9 1e-9 r

/-- `flux_triangle` (triangle.c:150-182) returns `r`. -/
def FluxTriangleReturns (v0 v1 v2 target normal : V3) (r : ℝ) : Prop :=
  let t := normalizeTri v0 v1 v2 target normal
  KronrodReturns t.fluxIntegrand 0 t.c 1e-9 1e-9 r

/-- `self_potential_triangle_v0` (triangle.c:79-103). -/
noncomputable def selfPotentialTriangleV0 (v0 v1 v2 : V3) : ℝ :=
  let t := normalizeTri v0 v1 v2 v0 0
  let a := t.a
  let c := t.c
  let alpha := t.b / c
  let beta := (t.b - a) / c;
  -((-a * Real.arsinh ((beta * beta * c + c + beta * a) / a)) +
    Real.sqrt (beta * beta + 1) * (c * Real.arsinh ((beta * c + a) / c) - Real.arsinh alpha * c) +
    Real.arsinh beta * a) / Real.sqrt (beta * beta + 1)

/-- `self_potential_triangle` (triangle.c:105-111). -/
noncomputable def selfPotentialTriangle (v0 v1 v2 target : V3) : ℝ :=
  selfPotentialTriangleV0 target v0 v1 + selfPotentialTriangleV0 target v1 v2 + selfPotentialTriangleV0 target v2 v0

end Traceon
