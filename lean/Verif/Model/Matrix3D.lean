import Verif.Model.Coil
import Verif.Model.RealGeo
import Verif.Model.Threads
import Verif.Model.Triangle

/-!
# Model of `fill_matrix_3d` (tracing.c:283-365)

Exact real arithmetic.
-/
namespace Traceon

/-- `position_and_jacobian_3d(1/3., 1/3., …)`, utilities_3d.c:120-133, called at tracing.c:299: the position. -/
noncomputable def triTarget (t : Tri3) : V3 :=
  ⟨t.v0.x + 1 / 3 * (t.v1.x - t.v0.x) + 1 / 3 * (t.v2.x - t.v0.x),
   t.v0.y + 1 / 3 * (t.v1.y - t.v0.y) + 1 / 3 * (t.v2.y - t.v0.y),
   t.v0.z + 1 / 3 * (t.v1.z - t.v0.z) + 1 / 3 * (t.v2.z - t.v0.z)⟩

/-- `distance_3d`, utilities_3d.c:75-78 -/
noncomputable def distance3d (p q : V3) : ℝ := V3.norm (p - q)

/-- The test `distance > 5*characteristic_length` (tracing.c:308-309, 314 and 338-339, 344) for a target and a source triangle. -/
def FarTriangle (target : V3) (t : Tri3) : Prop := 5 * distance3d t.v0 t.v1 < distance3d t.v0 target

/-- The values returned by `potential_triangle(v0, v1, v2, target)` and `flux_triangle(v0, v1, v2, target, normal)`. These functions need not
return; see `TriRoutines.Correct`. [triangle.c:51-77, 151-182] -/
structure TriRoutines where
  pot : Tri3 → V3 → ℝ
  flux : Tri3 → V3 → V3 → ℝ

/-- What is assigned to the entry `(i, j)` of the matrix by `fill_matrix_3d`, in this order (tracing.c:302-353). `t i` is `triangle_points[i]`,
`types i` and `values i` are the excitation; `jacRow` and `posRow` are `jacobian_buffer` and `pos_buffer`. For any other type (also `none`, the zero of
solver.py:77) the process exits (tracing.c:355-358), here nothing is assigned. -/
noncomputable def fillOps3d (o : TriRoutines) (t : Nat → Tri3) (types : Nat → Option ExcType) (values : Nat → ℝ) (i j : Nat) : List (EntryOp ℝ) :=
  open Classical in
  let target := triTarget (t i)
  match types i with
  | some .voltageFixed | some .voltageFun | some .magnetostaticPot =>
      (if i = j then [EntryOp.set (selfPotentialTriangle (t j).v0 (t j).v1 (t j).v2 target)] else []) ++
      (if i ≠ j ∧ FarTriangle target (t j) then
        ((jacRow (t j)).zip (posRow (t j))).map (fun k => EntryOp.add (k.1 * potential3dPoint target k.2))
      else [EntryOp.set (o.pot (t j) target / (4 * Real.pi))])
  | some .dielectric | some .magnetizable =>
      let normal := normal3d (t i).v0 (t i).v1 (t i).v2
      let factor := fluxDensityToChargeFactor (values i)
      if i = j then [EntryOp.set (-1)]
      else if FarTriangle target (t j) then
        ((jacRow (t j)).zip (posRow (t j))).map (fun k => EntryOp.add (factor * k.1 * fieldDotNormal3d target k.2 normal))
      else [EntryOp.set (factor * o.flux (t j) target normal / (4 * Real.pi))]
  | _ => []

/-- The routines return the given values in all calls made by `fill_matrix_3d` for `n` triangles. [the calls in tracing.c:283-366] -/
def TriRoutines.Correct (o : TriRoutines) (n : Nat) (t : Nat → Tri3) (types : Nat → Option ExcType) : Prop :=
  ∀ i < n, ∀ j < n, (i = j ∨ ¬FarTriangle (triTarget (t i)) (t j)) →
    match types i with
    | some .voltageFixed | some .voltageFun | some .magnetostaticPot =>
        PotentialTriangleReturns (t j).v0 (t j).v1 (t j).v2 (triTarget (t i)) (o.pot (t j) (triTarget (t i)))
    | some .dielectric | some .magnetizable =>
        i ≠ j → FluxTriangleReturns (t j).v0 (t j).v1 (t j).v2 (triTarget (t i)) (normal3d (t i).v0 (t i).v1 (t i).v2)
          (o.flux (t j) (triTarget (t i)) (normal3d (t i).v0 (t i).v1 (t i).v2))
    | _ => True

/-- The charges of `n` triangles, as `solve_matrix` makes them (solver.py:205; `fill_jacobian_buffer_3d`, tracing.c:253-281). -/
noncomputable def triCharges (ts : List Tri3) (q : List ℝ) : EffCharges V3 := ⟨12, q, ts.map jacRow, ts.map posRow⟩

end Traceon
