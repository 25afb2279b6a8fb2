import Verif.Model.Matrix3D
import Verif.Model.MatrixRadial

/-!
# Model of the areas and charges of elements (solver.py:612-646, 834-837, 944-946)

Element indices are natural numbers (numpy also accepts negative ones); `none` is an `IndexError`.
-/
namespace Traceon

/-- `Field3D_BEM.area_of_element`, solver.py:944-946 -/
noncomputable def areaOfElement3d (e : EffCharges V3) (i : Nat) : Option ℝ := e.jacobians[i]?.map List.sum

/-- `FieldRadialBEM.area_of_element`, solver.py:834-837 -/
noncomputable def areaOfElementRadial (e : EffCharges (ℝ × ℝ)) (i : Nat) : Option ℝ := do
  let js ← e.jacobians[i]?
  let ps ← e.positions[i]?
  return 2 * Real.pi * (List.zipWith (fun j p => j * p.1) js ps).sum

/-- `area_of_elements`, solver.py:612-624; `area` is the method `area_of_element` -/
noncomputable def areaOfElements (area : Nat → Option ℝ) (indices : List Nat) : Option ℝ :=
  indices.foldlM (fun s i => do return s + (← area i)) 0

/-- `charge_on_element`, solver.py:630-631; `charges` are those of `electrostatic_point_charges` -/
noncomputable def chargeOnElement (area : Nat → Option ℝ) (charges : List ℝ) (i : Nat) : Option ℝ := do
  let a ← area i
  return a * (← charges[i]?)

/-- `charge_on_elements`, solver.py:633-646 -/
noncomputable def chargeOnElements (area : Nat → Option ℝ) (charges : List ℝ) (indices : List Nat) : Option ℝ :=
  indices.foldlM (fun s i => do return s + (← chargeOnElement area charges i)) 0

/-- `triangle_areas`, three_d.c:300-319, one triangle -/
noncomputable def triangleAreas1 (t : Tri3) : ℝ := 0.5 * V3.norm (V3.cross (t.v1 - t.v0) (t.v2 - t.v0))

/-- `charge_radial`, radial.c:123-148 -/
noncomputable def chargeRadial (l : Line4) (charge : ℝ) : ℝ :=
  gaussRule.foldl (fun s g => s + 2 * Real.pi * (linePos l g.2).1 * g.1 * lineJac l g.2 * charge) 0

end Traceon
