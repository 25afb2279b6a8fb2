import Verif.Model.HigherOrder
import Verif.Model.Charges
import Verif.Model.Excitation
import Verif.Model.Threads
import Mathlib.MeasureTheory.Integral.IntervalIntegral.Basic

/-!
# Model of the radial matrix (radial.c:182-309, solver.py:146-182)

Exact real arithmetic. The adaptive routine `scipy.integrate.quad`, which computes the diagonal, is replaced by the exact integral.
-/
namespace Traceon

/-- The vertices of a line with four points, in the order of the mesh (GMSH `line4`): the two ends, then the points at one and two thirds. [`vertices_2d`, radial.c:8] -/
structure Line4 where
  l0 : V3
  l1 : V3
  l2 : V3
  l3 : V3

/-- `GAUSS_QUAD_WEIGHTS` and `GAUSS_QUAD_POINTS`, utilities_2d.c:2-5, as pairs (weight, point). -/
noncomputable def gaussRule : List (ℝ × ℝ) :=
  [(0.1894506104550685, -0.0950125098376374), (0.1894506104550685, 0.0950125098376374),
   (0.1826034150449236, -0.2816035507792589), (0.1826034150449236, 0.2816035507792589),
   (0.1691565193950025, -0.4580167776572274), (0.1691565193950025, 0.4580167776572274),
   (0.1495959888165767, -0.6178762444026438), (0.1495959888165767, 0.6178762444026438),
   (0.1246289712555339, -0.7554044083550030), (0.1246289712555339, 0.7554044083550030),
   (0.0951585116824928, -0.8656312023878318), (0.0951585116824928, 0.8656312023878318),
   (0.0622535239386479, -0.9445750230732326), (0.0622535239386479, 0.9445750230732326),
   (0.0271524594117541, -0.9894009349916499), (0.0271524594117541, 0.9894009349916499)]

/-- `position_and_jacobian_radial` with the order of the vertices of radial.c:232-235, 266-269 and 184-187: the position. -/
noncomputable def linePos (l : Line4) (α : ℝ) : ℝ × ℝ := curvePos α l.l0 l.l2 l.l3 l.l1

/-- `position_and_jacobian_radial` with the order of the vertices of radial.c:232-235 and 184-187: the Jacobian. -/
noncomputable def lineJac (l : Line4) (α : ℝ) : ℝ := curveJac α l.l0 l.l2 l.l3 l.l1

/-- `higher_order_normal_radial(0.0, …)`, radial.c:217, 293; also backend/__init__.py:233-237, called at solver.py:266. -/
noncomputable def lineNormal (l : Line4) : ℝ × ℝ := curveNormal 0 l.l0 l.l2 l.l3 l.l1

/-- `fill_jacobian_buffer_radial`, radial.c:224-246: the row of the buffer of Jacobians of one line. -/
noncomputable def lineJacRow (l : Line4) : List ℝ := gaussRule.map fun g => g.1 * lineJac l g.2

/-- `fill_jacobian_buffer_radial`, radial.c:224-246: the row of the buffer of positions of one line. -/
noncomputable def linePosRow (l : Line4) : List (ℝ × ℝ) := gaussRule.map fun g => linePos l g.2

/-- `field_dot_normal_radial`, radial_ring.c:52-68 -/
noncomputable def fieldDotNormalRadial (r0 z0 r z : ℝ) (normal : ℝ × ℝ) (K : ℝ) : ℝ :=
  let factor := fluxDensityToChargeFactor K
  let Er := -dr1PotentialRadialRing r0 z0 r z
  let Ez := -dz1PotentialRadialRing r0 z0 r z
  factor * (normal.1 * Er + normal.2 * Ez)

/-- What is assigned to the entry `(i, j)` by `fill_matrix_radial`, in this order (radial.c:263-309). For any other type the process exits, here nothing is
assigned. -/
noncomputable def fillOpsRadial (l : Nat → Line4) (types : Nat → Option ExcType) (values : Nat → ℝ) (i j : Nat) : List (EntryOp ℝ) :=
  let target := linePos (l i) 0
  match types i with
  | some .voltageFixed | some .voltageFun | some .magnetostaticPot =>
      ((lineJacRow (l j)).zip (linePosRow (l j))).map (fun k => EntryOp.add (k.1 * potentialRadialRing target.1 target.2 k.2.1 k.2.2))
  | some .dielectric | some .magnetizable =>
      ((lineJacRow (l j)).zip (linePosRow (l j))).map
        (fun k => EntryOp.add (k.1 * fieldDotNormalRadial target.1 target.2 k.2.1 k.2.2 (lineNormal (l i)) (values i)))
  | _ => []

/-- `self_potential_radial`, radial.c:182-196 -/
noncomputable def selfPotentialRadial (α : ℝ) (l : Line4) : ℝ :=
  let pos := linePos l α
  let target := linePos l 0
  lineJac l α * potentialRadialRing target.1 target.2 pos.1 pos.2

/-- `self_field_dot_normal_radial`, radial.c:203-222 -/
noncomputable def selfFieldDotNormalRadial (α : ℝ) (l : Line4) (K : ℝ) : ℝ :=
  let pos := linePos l α
  let target := linePos l 0
  lineJac l α * fieldDotNormalRadial target.1 target.2 pos.1 pos.2 (lineNormal l) K

/-- The diagonal, solver.py:168-178 with backend/__init__.py:547-551 and 556-567. -/
noncomputable def diagRadial (l : Nat → Line4) (types : Nat → Option ExcType) (values : Nat → ℝ) (i : Nat) : ℝ :=
  match types i with
  | some .dielectric | some .magnetizable => (∫ α in (-1 : ℝ)..1, selfFieldDotNormalRadial α (l i) (values i)) - 1
  | _ => ∫ α in (-1 : ℝ)..1, selfPotentialRadial α (l i)

/-- `get_center_of_element` for higher order lines, solver.py:138-140 -/
noncomputable def lineCentre (l : Line4) : V3 := ⟨(linePos l 0).1, 0, (linePos l 0).2⟩

/-- The right hand side for a magnetizable line of relative permeability `μ`, solver.py:318-326. `coils` are the charges representing the currents. -/
noncomputable def fluxTermRadial (coils : EffCharges V3) (l : Line4) (μ : ℝ) : ℝ :=
  let h := currentField (lineCentre l) coils;
  -fluxDensityToChargeFactor μ * (h.x * (lineNormal l).1 + h.z * (lineNormal l).2)

/-- The charges of lines, as `solve_matrix` makes them (solver.py:205). -/
noncomputable def lineCharges (ls : List Line4) (q : List ℝ) : EffCharges (ℝ × ℝ) := ⟨16, q, ls.map lineJacRow, ls.map linePosRow⟩

end Traceon
