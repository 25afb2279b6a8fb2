import Verif.Model.FieldObj
import Verif.Model.Matrix3D
import Verif.Model.MatrixRadial
import Verif.Model.Solve

/-!
# Model of `solve_direct` from the excitation to the returned field (solver.py:67-337, 397-403, 435-464)

Exact real arithmetic. This composes the models of the mesh, the excitation, the matrix, the threads that fill it and the field objects.
-/
namespace Traceon

/-- The shape (N, 3, 3) asserted by `fill_jacobian_buffer_3d` (backend/__init__.py:586) and `fill_matrix_3d` (599). -/
def toTri3 : List V3 → Option Tri3
  | [a, b, c] => some ⟨a, b, c⟩
  | _ => none

/-- The shape (N, 4, 3) asserted by `fill_jacobian_buffer_radial` (backend/__init__.py:536). (That `y` vanishes, line 537, follows from `is_2d`.) -/
def toLine4 : List V3 → Option Line4
  | [a, b, c, d] => some ⟨a, b, c, d⟩
  | _ => none

/-- `np.mean(vertices, axis=0)`, solver.py:136 -/
noncomputable def meanPoint (vs : List V3) : V3 :=
  ⟨(vs.map V3.x).sum / vs.length, (vs.map V3.y).sum / vs.length, (vs.map V3.z).sum / vs.length⟩

/-- solver.py:131-140, `get_center_of_element` for the element with vertices `vs`. `is_3d` (mesher.py:431-439) is the negation of `is_2d`. -/
noncomputable def elementCentre (m : Mesh V3) (vs : List V3) : V3 :=
  if !m.is2d realThirds || !m.isHigherOrder then meanPoint vs
  else match toLine4 vs with
    | some l => lineCentre l
    | none => 0

/-- What is outside of the model of a call of `solve_direct`: how many threads are used, how they are scheduled, and what the adaptive integration routines of the C code return. [solver.py:146-183, util.py:33-79, triangle.c:51-182] -/
structure SolveEnv where
  threads : Int
  sched : Excitation.Statics → List Nat
  routines : TriRoutines

/-- The elements, `self.vertices` (which determine `self.jac_buffer` and `self.pos_buffer`). [solver.py:68-107] -/
inductive SolverElems where
  | lines (ls : List Line4)
  | tris (ts : List Tri3)

/-- The attributes of a `Solver` (solver.py:68-107) and of a `MagnetostaticSolver` (248-249). -/
structure SolverState where
  elems : SolverElems
  types : List (Option ExcType)
  values : List ℝ
  coils : EffCharges V3

namespace Excitation

/-- solver.py:68-107 and 248-266, the constructors of `ElectrostaticSolver` and `MagnetostaticSolver`. (The assertion of line 96 and the exception of line 103: a mesh in the plane
has to be of higher order, another mesh must not be.) -/
noncomputable def solverInit (x : Excitation ℝ V3) (s : Statics) : Option SolverState := do
  let (verts, names) ← x.activeElements s
  let (types, values) ← x.typesAndValues names verts.length (fun k => elementCentre x.mesh (verts.getD k []))
  let elems ←
    if x.mesh.is2d realThirds then
      if x.mesh.isHigherOrder then (verts.mapM toLine4).map SolverElems.lines else none
    else
      if x.mesh.isHigherOrder then none else (verts.mapM toTri3).map SolverElems.tris
  let coils ← match s with
    | .electrostatic => some EffCharges.empty3d
    | .magnetostatic => x.currentCharges
  return ⟨elems, types, values, coils⟩

/-- solver.py:315-326 in three dimensions: the component along `y` of the normal is multiplied with the component along `z` of the field. (The field of the currents is zero
in three dimensions, as currents need radial symmetry.) -/
noncomputable def fluxTerm3d (coils : EffCharges V3) (t : Tri3) (μ : ℝ) : ℝ :=
  let h := currentField (meanPoint [t.v0, t.v1, t.v2]) coils
  let n := normal3d t.v0 t.v1 t.v2;
  -fluxDensityToChargeFactor μ * (h.x * n.x + h.z * n.y)

end Excitation

namespace SolverState
open Excitation

/-- solver.py:315-326: the entry of the right hand side for a magnetizable element. -/
noncomputable def fluxTerm (st : SolverState) (k : Nat) (μ : ℝ) : ℝ :=
  match st.elems with
  | .lines ls => match ls[k]? with
    | some l => fluxTermRadial st.coils l μ
    | none => 0
  | .tris ts => match ts[k]? with
    | some t => fluxTerm3d st.coils t μ
    | none => 0

/-- `get_right_hand_side`: solver.py:222-236 and 307-330. -/
noncomputable def rhs (st : SolverState) (s : Statics) : List ℝ :=
  match s with
  | .electrostatic => (st.types.zip st.values).map (fun tv => rhsElectric tv.1 tv.2)
  | .magnetostatic => ((st.types.zip st.values).zipIdx).map (fun tv => rhsMagnetic st.fluxTerm tv.2 tv.1.1 tv.1.2)

/-- A degenerate element, returned by the list look up below for numbers which do not occur. [used for solver.py:92-107] -/
def noTri : Tri3 := ⟨0, 0, 0⟩
@[inherit_doc noTri]
def noLine : Line4 := ⟨0, 0, 0, 0⟩

/-- `get_matrix`, solver.py:146-182. -/
noncomputable def matrix (st : SolverState) (env : SolveEnv) (s : Statics) : Option (Nat → Nat → ℝ) :=
  match st.elems with
  | .lines ls => getMatrix true ls.length env.threads
      (fillOpsRadial (ls.getD · noLine) (fun i => (st.types[i]?).join) (st.values.getD · 0))
      (diagRadial (ls.getD · noLine) (fun i => (st.types[i]?).join) (st.values.getD · 0)) (env.sched s)
  | .tris ts => getMatrix false ts.length env.threads
      (fillOps3d env.routines (ts.getD · noTri) (fun i => (st.types[i]?).join) (st.values.getD · 0)) (fun _ => 0) (env.sched s)

/-- `get_number_of_matrix_elements`, solver.py:112-113 -/
def size (st : SolverState) : Nat :=
  match st.elems with
  | .lines ls => ls.length
  | .tris ts => ts.length

/-- The charges found by `solve_matrix` (solver.py:184-204) for its own right hand side. (No right hand side has the wrong length.) -/
noncomputable def charges (st : SolverState) (env : SolveEnv) (s : Statics) : Option (List ℝ) :=
  if st.size = 0 then some []
  else do
    let A ← st.matrix env s
    linSolve (Matrix.of fun i j : Fin st.size => A i j) (st.rhs s)

/-- `charges_to_field` in three dimensions: solver.py:239-240, 333-334. -/
def _root_.Traceon.toField3d : Statics → EffCharges V3 → PyObj
  | .electrostatic, e => .threeD { elec := e, mag := .empty3d }
  | .magnetostatic, e => .threeD { elec := .empty3d, mag := e }

/-- `charges_to_field` in radial symmetry: solver.py:241-242, 335-336. -/
def _root_.Traceon.toFieldRadial : Statics → EffCharges V3 → EffCharges (ℝ × ℝ) → PyObj
  | .electrostatic, _, e => .radial { elec := e, mag := .empty2d, cur := .empty3d }
  | .magnetostatic, coils, e => .radial { elec := .empty2d, mag := e, cur := coils }

/-- `solve_matrix()[0]` with `charges_to_field`: solver.py:184-208, 238-242, 332-336. -/
noncomputable def solve (st : SolverState) (env : SolveEnv) (s : Statics) : Option PyObj := do
  let q ← st.charges env s
  match st.elems with
  | .lines ls => (EffCharges.new 16 q (ls.map lineJacRow) (ls.map linePosRow)).map (toFieldRadial s st.coils)
  | .tris ts => (EffCharges.new 12 q (ts.map jacRow) (ts.map posRow)).map (toField3d s)

end SolverState

namespace Excitation

/-- `ElectrostaticSolver(x).solve_matrix()[0]` and `MagnetostaticSolver(x).solve_matrix()[0]` [solver.py:188-208] -/
noncomputable def solveStatics (x : Excitation ℝ V3) (env : SolveEnv) (s : Statics) : Option PyObj := do
  (← x.solverInit s).solve env s

/-- solver.py:397-403, 450-451: the excitation on the mesh used for solving. -/
noncomputable def upgraded (x : Excitation ℝ V3) (G : Geo V3) : Option (Excitation ℝ V3) :=
  (x.mesh.solverMesh G realThirds).map fun m => { x with mesh := m }

/-- solver.py:435-464, `solve_direct`. -/
noncomputable def solveField (x : Excitation ℝ V3) (G : Geo V3) (env : SolveEnv) : Option PyObj := do
  let x ← x.upgraded G
  if x.isElectrostatic then
    if x.isMagnetostatic then do
      let e ← x.solveStatics env .electrostatic
      let m ← x.solveStatics env .magnetostatic
      e.add m
    else x.solveStatics env .electrostatic
  else if x.isMagnetostatic then x.solveStatics env .magnetostatic
  else none

end Excitation
end Traceon
