import Verif.Model.SolveField

/-!
# Model of `solve_direct_superposition` from the excitation to the returned fields (solver.py:188-208, 405-433)
-/
namespace Traceon
open Excitation

/-- `charges_to_field(EffectivePointCharges(c, self.jac_buffer, self.pos_buffer))`: solver.py:205, 238-242, 332-336. -/
noncomputable def SolverState.toField (st : SolverState) (s : Statics) (q : List ℝ) : Option PyObj :=
  match st.elems with
  | .lines ls => (EffCharges.new 16 q (ls.map lineJacRow) (ls.map linePosRow)).map (toFieldRadial s st.coils)
  | .tris ts => (EffCharges.new 12 q (ts.map jacRow) (ts.map posRow)).map (toField3d s)

/-- solver.py:193-195: without elements there is one field without charges for every right hand side. -/
def SolverState.emptyField (st : SolverState) (s : Statics) : PyObj :=
  match st.elems with
  | .lines _ => toFieldRadial s st.coils .empty2d
  | .tris _ => toField3d s .empty3d

/-- solver.py:188-208, `solve_matrix(right_hand_side)` with a list of right hand sides. (An array of no right hand sides has the shape `(0,)`, which `np.linalg.solve` does not accept;
a right hand side of the wrong length fails the assertion of line 197.) -/
noncomputable def SolverState.solveMany (st : SolverState) (env : SolveEnv) (s : Statics) (Fs : List (List ℝ)) : Option (List PyObj) :=
  if st.size = 0 then some (Fs.map fun _ => st.emptyField s)
  else if Fs = [] then none
  else if Fs.all (fun F => F.length = st.size) then do
    let A ← st.matrix env s
    let qs ← Fs.mapM fun F => linSolve (Matrix.of fun i j : Fin st.size => A i j) F
    qs.mapM (st.toField s)
  else none

namespace Excitation

/-- solver.py:421-424 and 427-430: the fields of one kind, `parts` being the split excitations of this kind. -/
noncomputable def unitFields (x : Excitation ℝ V3) (env : SolveEnv) (s : Statics) (parts : Dict (Excitation ℝ V3)) : Option (Dict PyObj) := do
  let Fs ← parts.mapM fun p => (p.2.solverInit s).map fun st => st.rhs s
  let sols ← (← x.solverInit s).solveMany env s Fs
  return (parts.map (·.1)).zip sols

/-- solver.py:405-433, `solve_direct_superposition`. The dictionary union of line 433 prefers the second. -/
noncomputable def superpositionField (x : Excitation ℝ V3) (G : Geo V3) (env : SolveEnv) : Option (Dict PyObj) := do
  let x ← x.upgraded G
  let parts ← x.splitForSuperposition
  let elec ← x.unitFields env .electrostatic (parts.filter fun p => p.2.isElectrostatic)
  let mag ← x.unitFields env .magnetostatic (parts.filter fun p => p.2.isMagnetostatic)
  return mag.foldl (fun d kv => d.set kv.1 kv.2) elec

end Excitation
end Traceon
