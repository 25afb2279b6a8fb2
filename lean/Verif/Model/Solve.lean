import Verif.Model.Excitation
import Mathlib.LinearAlgebra.Matrix.NonsingularInverse

/-!
# Model of `solve_direct` and `solve_direct_superposition` (solver.py:184-208, 405-464)

`V` is a field of numbers. The entries of the matrix (`Solver.get_matrix`) are an arbitrary function of what the code computes them from.
-/
namespace Traceon
variable {V P : Type}

/-- A field, as far as the linear algebra is concerned: the charges on the elements for its electrostatic and its magnetostatic part and the
currents producing it (`EffectivePointCharges` of solver.py:212, 245-249, 331-335; the positions are those of the elements). `none`: that part is empty. -/
structure Charges (V : Type) where
  elec : Option (List V) := none
  mag : Option (List V × List (String × V)) := none
deriving DecidableEq

/-- What the entries of the matrices and right hand sides are computed from, other than the excitation.
`centre` is `get_center_of_element`, `flux currents vertices permeability` the entry of solver.py:318-326. -/
structure Physics (V P : Type) where
  centre : List P → P
  flux : List (String × V) → List P → V → V
  matrix : (verts : List (List P)) → List (Option ExcType) → List V → Matrix (Fin verts.length) (Fin verts.length) V

/-- `np.linalg.solve` for one right hand side; raises for a singular matrix. (numpy solves approximately, and reports exactly singular matrices only.) [used in solver.py:201] -/
noncomputable def linSolve [Field V] [DecidableEq V] {n : Nat} (A : Matrix (Fin n) (Fin n) V) (F : List V) : Option (List V) :=
  if A.det = 0 then none else some (List.ofFn (A⁻¹.mulVec (fun i => F.getD i 0)))

/-- solver.py:184-208, `Solver.solve_matrix` for given right hand sides, giving the charges. Without right hand sides (a one dimensional array of length zero),
`np.linalg.solve` raises. -/
noncomputable def solveMatrix [Field V] [DecidableEq V] {n : Nat} (A : Matrix (Fin n) (Fin n) V) (rhs : List (List V)) : Option (List (List V)) :=
  if n = 0 then some (rhs.map (fun _ => []))
  else if rhs = [] then none
  else if rhs.all (fun f => f.length = n) then rhs.mapM (linSolve A) else none

namespace Excitation

/-- The currents of the excitation, `get_current_charges` (solver.py:270-305). -/
def currents (x : Excitation V P) : List (String × V) :=
  x.types.filterMap (fun nv => if nv.2.1 = .current then
    match nv.2.2 with
    | .num v => some (nv.1, v)
    | _ => none
  else none)

variable [Field V] [DecidableEq V] [Inhabited P]

/-- The matrix of the solver of an excitation and the number of its elements (solver.py:68-91, 146-182). -/
def system (x : Excitation V P) (ph : Physics V P) (s : Statics) :
    Option ((n : Nat) × Matrix (Fin n) (Fin n) V) := do
  let (verts, names) ← x.activeElements s
  let (ts, vs) ← x.typesAndValues names verts.length (fun k => ph.centre (verts.getD k []))
  return ⟨verts.length, ph.matrix verts ts vs⟩

/-- `ElectrostaticSolver(x).get_right_hand_side()`, `MagnetostaticSolver(x).get_right_hand_side()` [solver.py:222-236, 307-329] -/
def rhs (x : Excitation V P) (ph : Physics V P) : Statics → Option (List V)
  | .electrostatic => x.electricRhs ph.centre
  | .magnetostatic => x.magneticRhs ph.centre (ph.flux x.currents)

/-- `Solver(x).solve_matrix(rhs)` [solver.py:188-208] -/
noncomputable def solveRhs (x : Excitation V P) (ph : Physics V P) (s : Statics) (rhs : List (List V)) : Option (List (List V)) := do
  let A ← x.system ph s
  solveMatrix A.2 rhs

/-- solver.py:435-464 `solve_direct`, after the upgrade to higher order. -/
noncomputable def solveDirect (x : Excitation V P) (ph : Physics V P) : Option (Charges V) :=
  if x.isElectrostatic then do
    let F ← x.rhs ph .electrostatic
    let c ← x.solveRhs ph .electrostatic [F]
    let ce ← c.head?
    if x.isMagnetostatic then do
      let G ← x.rhs ph .magnetostatic
      let d ← x.solveRhs ph .magnetostatic [G]
      let cm ← d.head?
      return { elec := some ce, mag := some (cm, x.currents) }
    else return { elec := some ce }
  else if x.isMagnetostatic then do
    let G ← x.rhs ph .magnetostatic
    let d ← x.solveRhs ph .magnetostatic [G]
    let cm ← d.head?
    return { mag := some (cm, x.currents) }
  else none

/-- solver.py:405-433 `solve_direct_superposition`, after the upgrade to higher order. The dictionary union of line 433 prefers the second. -/
noncomputable def solveSuperposition (x : Excitation V P) (ph : Physics V P) : Option (Dict (Charges V)) := do
  let parts ← x.splitForSuperposition
  let elec := parts.filter (fun p => p.2.isElectrostatic)
  let Fs ← elec.mapM (fun p => p.2.rhs ph .electrostatic)
  let cs ← x.solveRhs ph .electrostatic Fs
  let elecDict : Dict (Charges V) := (elec.map (·.1)).zip (cs.map (fun c => { elec := some c }))
  let mag := parts.filter (fun p => p.2.isMagnetostatic)
  let Gs ← mag.mapM (fun p => p.2.rhs ph .magnetostatic)
  let ds ← x.solveRhs ph .magnetostatic Gs
  let magDict : Dict (Charges V) := (mag.map (·.1)).zip (ds.map (fun d => { mag := some (d, x.currents) }))
  return magDict.foldl (fun d kv => d.set kv.1 kv.2) elecDict

end Excitation
end Traceon
