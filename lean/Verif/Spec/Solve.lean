import Verif.Model.Solve
import Verif.Spec.Excitation

/-!
# Specification vocabulary for superposition
-/
namespace Traceon.Spec
variable {V P : Type}

/-- Two excitations of the same mesh that assign the same types (not the same values) to the same names. -/
structure SameKinds (x y : Excitation V P) : Prop where
  mesh : y.mesh = x.mesh
  symmetry : y.symmetry = x.symmetry
  kinds : ∀ n, (y.types.get n).map (·.1) = (x.types.get n).map (·.1)

/-- The number assigned to a name (a voltage). -/
def voltageOf [Zero V] (x : Excitation V P) (n : String) : V :=
  match x.types.get n with
  | some (_, .num v) => v
  | _ => 0

/-- Only fixed voltages and dielectrics. -/
def OnlyVoltages (x : Excitation V P) : Prop :=
  ∀ n tv, x.types.get n = some tv → (tv.1 = .voltageFixed ∨ tv.1 = .dielectric) ∧ ∃ v, tv.2 = .num v

/-- The entries of the matrix do not depend on the voltages. -/
def MatrixIgnoresVoltages (ph : Physics V P) : Prop :=
  ∀ verts ts vs vs', (∀ k : Nat, ts[k]? = some (some ExcType.dielectric) → vs[k]? = vs'[k]?) → ph.matrix verts ts vs = ph.matrix verts ts vs'

end Traceon.Spec
