import Verif.Spec.SolveField
import Verif.Spec.Linear

/-!
# Materials that are no materials

A dielectric with relative permittivity one, or a magnetizable material with relative permeability one, is vacuum.
-/
namespace Traceon.Spec
open Excitation

/-- The excitation without the names `N`: what it would be had they never been given an excitation. -/
def without (x : Excitation ℝ V3) (N : List String) : Excitation ℝ V3 :=
  { x with types := x.types.filter fun nt => decide (nt.1 ∉ N) }

/-- The names `N` are those of dielectrics of relative permittivity one and magnetizable materials of relative permeability one, on elements of the right dimension. -/
def UnitMaterials (x : Excitation ℝ V3) (N : List String) : Prop :=
  ∀ n ∈ N, ∀ tv, x.types.get n = some tv → (tv = (.dielectric, .num 1) ∨ tv = (.magnetizable, .num 1)) ∧ ∃ g, x.physicals.get n = some g

/-- No element belongs both to a group with a name in `N` and to one with another name, if both have an excitation of the same kind. -/
def Apart (x : Excitation ℝ V3) (N : List String) : Prop :=
  ∀ s n n' g g', n ∈ N → n' ∉ N → HasKind x s n → HasKind x s n' → x.physicals.get n = some g → x.physicals.get n' = some g' → ∀ i ∈ g, i ∉ g'

/-- The mesh is of the kind needed by the solvers: for radial symmetry in the plane and of higher order, in three dimensions neither of these (and currents are not supported). -/
def Shaped (x : Excitation ℝ V3) : Prop :=
  (x.symmetry = .radial ∧ (∀ p ∈ x.mesh.points, p.y = 0) ∧ x.mesh.lineCols = 4) ∨
  (x.symmetry = .threeD ∧ (∃ p ∈ x.mesh.points, p.y ≠ 0) ∧ x.mesh.lineCols = 2 ∧ x.hasCurrent = false)

end Traceon.Spec
