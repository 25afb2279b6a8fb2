import Verif.Model.SolveField
import Verif.Spec.Excitation

/-!
# Combining two problems on the same geometry
-/
namespace Traceon.Spec
open Excitation

/-- The third excitation of a group is `a` times the first plus `b` times the second. The material constants have to be the same. -/
def ExcCombination (a b : ℝ) : ExcType × ExcVal ℝ V3 → ExcType × ExcVal ℝ V3 → ExcType × ExcVal ℝ V3 → Prop
  | (.voltageFixed, .num u), (.voltageFixed, .num v), (.voltageFixed, .num w) => w = a * u + b * v
  | (.voltageFun, .fn f), (.voltageFun, .fn g), (.voltageFun, .fn h) => ∀ p, h p = a * f p + b * g p
  | (.magnetostaticPot, .num u), (.magnetostaticPot, .num v), (.magnetostaticPot, .num w) => w = a * u + b * v
  | (.current, .num u), (.current, .num v), (.current, .num w) => w = a * u + b * v
  | (.dielectric, .num u), (.dielectric, .num v), (.dielectric, .num w) => w = u ∧ w = v
  | (.magnetizable, .num u), (.magnetizable, .num v), (.magnetizable, .num w) => w = u ∧ w = v
  | _, _, _ => False

/-- The three excitations are given to the same groups (in the same order) of the same mesh, and the third is the combination of the others. -/
structure Combination (a b : ℝ) (x₁ x₂ x : Excitation ℝ V3) : Prop where
  mesh₁ : x₁.mesh = x.mesh
  mesh₂ : x₂.mesh = x.mesh
  symmetry₁ : x₁.symmetry = x.symmetry
  symmetry₂ : x₂.symmetry = x.symmetry
  names₁ : x₁.types.keys = x.types.keys
  names₂ : x₂.types.keys = x.types.keys
  values : ∀ n t₁ t₂ t, x₁.types.get n = some t₁ → x₂.types.get n = some t₂ → x.types.get n = some t → ExcCombination a b t₁ t₂ t

/-- There are at least two excited lines per thread, as far as there are any (with fewer the matrix is not filled, see C36). -/
def EnoughLines (env : SolveEnv) (x : Excitation ℝ V3) : Prop :=
  x.symmetry = .radial → ∀ s, (∃ i, i < x.mesh.lines.length ∧ Excited x s i) →
    ∃ idx : List Nat, idx.Nodup ∧ (∀ i ∈ idx, i < x.mesh.lines.length ∧ Excited x s i) ∧ 2 * env.threads ≤ idx.length

/-- `a` times the first plus `b` times the second; an exception if one of them raises. -/
def Combined (a b : ℝ) (u v : Option ℝ) : Option ℝ := u.bind fun u => v.map fun v => a * u + b * v
@[inherit_doc Combined]
def CombinedV (a b : ℝ) (u v : Option V3) : Option V3 := u.bind fun u => v.map fun v => a * u + b * v

end Traceon.Spec
