import Verif.Spec.Linear
import Verif.Spec.Solve
import Verif.Model.SuperpositionField

/-!
# Unit excitations and voltage settings
-/
namespace Traceon.Spec
open Excitation

/-- `y` is `x` with 1 V on `name`, 0 V on all other names with a fixed voltage, and the same dielectrics. -/
structure UnitOf (x : Excitation ℝ V3) (name : String) (y : Excitation ℝ V3) : Prop where
  rest : y = { x with types := y.types }
  names : y.types.keys = x.types.keys
  one : y.types.get name = some (.voltageFixed, .num 1)
  zero : ∀ m v, m ≠ name → x.types.get m = some (.voltageFixed, v) → y.types.get m = some (.voltageFixed, .num 0)
  same : ∀ m v, x.types.get m = some (.dielectric, v) → y.types.get m = some (.dielectric, v)

/-- `y` is `x` with other fixed voltages, except that voltages which are zero stay zero. -/
structure SettingOf (x y : Excitation ℝ V3) : Prop where
  mesh : y.mesh = x.mesh
  symmetry : y.symmetry = x.symmetry
  names : y.types.keys = x.types.keys
  volts : ∀ m v, x.types.get m = some (.voltageFixed, v) → ∃ w, y.types.get m = some (.voltageFixed, .num w)
  zero : ∀ m, x.types.get m = some (.voltageFixed, .num 0) → y.types.get m = some (.voltageFixed, .num 0)
  same : ∀ m v, x.types.get m = some (.dielectric, v) → y.types.get m = some (.dielectric, v)

end Traceon.Spec
