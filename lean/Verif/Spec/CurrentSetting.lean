import Verif.Model.SuperpositionField

/-!
# Superposition of the fields of coils: settings of the currents
-/
namespace Traceon.PyObj

/-- `FieldRadialBEM.current_field_at_point`, solver.py:671-678. The other classes have no such method: `none`. -/
noncomputable def currentFieldAtPoint (p : V3) : PyObj → Option V3
  | radial f => some (currentField p f.cur)
  | _ => none

end Traceon.PyObj

namespace Traceon.Spec

/-- Only coils with a current and magnetizable materials. -/
def OnlyCurrents (x : Excitation ℝ V3) : Prop :=
  ∀ n tv, x.types.get n = some tv → (tv.1 = .current ∨ tv.1 = .magnetizable) ∧ ∃ v, tv.2 = .num v

/-- `y` is `x` with other currents, except that currents which are zero stay zero. -/
structure CurrentSettingOf (x y : Excitation ℝ V3) : Prop where
  mesh : y.mesh = x.mesh
  symmetry : y.symmetry = x.symmetry
  names : y.types.keys = x.types.keys
  currents : ∀ m v, x.types.get m = some (.current, v) → ∃ w, y.types.get m = some (.current, .num w)
  zero : ∀ m, x.types.get m = some (.current, .num 0) → y.types.get m = some (.current, .num 0)
  same : ∀ m v, x.types.get m = some (.magnetizable, v) → y.types.get m = some (.magnetizable, v)

/-- The current assigned to a name. -/
def currentOf (x : Excitation ℝ V3) (n : String) : ℝ :=
  match x.types.get n with
  | some (_, .num v) => v
  | _ => 0

/-- The part of a magnetic field that is due to magnetized materials: the field minus that of the coils (fields which have no coils have only this part). -/
noncomputable def materialField (f : PyObj) (p : V3) : Option V3 :=
  (f.magnetostaticField p).map fun H => H - (f.currentFieldAtPoint p).getD 0

end Traceon.Spec
