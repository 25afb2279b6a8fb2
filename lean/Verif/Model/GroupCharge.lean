import Verif.Model.ElementCharge
import Verif.Model.FieldObj
import Verif.Model.Excitation

/-!
# Model of `charge_on_elements` as a method of the fields (solver.py:633-646)
-/
namespace Traceon.PyObj

/-- `FieldBEM.charge_on_elements`, solver.py:633-646, with `area_of_element` of `FieldRadialBEM` (solver.py:834-837) and of `Field3D_BEM` (solver.py:944-946). The other classes have no such
method: `none`. -/
noncomputable def chargeOnElements : PyObj → List Nat → Option ℝ
  | radial f, is => Traceon.chargeOnElements (areaOfElementRadial f.elec) f.elec.charges is
  | threeD f, is => Traceon.chargeOnElements (areaOfElement3d f.elec) f.elec.charges is
  | _, _ => none

end Traceon.PyObj

namespace Traceon

/-- How the documentation says to compute the charge on a physical group (solver.py:634-636): `field.charge_on_elements(names[n])`, `names` being the second value that
`excitation.get_electrostatic_active_elements()` returns (excitation.py:291-304). `none`: one of these raises. -/
noncomputable def groupCharge (x : Excitation ℝ V3) (f : PyObj) (n : String) : Option ℝ := do
  let (_, names) ← x.activeElements .electrostatic
  f.chargeOnElements (← names.get n)

end Traceon
