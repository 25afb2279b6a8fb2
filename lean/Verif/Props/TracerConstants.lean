import Verif.Model.Tracer
import Mathlib.Analysis.Real.Pi.Bounds

/-! # The constants of the force (C44) -/
namespace Traceon
open Real

/-- The elementary charge in Coulomb (exact in the SI). -/
noncomputable def Spec.elementaryCharge : ℝ := 1.602176634e-19
/-- The mass of the electron in kilogram (CODATA 2018). -/
noncomputable def Spec.electronMass : ℝ := 9.1093837015e-31

/-- **C44** (constants). The factor between force and acceleration is the charge of the electron over its mass, up to a relative error of `1e-15`, and the factor between `H` and
the flux density is the permeability of vacuum, `4π·10⁻⁷` up to a relative error of `1e-9`. -/
theorem C44_constants : |constEM - -(Spec.elementaryCharge / Spec.electronMass)| ≤ 1e-15 * (Spec.elementaryCharge / Spec.electronMass) ∧
    |constMu0 - 4 * π * 1e-7| ≤ 1e-9 * (4 * π * 1e-7) := by
  constructor
  · unfold constEM Spec.elementaryCharge Spec.electronMass
    rw [abs_le]; constructor <;> norm_num
  · have h1 := pi_gt_d20
    have h2 := pi_lt_d20
    unfold constMu0
    rw [abs_le]; constructor <;> norm_num at h1 h2 ⊢ <;> linarith

end Traceon
