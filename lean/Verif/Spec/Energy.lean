import Verif.Spec.Tracer

/-!
# Energy and angular momentum of an electron
-/
namespace Traceon.Spec

/-- The position and the velocity in a vector of six numbers. -/
def state (y : Fin 6 → ℝ) : Phase := ⟨⟨y 0, y 1, y 2⟩, ⟨y 3, y 4, y 5⟩⟩

/-- The kinetic energy of an electron in electron volts, `m v² / 2` divided by `e`, where `em` is the (negative) charge over the mass. -/
noncomputable def kineticEnergy (em : ℝ) (p : Phase) : ℝ := V3.dot p.vel p.vel / (2 * -em)

/-- The energy in electron volts of an electron in the electrostatic potential `φ`: the electron has a negative charge. -/
noncomputable def energy (em : ℝ) (φ : V3 → ℝ) (p : Phase) : ℝ := kineticEnergy em p - φ p.pos

/-- The angular momentum around the z axis, divided by the mass. -/
def angularMomentum (p : Phase) : ℝ := p.pos.x * p.vel.y - p.pos.y * p.vel.x

end Traceon.Spec
