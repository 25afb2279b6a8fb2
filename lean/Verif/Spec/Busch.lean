import Verif.Props.VacuumRadial2
import Verif.Spec.Energy
import Verif.Spec.GaussRadial

/-!
# Specification for C118: the flux through a circle around the axis
-/
namespace Traceon.Spec
open Real MeasureTheory

/-- The vector potential of a ring with unit current: the integral over the ring of the line element divided by `4π` times the distance to it. -/
noncomputable def ringVector (r z : ℝ) (p : V3) : V3 :=
  ⟨∫ φ in (0 : ℝ)..2 * π, -r * sin φ * (1 / (4 * π * V3.norm (p - ringPoint r z φ))), ∫ φ in (0 : ℝ)..2 * π, r * cos φ * (1 / (4 * π * V3.norm (p - ringPoint r z φ))), 0⟩

/-- The flux of the magnetic field strength of the current loops through the circle around the axis on which the point `p` lies, divided by `2π`: the circulation of the vector potential around this circle,
divided by `2π`, is the distance to the axis times the component of the vector potential along the circle. That it is the flux through the disk with this circle as its edge, is `C118_flux`. -/
noncomputable def circleFlux (e : EffCharges V3) (p : V3) : ℝ := superpose (fun q => p.x * (ringVector q.x q.z p).y - p.y * (ringVector q.x q.z p).x) e

/-- The flux of the vector field `H` through the disk of radius `s` around the axis at height `z`, in polar coordinates. -/
noncomputable def diskFlux (H : V3 → V3) (s z : ℝ) : ℝ := ∫ θ in (0 : ℝ)..2 * π, ∫ u in (0 : ℝ)..s, u * (H ⟨u * cos θ, u * sin θ, z⟩).z

/-- The momentum of an electron around the axis, divided by the mass, that belongs to its generalised coordinate: the angular momentum plus the charge over the mass times the flux function of the field of the coils. -/
noncomputable def canonicalMomentum (em mu0 : ℝ) (e : EffCharges V3) (p : Phase) : ℝ := angularMomentum p + em * mu0 * circleFlux e p.pos

/-- The flux of the field of the charged rings (of magnetic material) through the disk around the axis on whose edge the point `p` lies, divided by `2π`: the integral along the line from the axis to `p` of the component along the axis times the
distance to the axis. That it is this flux, is `C118_flux_magnetic`. -/
noncomputable def diskFunction (e : EffCharges (ℝ × ℝ)) (p : V3) : ℝ := superpose (fun q => ∫ u in (0 : ℝ)..1, u * (p.x ^ 2 + p.y ^ 2) * (coulombRing q.1 q.2 ⟨u * p.x, u * p.y, p.z⟩).z) e

/-- No charged ring meets the disk around the axis on whose edge `p` lies; the rings have positive radii. -/
def ClearDisk (e : EffCharges (ℝ × ℝ)) (p : V3) : Prop := ∀ row ∈ e.positions, ∀ q ∈ row, 0 < q.1 ∧ (q.2 ≠ p.z ∨ axisDist p < q.1)

/-- The same as `canonicalMomentum`, for a field of coils and magnetic material. -/
noncomputable def lensMomentum (em mu0 : ℝ) (f : FieldRadialBEM) (p : Phase) : ℝ := angularMomentum p + em * mu0 * (circleFlux f.cur p.pos + diskFunction f.mag p.pos)

end Traceon.Spec
