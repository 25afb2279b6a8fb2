import Verif.Props.Charges
import Verif.Model.FieldObj

/-!
# Forces between charges and currents (specification of C115)

`superpose f e` is the sum, over all quadrature points of all elements of `e`, of charge times weight times the value of `f` at the point.
-/
namespace Traceon.Spec

/-- The energy of the charges `e` in the potential `φ`. -/
noncomputable def energyIn (φ : V3 → ℝ) (e : EffCharges V3) : ℝ := superpose φ e

/-- The force of the field `E` on the charges `e`. -/
noncomputable def forceOn (E : V3 → V3) (e : EffCharges V3) : V3 := ⟨superpose (fun p => (E p).x) e, superpose (fun p => (E p).y) e, superpose (fun p => (E p).z) e⟩

/-- The torque of the field `E` on the charges `e` about the origin. -/
noncomputable def torqueOn (E : V3 → V3) (e : EffCharges V3) : V3 := forceOn (fun p => V3.cross p (E p)) e

/-- The energy of charged rings `e` in a potential `φ` that is the same everywhere on a ring: a ring of radius `r` has the length `2 π r`. -/
noncomputable def ringsEnergyIn (φ : V3 → ℝ) (e : EffCharges (ℝ × ℝ)) : ℝ := superpose (fun q => 2 * Real.pi * q.1 * φ ⟨q.1, 0, q.2⟩) e

/-- The force along the axis of a radially symmetric field `E` on charged rings `e`. -/
noncomputable def ringsForceOn (E : V3 → V3) (e : EffCharges (ℝ × ℝ)) : ℝ := superpose (fun q => 2 * Real.pi * q.1 * (E ⟨q.1, 0, q.2⟩).z) e

/-- The force along the axis of a radially symmetric magnetic field `B` on current loops `e`: the component along the axis of `I dl × B` is, for every piece of the loop, minus the current times the component
of the field away from the axis (the direction of the current is that of `y` where the loop crosses the half plane of `x`). -/
noncomputable def loopsForceOn (B : V3 → V3) (e : EffCharges V3) : ℝ := superpose (fun q => 2 * Real.pi * q.x * -(B ⟨q.x, 0, q.z⟩).x) e

/-- All the rings are at or to the right of the axis. -/
def RightOfAxis (e : EffCharges (ℝ × ℝ)) : Prop := ∀ row ∈ e.positions, ∀ q ∈ row, 0 ≤ q.1
@[inherit_doc RightOfAxis]
def LoopsRightOfAxis (e : EffCharges V3) : Prop := ∀ row ∈ e.positions, ∀ q ∈ row, 0 ≤ q.x

/-- All the charges, moved by `d`. -/
noncomputable def movedBy (d : V3) (e : EffCharges V3) : EffCharges V3 := ⟨e.nquad, e.charges, e.jacobians, e.positions.map (List.map (· + d))⟩

end Traceon.Spec
