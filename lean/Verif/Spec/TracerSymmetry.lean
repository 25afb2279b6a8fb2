import Verif.Spec.Tracer
import Verif.Spec.Rigid

/-!
# Trajectories in moved, reflected and rescaled fields
-/
namespace Traceon.Spec

/-- A linear subspace of directions: the axis, a plane through the origin. -/
structure Directions (W : V3 → Prop) : Prop where
  zero : W 0
  add : ∀ a b, W a → W b → W (a + b)
  smul : ∀ (k : ℝ) a, W a → W (k * a)

/-- The motion takes coordinate axes to coordinate axes: the largest of the absolute values of the coordinates of a vector stays the same. Examples are translations, reflections in a coordinate plane and
rotations by a right angle around a coordinate axis. -/
def RigidMotion.KeepsAxes (R : RigidMotion) : Prop :=
  ∀ v, max |(R.lin v).x| (max |(R.lin v).y| |(R.lin v).z|) = max |v.x| (max |v.y| |v.z|)

/-- Where a row of a trajectory goes if space is moved by `R` and everything happens `κ` times as fast. -/
noncomputable def movedRow (R : RigidMotion) (κ : ℝ) (row : ℝ × Phase) : ℝ × Phase :=
  (row.1 / κ, ⟨R.move row.2.pos, κ * R.lin row.2.vel⟩)

end Traceon.Spec
