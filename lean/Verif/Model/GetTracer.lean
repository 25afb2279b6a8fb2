import Verif.Model.Tracer

/-!
# `get_tracer` and the call of a tracer (solver.py, interpolation.py, tracing.py)
-/
namespace Traceon

/-- The force that the tracer obtained from `field.get_tracer(bounds)` feels (solver.py:839-840, 948-949, 1087-1088; interpolation.py:201-202), `fb` is what `set_bounds` was called with, if it was.
`none` is for objects without `get_tracer`. Simplified: where the radial series is read outside of its coefficients (see C53) the force is taken to be zero. -/
noncomputable def PyObj.tracerForce (f : PyObj) (fb : Option UserBounds) : Option (Phase → V3) :=
  match f with
  | .radial g => some (tracerRadialForce g fb)
  | .threeD g => some (tracer3dForce g fb)
  | .axial g => some fun p => (fieldRadialDerivsTraceable g.zs g.elec g.mag p).getD 0
  | _ => none

/-- `field.get_tracer(bounds)(position, velocity, atol)`: tracing.py:149-162 `TracerRadialBEM.__call__`, 164-171 `TracerRadialAxial.__call__`, 173-178 `Tracer3D_BEM.__call__`; all three convert the velocity
(given in eV) first. `e` and `m` are the charge and the mass of the electron (scipy.constants), `B` is the block size. The rows are those of `times` and `positions`. -/
noncomputable def PyObj.trace (f : PyObj) (fb : Option UserBounds) (e m : ℝ) (bounds : Bounds) (atol : ℝ) (B fuel : Nat) (position velocity : V3) : Option (List Row) := do
  let force ← f.tracerForce fb
  traceParticle force bounds atol B fuel position (convertVelocityToSI e m velocity)

end Traceon
