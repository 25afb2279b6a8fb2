import Verif.Spec.Gauss
import Verif.Props.EllipticAccuracy

/-!
# Specification for C112: the field of charged rings according to Coulomb's law
-/
namespace Traceon.Spec
open Real

/-- The field at `p` of a ring with unit line charge: the integral over the ring (length element `r dφ`) of the field `(p - q) / (4 π |p - q|³)` of a point charge. -/
noncomputable def coulombRing (r z : ℝ) (p : V3) : V3 :=
  ⟨∫ φ in (0 : ℝ)..2 * π, r * ((p.x - (ringPoint r z φ).x) / (4 * π * V3.norm (p - ringPoint r z φ) ^ 3)),
   ∫ φ in (0 : ℝ)..2 * π, r * ((p.y - (ringPoint r z φ).y) / (4 * π * V3.norm (p - ringPoint r z φ) ^ 3)),
   ∫ φ in (0 : ℝ)..2 * π, r * ((p.z - (ringPoint r z φ).z) / (4 * π * V3.norm (p - ringPoint r z φ) ^ 3))⟩

/-- The field of a distribution of charged rings. -/
noncomputable def coulombRings (e : EffCharges (ℝ × ℝ)) (p : V3) : V3 :=
  ⟨superpose (fun q => (coulombRing q.1 q.2 p).x) e, superpose (fun q => (coulombRing q.1 q.2 p).y) e, superpose (fun q => (coulombRing q.1 q.2 p).z) e⟩

/-- The whole ring is inside the box. -/
def RingInside (a b : V3) (r z : ℝ) : Prop := ∀ φ, InsideBox a b (ringPoint r z φ)

/-- The whole ring is outside the box. -/
def RingOutside (a b : V3) (r z : ℝ) : Prop := ∀ φ, OutsideBox a b (ringPoint r z φ)

end Traceon.Spec
