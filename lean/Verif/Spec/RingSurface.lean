import Verif.Spec.MatrixRadial
import Verif.Props.EllipticAccuracy

/-!
# Charged surfaces of revolution
-/
namespace Traceon.Spec
open Real

/-- The potential at `p` of the surface which the line element `l` sweeps out when it is rotated around the axis, with unit surface charge (in units in which a point charge has the
potential `1/(4πr)`): the surface element at the parameter `α` and angle `φ` is `x |tangent| dφ dα`. -/
noncomputable def surfacePotential (l : Line4) (p : V3) : ℝ :=
  ∫ α in (-1 : ℝ)..1, ∫ φ in (0 : ℝ)..2 * π, V3.norm (elemTangent l α) * (elemPoint l α).x *
    (1 / (4 * π * V3.norm (p - ⟨(elemPoint l α).x * cos φ, (elemPoint l α).x * sin φ, (elemPoint l α).z⟩)))

/-- The straight line element from `a` to `b`; its inner nodes divide it in three equal parts. -/
noncomputable def straight (a b : V3) : Line4 := ⟨a, b, a + (1 / 3 : ℝ) * (b - a), a + (2 / 3 : ℝ) * (b - a)⟩

/-- The distance between `p` and the circle around the axis described by the middle of the segment. -/
noncomputable def middleDistance (p a b : V3) : ℝ := √((p.z - (a.z + b.z) / 2) ^ 2 + (√(p.x ^ 2 + p.y ^ 2) - (a.x + b.x) / 2) ^ 2)

/-- The segment lies in the half-plane `y = 0`, `x ≥ 0`, and half its length is at most `ρ` times its distance to `p`, `ρ < 1`. -/
structure SeenFrom (p a b : V3) (ρ : ℝ) : Prop where
  ya : a.y = 0
  yb : b.y = 0
  xa : 0 ≤ a.x
  xb : 0 ≤ b.x
  away : 0 < middleDistance p a b
  short : V3.norm (b - a) / 2 ≤ ρ * middleDistance p a b
  lt_one : ρ < 1

/-- The area of the swept surface divided by `4πD`, times a number that decreases with `ρ³¹`. -/
noncomputable def quadratureBound (p a b : V3) (ρ : ℝ) : ℝ :=
  π * (a.x + b.x) * V3.norm (b - a) / (4 * π * middleDistance p a b) * (5 * (ρ ^ 31 * (1 + ρ) / (1 - ρ) ^ 2) + 2e-16 / (1 - ρ))

end Traceon.Spec
