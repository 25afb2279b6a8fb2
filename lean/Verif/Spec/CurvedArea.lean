import Verif.Spec.MatrixRadial

/-!
# How evenly the parameter runs along a curved element
-/
namespace Traceon.Spec

/-- The square of the speed at which the element is traversed is `c² (1 + t₀ + t₁ α + t₂ α² + t₃ α³ + t₄ α⁴)`, where the absolute values of the `tₖ` add up to at most `θ`.
(It is always a polynomial of degree four. For a straight element it is constant.) -/
structure SpeedWithin (l : Line4) (c θ : ℝ) : Prop where
  pos : 0 < c
  speed : ∃ t : Fin 5 → ℝ, ∑ k, |t k| ≤ θ ∧
    ∀ α, V3.dot (elemTangent l α) (elemTangent l α) = c ^ 2 * (1 + ∑ k, t k * α ^ (k : ℕ))

/-- The inner nodes of the element lie within `d` of the points which divide the chord in three. -/
structure NearChord (l : Line4) (d : ℝ) : Prop where
  first : V3.norm (l.l2 - ((2 / 3 : ℝ) * l.l0 + (1 / 3 : ℝ) * l.l1)) ≤ d
  second : V3.norm (l.l3 - ((1 / 3 : ℝ) * l.l0 + (2 / 3 : ℝ) * l.l1)) ≤ d

end Traceon.Spec
