import Verif.Spec.Triangle

/-!
# Points outside the sphere around a triangle
-/
namespace Traceon.Spec

/-- The triangle lies within a sphere around `c` whose radius is `ρ < 1` times the distance between `c` and `p`. -/
structure Closer (v0 v1 v2 p c : V3) (ρ : ℝ) : Prop where
  pos : 0 < V3.norm (p - c)
  lt : ρ < 1
  h0 : V3.norm (v0 - c) ≤ ρ * V3.norm (p - c)
  h1 : V3.norm (v1 - c) ≤ ρ * V3.norm (p - c)
  h2 : V3.norm (v2 - c) ≤ ρ * V3.norm (p - c)

/-- What is left of `1 / (1 - ρ)³ = ∑ (n+1)(n+2)/2 ρⁿ` after `N` terms. -/
noncomputable def cubeTail (N : ℕ) (ρ : ℝ) : ℝ := 1 / (1 - ρ) ^ 3 - ∑ n ∈ Finset.range N, ((n : ℝ) + 1) * (n + 2) / 2 * ρ ^ n

end Traceon.Spec
