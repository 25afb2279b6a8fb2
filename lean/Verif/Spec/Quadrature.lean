import Verif.Spec.MatrixRadial
import Verif.Spec.Matrix3D
import Verif.Spec.Triangle
import Mathlib.Analysis.Calculus.ContDiff.Defs
import Mathlib.Analysis.Calculus.IteratedDeriv.Defs

/-!
# What it means that the quadrature rules are accurate
-/
namespace Traceon.Spec

/-- What the solver substitutes for the integral of `f` along a curved line element (radial symmetry): the sum over the 16 points with their weights. -/
noncomputable def sumAlong (l : Line4) (f : ℝ × ℝ → ℝ) : ℝ := (((lineJacRow l).zip (linePosRow l)).map fun k => k.1 * f k.2).sum

/-- What the solver substitutes for the integral of `f` over a triangle: the sum over the 12 points with their weights. -/
noncomputable def sumOver (t : Tri3) (f : V3 → ℝ) : ℝ := (((jacRow t).zip (posRow t)).map fun k => k.1 * f k.2).sum

/-- On the interval from -1 to 1 the function has 32 continuous derivatives; the first 31 are, like the function itself, bounded by `M`, the last one is bounded by `N`. -/
structure Smooth32 (g : ℝ → ℝ) (M N : ℝ) : Prop where
  smooth : ContDiffOn ℝ 32 g (Set.Icc (-1) 1)
  low : ∀ k ≤ 31, ∀ x ∈ Set.Icc (-1 : ℝ) 1, |iteratedDerivWithin k g (Set.Icc (-1) 1) x| ≤ M
  high : ∀ x ∈ Set.Icc (-1 : ℝ) 1, |iteratedDerivWithin 32 g (Set.Icc (-1) 1) x| ≤ N

/-- Seen from `p`, the triangle lies within a ball around `c` whose radius is `ρ` times the distance between `p` and `c`; `ρ ≤ 1/2`. -/
structure SmallFrom (p : V3) (t : Tri3) (c : V3) (ρ : ℝ) : Prop where
  pos : 0 < V3.norm (p - c)
  half : ρ ≤ 1 / 2
  h0 : V3.norm (t.v0 - c) ≤ ρ * V3.norm (p - c)
  h1 : V3.norm (t.v1 - c) ≤ ρ * V3.norm (p - c)
  h2 : V3.norm (t.v2 - c) ≤ ρ * V3.norm (p - c)

/-- The potential at `p` of uniform surface charges `q` on triangles `t`, in units in which the potential of a point charge is `1/(4πr)`. -/
noncomputable def exactPotential (p : V3) (t : Nat → Tri3) (q : Nat → ℝ) (js : List Nat) : ℝ :=
  (js.map fun j => q j * (triPotential (t j).v0 (t j).v1 (t j).v2 p / (4 * Real.pi))).sum

/-- The component along `n` of the field of these charges. -/
noncomputable def exactFieldAlong (p n : V3) (t : Nat → Tri3) (q : Nat → ℝ) (js : List Nat) : ℝ :=
  (js.map fun j => q j * (triFieldAlong (t j).v0 (t j).v1 (t j).v2 p n / (4 * Real.pi))).sum

end Traceon.Spec
