import Verif.Spec.Irregular
import Mathlib.Analysis.Calculus.ContDiff.Basic

/-!
# `scipy.interpolate.CubicSpline` with its default boundary condition, as documented
-/
namespace Traceon.Spec

/-- On the set `I` the function is a polynomial of degree at most three. -/
def CubicOn (s : ℝ → ℝ) (I : Set ℝ) : Prop := ∃ p : Polynomial ℝ, p.natDegree ≤ 3 ∧ ∀ t ∈ I, s t = p.eval t

/-- "Piecewise cubic polynomial which is twice continuously differentiable", through the data, with the boundary condition `not-a-knot`: "the first and second segment at a curve end are the same polynomial". The first and the last
polynomial are used for extrapolation. -/
structure CubicSplineThrough (xs ys : List ℝ) (s : ℝ → ℝ) : Prop where
  through : ∀ (i : ℕ) (x y : ℝ), xs[i]? = some x → ys[i]? = some y → s x = y
  smooth : ContDiff ℝ 2 s
  pieces : ∀ (i : ℕ) (x x' : ℝ), xs[i]? = some x → xs[i + 1]? = some x' → CubicOn s (Set.Icc x x')
  first : ∀ x : ℝ, xs[2]? = some x → CubicOn s (Set.Iic x)
  last : ∀ x : ℝ, xs[xs.length - 3]? = some x → CubicOn s (Set.Ici x)

/-- `CubicSpline(x, y)`: for two or three knots a polynomial of the degree one or two, for more knots the spline above. -/
structure NotAKnot (cs : SplineMaker) : Prop where
  few : ∀ xs ys : List ℝ, 2 ≤ xs.length → xs.length ≤ 3 → ys.length = xs.length → xs.Pairwise (· < ·) →
    ∃ p : Polynomial ℝ, p.natDegree < xs.length ∧ cs xs ys = p.eval ∧ ∀ (i : ℕ) (x y : ℝ), xs[i]? = some x → ys[i]? = some y → p.eval x = y
  many : ∀ xs ys : List ℝ, 4 ≤ xs.length → ys.length = xs.length → xs.Pairwise (· < ·) → CubicSplineThrough xs ys (cs xs ys)

end Traceon.Spec
