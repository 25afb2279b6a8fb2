import Verif.Model.Irregular
import Mathlib.Algebra.Polynomial.Eval.Defs
import Mathlib.Algebra.Polynomial.Degree.Defs
import Mathlib.Analysis.Calculus.ContDiff.Defs

/-!
# What is assumed of `scipy.interpolate.CubicSpline`
-/
namespace Traceon.Spec

/-- The documented facts about `CubicSpline` that the theorems use: it goes through the data, it is
continuously differentiable, and it gives back a polynomial of degree at most three (and less than
the number of knots) from its samples. The first two hold for every boundary condition, the last one
for the default condition `not-a-knot`. -/
structure SplineContract (cs : SplineMaker) : Prop where
  knots : ∀ xs ys : List ℝ, 2 ≤ xs.length → ys.length = xs.length → xs.Pairwise (· < ·) →
    ∀ (i : ℕ) (x y : ℝ), xs[i]? = some x → ys[i]? = some y → cs xs ys x = y
  smooth : ∀ xs ys : List ℝ, 2 ≤ xs.length → ys.length = xs.length → xs.Pairwise (· < ·) →
    ContDiff ℝ 1 (cs xs ys)
  poly : ∀ (xs : List ℝ) (p : Polynomial ℝ), 2 ≤ xs.length → xs.Pairwise (· < ·) →
    p.natDegree ≤ 3 → p.natDegree < xs.length → cs xs (xs.map p.eval) = p.eval

end Traceon.Spec
