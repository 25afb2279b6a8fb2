import Verif.Spec.Spline
import Verif.Spec.NotAKnot

/-!
# The two routines of scipy.interpolate used for the axial interpolation, as documented
-/
namespace Traceon

/-- `BPoly.from_derivatives(xi, yi)`: "construct a piecewise polynomial in the Bernstein basis, compatible with the specified values and derivatives at breakpoints"; with value, first and second derivative at every breakpoint the
polynomials have degree five. The coefficients (highest power first) are of powers of the distance from the left breakpoint. -/
def Spec.HermiteRows (rows : List (List ℝ)) (z y y1 y2 : List ℝ) : Prop :=
  rows.length = z.length - 1 ∧ ∀ (k : ℕ) (za zb ya yb ya1 yb1 ya2 yb2 : ℝ), z[k]? = some za → z[k + 1]? = some zb → y[k]? = some ya → y[k + 1]? = some yb → y1[k]? = some ya1 → y1[k + 1]? = some yb1 →
    y2[k]? = some ya2 → y2[k + 1]? = some yb2 →
    ∃ row, rows[k]? = some row ∧ row.length = 6 ∧ Spec.polyval row 0 = ya ∧ Spec.polyval row (zb - za) = yb ∧ deriv (Spec.polyval row) 0 = ya1 ∧ deriv (Spec.polyval row) (zb - za) = yb1 ∧
      deriv (deriv (Spec.polyval row)) 0 = ya2 ∧ deriv (deriv (Spec.polyval row)) (zb - za) = yb2

/-- The coefficients of the pieces of the spline `s`. -/
def Spec.PieceRows (rows : List (List ℝ)) (z : List ℝ) (s : ℝ → ℝ) : Prop :=
  rows.length = z.length - 1 ∧ ∀ (k : ℕ) (za zb : ℝ), z[k]? = some za → z[k + 1]? = some zb →
    ∃ row, rows[k]? = some row ∧ row.length = 4 ∧ ∀ t, za ≤ t → t ≤ zb → s t = Spec.polyval row (t - za)

/-- Both routines, for strictly ascending breakpoints. -/
def SplineLib.Documented (lib : SplineLib) : Prop :=
  (∀ z y y1 y2 : List ℝ, 2 ≤ z.length → z.Pairwise (· < ·) → y.length = z.length → y1.length = z.length → y2.length = z.length → Spec.HermiteRows (lib.hermite z y y1 y2) z y y1 y2) ∧
  ∃ cs : SplineMaker, Spec.NotAKnot cs ∧ ∀ z y : List ℝ, 2 ≤ z.length → z.Pairwise (· < ·) → y.length = z.length → Spec.PieceRows (lib.cubic z y) z (cs z y)

end Traceon
