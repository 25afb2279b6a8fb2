import Verif.Model.Spline

/-!
# What is assumed about scipy's splines (specification)
-/
namespace Traceon

/-- The value of a polynomial with the coefficients `cs`, the highest power first. -/
noncomputable def Spec.polyval (cs : List ℝ) (x : ℝ) : ℝ := cs.foldl (fun acc c => acc * x + c) 0

/-- On every interval the polynomial takes the given values at both ends. -/
def Spec.Interpolates (degree : Nat) (rows : List (List ℝ)) (z y : List ℝ) : Prop :=
  rows.length = z.length - 1 ∧ ∀ (k : ℕ) (za zb ya yb : ℝ), z[k]? = some za → z[k + 1]? = some zb → y[k]? = some ya → y[k + 1]? = some yb →
    ∃ row, rows[k]? = some row ∧ row.length = degree + 1 ∧ Spec.polyval row 0 = ya ∧ Spec.polyval row (zb - za) = yb

/-- For strictly ascending samples the routines interpolate: `BPoly.from_derivatives` with three data per sample gives polynomials of degree five, `CubicSpline` of degree three. -/
def SplineLib.Correct (lib : SplineLib) : Prop :=
  (∀ z y y1 y2 : List ℝ, 2 ≤ z.length → z.Pairwise (· < ·) → y.length = z.length → y1.length = z.length → y2.length = z.length → Spec.Interpolates 5 (lib.hermite z y y1 y2) z y) ∧
  (∀ z y : List ℝ, 2 ≤ z.length → z.Pairwise (· < ·) → y.length = z.length → Spec.Interpolates 3 (lib.cubic z y) z y)

end Traceon
