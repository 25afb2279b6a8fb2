import Verif.Model.Axial

/-!
# Model of the interpolation of the axial derivatives (interpolation.py:73-99, 114-131)

The two routines of scipy that are used are parameters; what they are documented to do is stated in `SplineLib.Correct` (Spec/Spline.lean).
-/
namespace Traceon

/-- The routines of scipy.interpolate, returning for every interval the coefficients (highest power first) of a polynomial in the distance from the left end. [used in interpolation.py:73-99] -/
structure SplineLib where
  /-- `PPoly.from_bernstein_basis(BPoly.from_derivatives(z, np.array([y, dydz, dydz2]).T))`, interpolation.py:73-75; the arguments are `z`, `y`, `dydz` and `dydz2`. -/
  hermite : List ℝ → List ℝ → List ℝ → List ℝ → List (List ℝ)
  /-- `CubicSpline(z, d)` -/
  cubic : List ℝ → List ℝ → List (List ℝ)

/-- The rows of coefficients for the derivative `i`, interpolation.py:85-97: `c[:, i, start_index:] = ppoly.c.T`, in an array of zeros. `derivs[i][k]` is derivative `i` at sample `k`. -/
def splineRows (lib : SplineLib) (z : List ℝ) (derivs : List (List ℝ)) (i : Nat) : List (List ℝ) :=
  if i + 2 < derivs.length then lib.hermite z (derivs.getD i []) (derivs.getD (i + 1) []) (derivs.getD (i + 2) [])
  else (lib.cubic z (derivs.getD i [])).map ([0, 0] ++ ·)

/-- interpolation.py:77-99, `_quintic_spline_coefficients`; the assertion that the samples are equally spaced is a hypothesis of the theorems. -/
def quinticSplineCoefficients (lib : SplineLib) (z : List ℝ) (derivs : List (List ℝ)) : Coeffs :=
  (List.range (z.length - 1)).map (fun k => (List.range derivs.length).map (fun i => (splineRows lib z derivs i).getD k []))

/-- interpolation.py:114-131, `FieldRadialAxial._get_interpolation_coefficients`: derivatives 0 to 8 at every sample (transposed), interpolated. `D n z` is derivative `n` at `z`. -/
def interpolationCoefficients (lib : SplineLib) (z : List ℝ) (D : Nat → ℝ → ℝ) : Coeffs :=
  quinticSplineCoefficients lib z ((List.range 9).map (fun n => z.map (D n)))

/-- `np.linspace(zmin, zmax, N)` (interpolation.py:120), for `N` at least two. -/
noncomputable def linspace (zmin zmax : ℝ) (N : Nat) : List ℝ := (List.range N).map (fun k : ℕ => zmin + (k : ℝ) * ((zmax - zmin) / (N - 1 : ℕ)))

end Traceon
