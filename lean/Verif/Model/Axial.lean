import Verif.Model.Charges

/-!
# Model of axial derivatives and of axially interpolated fields

radial_ring.c:106-134, radial.c:18-36, 85-103, 312-385, and `FieldAxial` of solver.py:949-1007 and interpolation.py:15-76.
-/
namespace Traceon

/-! ## Derivatives of the potential of a ring on the axis -/

/-- radial_ring.c:112-116: `derivs[0]`, `derivs[1]` and the recurrence, before the multiplication with `r/2`. The code stops at n = 8 (`DERIV_2D_MAX` = 9). -/
noncomputable def ringDerivsRaw (z0 r z : ℝ) : Nat → ℝ
  | 0 => 1 / norm2d (z0 - z) r
  | 1 => -(z0 - z) / norm2d (z0 - z) r ^ 3
  | n + 2 => -1 / norm2d (z0 - z) r ^ 2 *
      ((2 * (n + 1 : ℕ) + 1) * (z0 - z) * ringDerivsRaw z0 r z (n + 1) + ((n + 1 : ℕ) : ℝ) ^ 2 * ringDerivsRaw z0 r z n)

/-- radial_ring.c:106-119, `axial_derivatives_radial_ring` -/
noncomputable def axialDerivativesRadialRing (z0 r z : ℝ) (n : Nat) : ℝ := ringDerivsRaw z0 r z n * (r / 2)

/-- radial_ring.c:70-73, `current_potential_axial_radial_ring` -/
noncomputable def currentPotentialAxialRadialRing (z0 r z : ℝ) : ℝ :=
  -(z0 - z) / (2 * Real.sqrt ((z0 - z) * (z0 - z) + r * r))

/-- radial_ring.c:121-133, `current_axial_derivatives_radial_ring`. `pow(x, 1.5)` is `x*sqrt(x)`. -/
noncomputable def currentAxialDerivativesRadialRing (z0 r z : ℝ) : Nat → ℝ
  | 0 => -(z0 - z) / (2 * Real.sqrt ((z0 - z) * (z0 - z) + r * r))
  | 1 => -r * r / (2 * (((z0 - z) * (z0 - z) + r * r) * Real.sqrt ((z0 - z) * (z0 - z) + r * r)))
  | n + 2 =>
      -(2 * (n + 2 : ℕ) - 1) * ((z0 - z) / norm2d (z0 - z) r) / norm2d (z0 - z) r * currentAxialDerivativesRadialRing z0 r z (n + 1) -
        (((n + 2 : ℕ) : ℝ) * (n + 2 : ℕ) - 2 * (n + 2 : ℕ)) / (norm2d (z0 - z) r * norm2d (z0 - z) r) * currentAxialDerivativesRadialRing z0 r z n

/-- radial.c:18-36, `axial_derivatives_radial`: the `n`-th derivative at `z0`. -/
noncomputable def axialDerivativesRadial (z0 : ℝ) (e : EffCharges (ℝ × ℝ)) (n : Nat) : ℝ :=
  e.loop (fun q => axialDerivativesRadialRing z0 q.1 q.2 n)

/-- radial.c:85-103, `current_axial_derivatives_radial` -/
noncomputable def currentAxialDerivativesRadial (z0 : ℝ) (e : EffCharges V3) (n : Nat) : ℝ :=
  e.loop (fun q => currentAxialDerivativesRadialRing z0 q.x q.z n)

/-- radial.c:38-53, `current_potential_axial` -/
noncomputable def currentPotentialAxial (z0 : ℝ) (e : EffCharges V3) : ℝ :=
  e.loop (fun q => currentPotentialAxialRadialRing z0 q.x q.z)

/-- solver.py:773-790, `get_electrostatic_axial_potential_derivatives`, at one position on the axis. -/
noncomputable def getElectrostaticAxialPotentialDerivatives (electrostatic : EffCharges (ℝ × ℝ)) (z0 : ℝ) (n : Nat) : ℝ :=
  axialDerivativesRadial z0 electrostatic n

/-- solver.py:814-832, `get_current_axial_potential_derivatives`, at one position on the axis. -/
noncomputable def getCurrentAxialPotentialDerivatives (current : EffCharges V3) (z0 : ℝ) (n : Nat) : ℝ :=
  currentAxialDerivativesRadial z0 current n

/-- solver.py:792-812, `get_magnetostatic_axial_potential_derivatives`, at one position on the axis. -/
noncomputable def getMagnetostaticAxialPotentialDerivatives (magnetostatic : EffCharges (ℝ × ℝ)) (current : EffCharges V3) (z0 : ℝ) (n : Nat) : ℝ :=
  axialDerivativesRadial z0 magnetostatic n + getCurrentAxialPotentialDerivatives current z0 n

/-! ## Interpolated fields -/

/-- A table of coefficients, of shape (number of intervals, 9, 6). [interpolation.py:22-34, radial.c:308-343] -/
abbrev Coeffs := List (List (List ℝ))

/-- radial.c:319-333 and 351-364: `none` if z is outside the samples, otherwise the index of the interval. The samples are assumed to have at least
two entries (one is refused by solver.py:965). `(int)` truncates towards zero. `N_z-1` is of type `size_t`: the comparison in `MIN` is one of naturals. -/
noncomputable def axialIndex (zs : List ℝ) (z : ℝ) : Option Nat :=
  open Classical in
  if zs.getD 0 0 ≤ z ∧ z ≤ zs.getD (zs.length - 1) 0 then
    let dz := zs.getD 1 0 - zs.getD 0 0
    let q := (z - zs.getD 0 0) / dz
    let index : Int := if 0 ≤ q then ⌊q⌋ else ⌈q⌉
    some (min (max 0 index).toNat (zs.length - 1))
  else none

/-- radial.c:338-340, one quintic polynomial -/
noncomputable def quintic (c : List ℝ) (d : ℝ) : ℝ :=
  c.getD 0 0 * d ^ 5 + c.getD 1 0 * d ^ 4 + c.getD 2 0 * d ^ 3 + c.getD 3 0 * d ^ 2 + c.getD 4 0 * d + c.getD 5 0

/-- radial.c:333-340: `derivs[0..8]`, `none` if the row of coefficients does not exist (the code then reads past the end of the array). -/
noncomputable def axialDerivs (zs : List ℝ) (coeffs : Coeffs) (index : Nat) (z : ℝ) : Option (Nat → ℝ) :=
  coeffs[index]?.map (fun C i => quintic (C.getD i []) (z - zs.getD index 0))

/-- radial.c:342 -/
noncomputable def seriesPotential (r : ℝ) (d : Nat → ℝ) : ℝ :=
  d 0 - r ^ 2 / 4 * d 2 + r ^ 4 / 64 * d 4 - r ^ 6 / 2304 * d 6 + r ^ 8 / 147456 * d 8

/-- radial.c:374-380 -/
noncomputable def seriesField (p : V3) (r : ℝ) (d : Nat → ℝ) : V3 :=
  let fr := 0.5 * (d 2 - r ^ 2 / 8 * d 4 + r ^ 4 / 192 * d 6 - r ^ 6 / 9216 * d 8)
  let fz := -d 1 + r ^ 2 / 4 * d 3 - r ^ 4 / 64 * d 5 + r ^ 6 / 2304 * d 7
  ⟨p.x * fr, p.y * fr, fz⟩

/-- radial.c:312-343, `potential_radial_derivs`; `none` is a read outside of the coefficients. -/
noncomputable def potentialRadialDerivs (p : V3) (zs : List ℝ) (coeffs : Coeffs) : Option ℝ :=
  match axialIndex zs p.z with
  | none => some 0
  | some index => (axialDerivs zs coeffs index p.z).map (seriesPotential (norm2d p.x p.y))

/-- radial.c:345-380, `field_radial_derivs`; `none` is a read outside of the coefficients. -/
noncomputable def fieldRadialDerivs (p : V3) (zs : List ℝ) (coeffs : Coeffs) : Option V3 :=
  match axialIndex zs p.z with
  | none => some 0
  | some index => (axialDerivs zs coeffs index p.z).map (seriesField p (norm2d p.x p.y))

end Traceon
