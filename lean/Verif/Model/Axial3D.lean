import Verif.Model.Axial
import Verif.Model.Path
import Verif.Model.Tracer

/-!
# Model of the expansion of a three-dimensional potential around the axis

three_d.c:90-340 (`axial_coefficients_3d`, `potential_3d_derivs`, `field_3d_derivs`), called by traceon/backend/__init__.py:444-489 and tracing.c:230-249.
`NU_MAX` is 4 and `M_MAX` is 8 (three_d.c:2-4). Arithmetic is exact, `atan2` is the argument of a complex number.
-/
namespace Traceon

/-- three_d.c:102-106: the table `factorial[nu][m]`, with the decimals of the source. -/
noncomputable def factorialTable : Nat → Nat → ℝ
  | 0, 0 => 1.0
  | 0, 1 => 1.0
  | 0, 2 => 0.5
  | 0, 3 => 0.1666666666666666
  | 0, 4 => 0.04166666666666666
  | 0, 5 => 0.008333333333333334
  | 0, 6 => 0.001388888888888889
  | 0, 7 => 1.984126984126984e-4
  | 1, 0 => 0.5
  | 1, 1 => 0.1666666666666666
  | 1, 2 => 0.04166666666666666
  | 1, 3 => 0.008333333333333334
  | 1, 4 => 0.001388888888888889
  | 1, 5 => 1.984126984126984e-4
  | 1, 6 => 2.48015873015873e-5
  | 1, 7 => 2.755731922398589e-6
  | 2, 0 => 0.04166666666666666
  | 2, 1 => 0.008333333333333334
  | 2, 2 => 0.001388888888888889
  | 2, 3 => 1.984126984126984e-4
  | 2, 4 => 2.48015873015873e-5
  | 2, 5 => 2.755731922398589e-6
  | 2, 6 => 2.755731922398589e-7
  | 2, 7 => 2.505210838544172e-8
  | 3, 0 => 0.001388888888888889
  | 3, 1 => 1.984126984126984e-4
  | 3, 2 => 2.48015873015873e-5
  | 3, 3 => 2.755731922398589e-6
  | 3, 4 => 2.755731922398589e-7
  | 3, 5 => 2.505210838544172e-8
  | 3, 6 => 2.08767569878681e-9
  | 3, 7 => 1.605904383682161e-10
  | _, _ => 0

/-- three_d.c:142-178: the table `output_base[nu][m]`. `p2`, `p4`, … are the powers of `p`; `w` is `sqrt(p2+1)`. -/
noncomputable def outputBase (p : ℝ) (nu m : Nat) : ℝ :=
  let w := Real.sqrt (p ^ 2 + 1)
  match nu, m with
  | 0, 0 => 1 / 2
  | 0, 1 => 1 / (4 * w)
  | 0, 2 => (3) / ((8 * p ^ 2 + 8))
  | 0, 3 => (15) / (w * (16 * p ^ 2 + 16))
  | 0, 4 => (105) / ((32 * p ^ 4 + 64 * p ^ 2 + 32))
  | 0, 5 => (945 * w) / ((64 * p ^ 6 + 192 * p ^ 4 + 192 * p ^ 2 + 64))
  | 0, 6 => (10395) / ((128 * p ^ 6 + 384 * p ^ 4 + 384 * p ^ 2 + 128))
  | 0, 7 => (135135 * w) / ((256 * p ^ 8 + 1024 * p ^ 6 + 1536 * p ^ 4 + 1024 * p ^ 2 + 256))
  | 1, 0 => -(2 * p ^ 2 - 1) / ((4 * p ^ 2 + 4))
  | 1, 1 => -(36 * p ^ 2 - 9) / (w * (16 * p ^ 2 + 16))
  | 1, 2 => -(90 * p ^ 2 - 15) / ((8 * p ^ 4 + 16 * p ^ 2 + 8))
  | 1, 3 => -(w * (4200 * p ^ 2 - 525)) / ((64 * p ^ 6 + 192 * p ^ 4 + 192 * p ^ 2 + 64))
  | 1, 4 => -(28350 * p ^ 2 - 2835) / ((64 * p ^ 6 + 192 * p ^ 4 + 192 * p ^ 2 + 64))
  | 1, 5 => -(w * (873180 * p ^ 2 - 72765)) / ((256 * p ^ 8 + 1024 * p ^ 6 + 1536 * p ^ 4 + 1024 * p ^ 2 + 256))
  | 1, 6 => -(1891890 * p ^ 2 - 135135) / ((64 * p ^ 8 + 256 * p ^ 6 + 384 * p ^ 4 + 256 * p ^ 2 + 64))
  | 1, 7 => -(291891600 * p ^ 2 - 18243225) / (w * (1024 * p ^ 8 + 4096 * p ^ 6 + 6144 * p ^ 4 + 4096 * p ^ 2 + 1024))
  | 2, 0 => (72 * p ^ 4 - 216 * p ^ 2 + 27) / ((16 * p ^ 4 + 32 * p ^ 2 + 16))
  | 2, 1 => (w * (1800 * p ^ 4 - 2700 * p ^ 2 + 225)) / ((32 * p ^ 6 + 96 * p ^ 4 + 96 * p ^ 2 + 32))
  | 2, 2 => (75600 * p ^ 4 - 75600 * p ^ 2 + 4725) / ((128 * p ^ 6 + 384 * p ^ 4 + 384 * p ^ 2 + 128))
  | 2, 3 => (w * (1587600 * p ^ 4 - 1190700 * p ^ 2 + 59535)) / ((256 * p ^ 8 + 1024 * p ^ 6 + 1536 * p ^ 4 + 1024 * p ^ 2 + 256))
  | 2, 4 => (8731800 * p ^ 4 - 5239080 * p ^ 2 + 218295) / ((128 * p ^ 8 + 512 * p ^ 6 + 768 * p ^ 4 + 512 * p ^ 2 + 128))
  | 2, 5 => (204324120 * p ^ 4 - 102162060 * p ^ 2 + 3648645) / (w * (256 * p ^ 8 + 1024 * p ^ 6 + 1536 * p ^ 4 + 1024 * p ^ 2 + 256))
  | 2, 6 => (20432412000 * p ^ 4 - 8756748000 * p ^ 2 + 273648375) / ((2048 * p ^ 10 + 10240 * p ^ 8 + 20480 * p ^ 6 + 20480 * p ^ 4 + 10240 * p ^ 2 + 2048))
  | 2, 7 => (545837292000 * p ^ 4 - 204688984500 * p ^ 2 + 5685805125) / (w * (4096 * p ^ 10 + 20480 * p ^ 8 + 40960 * p ^ 6 + 40960 * p ^ 4 + 20480 * p ^ 2 + 4096))
  | 3, 0 => -(3600 * p ^ 6 - 27000 * p ^ 4 + 20250 * p ^ 2 - 1125) / ((32 * p ^ 6 + 96 * p ^ 4 + 96 * p ^ 2 + 32))
  | 3, 1 => -(w * (705600 * p ^ 6 - 2646000 * p ^ 4 + 1323000 * p ^ 2 - 55125)) / ((256 * p ^ 8 + 1024 * p ^ 6 + 1536 * p ^ 4 + 1024 * p ^ 2 + 256))
  | 3, 2 => -(3175200 * p ^ 6 - 7938000 * p ^ 4 + 2976750 * p ^ 2 - 99225) / ((64 * p ^ 8 + 256 * p ^ 6 + 384 * p ^ 4 + 256 * p ^ 2 + 64))
  | 3, 3 => -(209563200 * p ^ 6 - 392931000 * p ^ 4 + 117879300 * p ^ 2 - 3274425) / (w * (256 * p ^ 8 + 1024 * p ^ 6 + 1536 * p ^ 4 + 1024 * p ^ 2 + 256))
  | 3, 4 => -(3405402000 * p ^ 6 - 5108103000 * p ^ 4 + 1277025750 * p ^ 2 - 30405375) / ((256 * p ^ 10 + 1280 * p ^ 8 + 2560 * p ^ 6 + 2560 * p ^ 4 + 1280 * p ^ 2 + 256))
  | 3, 5 => -(899026128000 * p ^ 6 - 1123782660000 * p ^ 4 + 240810570000 * p ^ 2 - 5016886875) / (w * (4096 * p ^ 10 + 20480 * p ^ 8 + 40960 * p ^ 6 + 40960 * p ^ 4 + 20480 * p ^ 2 + 4096))
  | 3, 6 => -(7641722088000 * p ^ 6 - 8187559380000 * p ^ 4 + 1535167383750 * p ^ 2 - 28429025625) / ((2048 * p ^ 12 + 12288 * p ^ 10 + 30720 * p ^ 8 + 40960 * p ^ 6 + 30720 * p ^ 4 + 12288 * p ^ 2 + 2048))
  | 3, 7 => -(w * (539287244496000 * p ^ 6 - 505581791715000 * p ^ 4 + 84263631952500 * p ^ 2 - 1404393865875)) / (8192 * p ^ 14 + 57344 * p ^ 12 + 172032 * p ^ 10 + 286720 * p ^ 8 + 286720 * p ^ 6 + 172032 * p ^ 4 + 57344 * p ^ 2 + 8192)
  | _, _ => 0

/-- three_d.c:108-120: `trig_cos_buffer` (`k` = 0) and `trig_sin_buffer` (`k` = 1) for a charge at `q`. -/
noncomputable def trigBuffer (q : V3) (k m : Nat) : ℝ :=
  let mu := atan2 q.y q.x
  if k = 0 then 1 / Real.pi * Real.cos (m * mu) * (if m = 0 then 1 / 2 else 1) else 1 / Real.pi * Real.sin (m * mu)

/-- three_d.c:122-197: what a unit charge at `q` adds to `output_coeffs[i][k][nu][m]`, where `z0` is `zs[i]`. `r_dependence` is the power `2*nu + 1 + m` of `r`. -/
noncomputable def axialCoefficient3dPoint (z0 : ℝ) (k nu m : Nat) (q : V3) : ℝ :=
  let r := 1 / V3.norm ⟨q.x, q.y, q.z - z0⟩
  let p := (q.z - z0) / norm2d q.x q.y
  outputBase p nu m * trigBuffer q k m * r ^ (2 * nu + 1 + m) * factorialTable nu m

/-- three_d.c:90-198, `axial_coefficients_3d`, the output for the position `z0` on the axis. The output array is filled with zeros at first (backend/__init__.py:448). -/
noncomputable def axialCoefficients3d (e : EffCharges V3) (z0 : ℝ) (k nu m : Nat) : ℝ := e.loop (axialCoefficient3dPoint z0 k nu m)

/-- The coefficients of the cubic polynomials for one interval, an array of shape (2, 4, 8, 4). [backend/__init__.py:380-381, three_d.c:200-297] -/
abbrev Row3D := Nat → Nat → Nat → Nat → ℝ

/-- three_d.c:223-224, one cubic polynomial -/
noncomputable def cubic3 (c : Nat → ℝ) (d : ℝ) : ℝ := d ^ 3 * c 0 + d ^ 2 * c 1 + d * c 2 + c 3

/-- three_d.c:270-271, `Adiff` and `Bdiff` -/
noncomputable def cubic3Diff (c : Nat → ℝ) (d : ℝ) : ℝ := 3 * d ^ 2 * c 0 + 2 * d * c 1 + c 2

/-- `for (nu = 0; nu < NU_MAX; nu++) for (m = 0; m < M_MAX; m++) sum_ += f(nu, m)` [three_d.c:221-222, 232-233, 264-266, 286-288] -/
noncomputable def sumNuM (f : Nat → Nat → ℝ) : ℝ := (List.range 4).foldl (fun s nu => (List.range 8).foldl (fun s m => s + f nu m) s) 0

/-- three_d.c:227-236: the sum in `potential_3d_derivs`, with the values `A`, `B` of the coefficients. -/
noncomputable def series3D (A B : Nat → Nat → ℝ) (x y : ℝ) : ℝ :=
  let r := norm2d x y
  let phi := atan2 y x
  sumNuM fun nu m => (A nu m * Real.cos (m * phi) + B nu m * Real.sin (m * phi)) * r ^ (m + 2 * nu)

/-- three_d.c:274-297: the field in `field_3d_derivs`, with the values `A`, `B` of the coefficients and of their derivatives. `MIN_DISTANCE_AXIS` is 1e-10 (three_d.c:2-4);
`pow(r, exp-1)` with `exp` = 0 is `1/r`. -/
noncomputable def seriesField3D (A B Ad Bd : Nat → Nat → ℝ) (x y : ℝ) : V3 :=
  let r := norm2d x y
  let phi := atan2 y x
  open Classical in
  if r < 1e-10 then ⟨-A 0 1, -B 0 1, -Ad 0 0⟩
  else
    let diffR := fun nu m : Nat => (A nu m * Real.cos (m * phi) + B nu m * Real.sin (m * phi)) * ((2 * nu + m : ℕ) * r ^ (((2 * nu + m : ℕ) : ℤ) - 1))
    let diffTheta := fun nu m : Nat => m * (-A nu m * Real.sin (m * phi) + B nu m * Real.cos (m * phi)) * r ^ (2 * nu + m)
    ⟨sumNuM fun nu m => -(diffR nu m * x / r + diffTheta nu m * -y / r ^ 2),
     sumNuM fun nu m => -(diffR nu m * y / r + diffTheta nu m * x / r ^ 2),
     sumNuM fun nu m => -((Ad nu m * Real.cos (m * phi) + Bd nu m * Real.sin (m * phi)) * r ^ (2 * nu + m))⟩

/-- three_d.c:200-237, `potential_3d_derivs`; `none` is a read outside of the coefficients. -/
noncomputable def potential3dDerivs (p : V3) (zs : List ℝ) (coeffs : List Row3D) : Option ℝ :=
  match axialIndex zs p.z with
  | none => some 0
  | some index => coeffs[index]?.map fun C =>
      let z_ := p.z - zs.getD index 0
      series3D (fun nu m => cubic3 (C 0 nu m) z_) (fun nu m => cubic3 (C 1 nu m) z_) p.x p.y

/-- three_d.c:239-297, `field_3d_derivs`, what is written into `field`; `none` is a read outside of the coefficients. (The Python function backend/__init__.py:484-489 does not return it.) -/
noncomputable def field3dDerivs (p : V3) (zs : List ℝ) (coeffs : List Row3D) : Option V3 :=
  match axialIndex zs p.z with
  | none => some 0
  | some index => coeffs[index]?.map fun C =>
      let z_ := p.z - zs.getD index 0
      seriesField3D (fun nu m => cubic3 (C 0 nu m) z_) (fun nu m => cubic3 (C 1 nu m) z_) (fun nu m => cubic3Diff (C 0 nu m) z_) (fun nu m => cubic3Diff (C 1 nu m) z_) p.x p.y

/-- tracing.c:229-241, `field_3d_derivs_traceable` (used by `Tracer3DAxial`, tracing.py:180-184); `none` is a read outside of the coefficients. -/
noncomputable def field3dDerivsTraceable (zs : List ℝ) (elec mag : List Row3D) (p : Phase) : Option V3 := do
  let e ← field3dDerivs p.pos zs elec
  let m ← field3dDerivs p.pos zs mag
  some (combineElecMagneticField p.vel e m 0)

end Traceon
