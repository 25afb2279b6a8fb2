import Verif.Lemmas.AxialMoment
import Verif.Lemmas.Legendre8
import Verif.Props.EllipticAccuracy
import Verif.Props.Axial3
import Verif.Spec.Axial3D

/-!
# C77: the expansion of a three-dimensional potential around the axis
-/
namespace Traceon
open Real Spec V3

theorem sumNuM_eq (f : Nat → Nat → ℝ) : sumNuM f = ∑ ν ∈ Finset.range 4, ∑ m ∈ Finset.range 8, f ν m := by
  simp only [sumNuM, List.range, List.range.loop, List.foldl_cons, List.foldl_nil, Finset.sum_range_succ, Finset.sum_range_zero]
  ring

/-! ## Angles -/

theorem atan2_cyl {ρ : ℝ} (hρ : 0 < ρ) (μ : ℝ) : ∃ k : ℤ, atan2 (ρ * sin μ) (ρ * cos μ) = μ + k * (2 * π) := by
  have h := Complex.arg_mul_cos_add_sin_mul_I_coe_angle hρ (θ := (μ : Real.Angle))
  rw [Real.Angle.cos_coe, Real.Angle.sin_coe] at h
  have e : (ρ : ℂ) * (((cos μ : ℝ) : ℂ) + ((sin μ : ℝ) : ℂ) * Complex.I) = ⟨ρ * cos μ, ρ * sin μ⟩ := by
    apply Complex.ext <;> simp [-Complex.ofReal_cos, -Complex.ofReal_sin]
  rw [e] at h
  obtain ⟨k, hk⟩ := Real.Angle.angle_eq_iff_two_pi_dvd_sub.1 h
  exact ⟨k, by unfold atan2; linarith⟩

theorem cos_mul_atan2 {ρ : ℝ} (hρ : 0 < ρ) (μ : ℝ) (m : ℕ) : cos (m * atan2 (ρ * sin μ) (ρ * cos μ)) = cos (m * μ) := by
  obtain ⟨k, hk⟩ := atan2_cyl hρ μ
  rw [hk, show (m : ℝ) * (μ + k * (2 * π)) = m * μ + ((m * k : ℤ) : ℝ) * (2 * π) by push_cast; ring, Real.cos_add_int_mul_two_pi]

theorem sin_mul_atan2 {ρ : ℝ} (hρ : 0 < ρ) (μ : ℝ) (m : ℕ) : sin (m * atan2 (ρ * sin μ) (ρ * cos μ)) = sin (m * μ) := by
  obtain ⟨k, hk⟩ := atan2_cyl hρ μ
  rw [hk, show (m : ℝ) * (μ + k * (2 * π)) = m * μ + ((m * k : ℤ) : ℝ) * (2 * π) by push_cast; ring, Real.sin_add_int_mul_two_pi]

theorem norm2d_cyl {ρ : ℝ} (hρ : 0 ≤ ρ) (μ : ℝ) : norm2d (ρ * cos μ) (ρ * sin μ) = ρ := by
  unfold norm2d
  rw [show ρ * cos μ * (ρ * cos μ) + ρ * sin μ * (ρ * sin μ) = ρ ^ 2 * (sin μ ^ 2 + cos μ ^ 2) by ring, Real.sin_sq_add_cos_sq, mul_one, Real.sqrt_sq hρ]

theorem norm_cyl (ρ μ zq z : ℝ) : V3.norm ⟨ρ * cos μ, ρ * sin μ, zq - z⟩ = axR ρ zq z := by
  unfold V3.norm axR dot
  congr 1
  nlinarith [Real.sin_sq_add_cos_sq μ]

theorem exists_cyl (q : V3) : ∃ ρ μ, 0 ≤ ρ ∧ q = cyl ρ μ q.z ∧ norm2d q.x q.y = ρ := by
  refine ⟨norm2d q.x q.y, atan2 q.y q.x, Real.sqrt_nonneg _, ?_, rfl⟩
  have hn : ‖(⟨q.x, q.y⟩ : ℂ)‖ = norm2d q.x q.y := by
    rw [Complex.norm_def, Complex.normSq_apply]; rfl
  have hx := Complex.norm_mul_cos_arg (⟨q.x, q.y⟩ : ℂ)
  have hy := Complex.norm_mul_sin_arg (⟨q.x, q.y⟩ : ℂ)
  rw [hn] at hx hy
  ext
  · exact hx.symm
  · exact hy.symm
  · rfl

/-! ## The coefficients -/

/-- **C77** (coefficients). What a unit charge, not on the axis, adds to the coefficients: the functions of the multipole expansion of the exact potential, with their continuations off the axis by the
equation of Laplace, times the cosine or the sine of `m` times the azimuth of the charge, up to a relative rounding error of 1e-15 (the decimals of the table of factorials). -/
theorem C77_coefficients {ρ : ℝ} (hρ : 0 < ρ) (μ zq z0 : ℝ) {ν m : ℕ} (hn : ν < 4) (hm : m < 8) : ∃ δ : ℝ, |δ| ≤ 1e-15 ∧
    axialCoefficient3dPoint z0 0 ν m (cyl ρ μ zq) = (1 + δ) * (harmonicTerm m ν (axialMoment m ρ zq) z0 * cos (m * μ)) ∧
    axialCoefficient3dPoint z0 1 ν m (cyl ρ μ zq) = (1 + δ) * (harmonicTerm m ν (axialMoment m ρ zq) z0 * sin (m * μ)) := by
  refine ⟨factorialTable ν m * ((2 * ν + m).factorial : ℝ) - 1, factorialTable_eq ν m hn hm, ?_⟩
  have hR := axR_pos hρ zq z0
  have hpi := Real.pi_pos
  have hp : ((zq - z0) / ρ) ^ 2 = (axR ρ zq z0 / ρ) ^ 2 - 1 := by
    rw [div_pow, div_pow, axR_sq]; field_simp; ring
  have hb := outputBase_poly (y := axR ρ zq z0 / ρ) (div_pos hR hρ) hp ν m hn hm
  rw [one_div_div] at hb
  rw [harmonicTerm_moment hρ zq hn hm]
  simp only [axialCoefficient3dPoint, cyl, norm2d_cyl hρ.le, norm_cyl, hb, trigBuffer, cos_mul_atan2 hρ, sin_mul_atan2 hρ, if_true, one_ne_zero, if_false]
  have hF : ((2 * ν + m).factorial : ℝ) ≠ 0 := by positivity
  rw [one_div_pow]
  have hX : axR ρ zq z0 ^ (2 * ν + 1 + m) ≠ 0 := (pow_pos hR _).ne'
  generalize axR ρ zq z0 ^ (2 * ν + 1 + m) = X at hX
  generalize axisPoly ν m (ρ / axR ρ zq z0) = A
  generalize ((2 * ν + m).factorial : ℝ) = F at hF
  constructor
  · split <;> field_simp <;> ring
  · split
    · rename_i h; subst h; simp
    · field_simp; ring

/-! ## The potential -/

/-- Chebyshev polynomials. -/
theorem cos_step (m : ℕ) (θ : ℝ) : cos ((m + 2 : ℕ) * θ) = 2 * cos θ * cos ((m + 1 : ℕ) * θ) - cos (m * θ) := by
  have e1 : ((m + 2 : ℕ) : ℝ) * θ = (m + 1 : ℕ) * θ + θ := by push_cast; ring
  have e2 : (m : ℝ) * θ = (m + 1 : ℕ) * θ - θ := by push_cast; ring
  rw [e1, e2, cos_add, cos_sub]; ring

/-- The terms of the expansion in closed form, of a charge at the distance `R` from the point on the axis. -/
noncomputable def axisTerms (s θ t : ℝ) : ℝ := ∑ ν ∈ Finset.range 4, ∑ m ∈ Finset.range 8, axisPoly ν m s * cos (m * θ) * t ^ (m + 2 * ν)

theorem axisTerms_split (s θ t : ℝ) : axisTerms s θ t = legSum7 (s * cos θ * t) (t ^ 2) +
    t ^ 8 * ∑ ν ∈ Finset.range 4, ∑ m ∈ Finset.range 8, if 8 ≤ 2 * ν + m then axisPoly ν m s * cos (m * θ) * t ^ (m + 2 * ν - 8) else 0 := by
  have c0 : cos ((0 : ℕ) * θ) = 1 := by simp
  have c1 : cos ((1 : ℕ) * θ) = cos θ := by simp
  have c2 := cos_step 0 θ
  have c3 := cos_step 1 θ
  have c4 := cos_step 2 θ
  have c5 := cos_step 3 θ
  have c6 := cos_step 4 θ
  have c7 := cos_step 5 θ
  norm_num only at c0 c1 c2 c3 c4 c5 c6 c7
  have split : axisTerms s θ t = (∑ ν ∈ Finset.range 4, ∑ m ∈ Finset.range 8, if 2 * ν + m < 8 then axisPoly ν m s * cos (m * θ) * t ^ (m + 2 * ν) else 0) +
      t ^ 8 * ∑ ν ∈ Finset.range 4, ∑ m ∈ Finset.range 8, if 8 ≤ 2 * ν + m then axisPoly ν m s * cos (m * θ) * t ^ (m + 2 * ν - 8) else 0 := by
    unfold axisTerms
    rw [Finset.mul_sum, ← Finset.sum_add_distrib]
    refine Finset.sum_congr rfl fun ν _ => ?_
    rw [Finset.mul_sum, ← Finset.sum_add_distrib]
    refine Finset.sum_congr rfl fun m _ => ?_
    by_cases h : 2 * ν + m < 8
    · rw [if_pos h, if_neg (by omega)]; ring
    · rw [if_neg h, if_pos (by omega), zero_add]
      rw [show m + 2 * ν = 8 + (m + 2 * ν - 8) by omega, pow_add]
      rw [show 8 + (m + 2 * ν - 8) - 8 = m + 2 * ν - 8 by omega]; ring
  rw [split]
  congr 1
  simp only [Finset.sum_range_succ, Finset.sum_range_zero]
  norm_num only [if_true, if_false, axisPoly]
  rw [c0, c1, c7, c6, c5, c4, c3, c2, c0, c1]
  generalize cos θ = c
  unfold legSum7 legSum
  ring

theorem mul_mul_le {a b c A B C : ℝ} (ha : 0 ≤ a) (hb : 0 ≤ b) (hc : 0 ≤ c) (h1 : a ≤ A) (h2 : b ≤ B) (h3 : c ≤ C) : a * b * c ≤ A * B * C := by
  have := ha.trans h1
  have := hb.trans h2
  gcongr

theorem axisRest_le {s θ t : ℝ} (hs0 : 0 ≤ s) (hs1 : s ≤ 1) (ht0 : 0 ≤ t) (ht1 : t ≤ 1) :
    |∑ ν ∈ Finset.range 4, ∑ m ∈ Finset.range 8, if 8 ≤ 2 * ν + m then axisPoly ν m s * cos (m * θ) * t ^ (m + 2 * ν - 8) else 0| ≤ 12 := by
  have term : ∀ ν m : ℕ, |if 8 ≤ 2 * ν + m then axisPoly ν m s * cos (m * θ) * t ^ (m + 2 * ν - 8) else 0| ≤ if 8 ≤ 2 * ν + m then 1 else 0 := by
    intro ν m
    by_cases h : 8 ≤ 2 * ν + m
    · have h1 := axisPoly_le ν m hs0 hs1
      rw [if_pos h] at h1
      rw [if_pos h, if_pos h, abs_mul, abs_mul, abs_of_nonneg (by positivity : 0 ≤ t ^ (m + 2 * ν - 8))]
      have h2 := Real.abs_cos_le_one (m * θ)
      have h3 : t ^ (m + 2 * ν - 8) ≤ 1 := pow_le_one₀ ht0 ht1
      exact (mul_mul_le (abs_nonneg _) (abs_nonneg _) (by positivity) h1 h2 h3).trans (by norm_num)
    · rw [if_neg h, if_neg h, abs_zero]
  refine (Finset.abs_sum_le_sum_abs _ _).trans ((Finset.sum_le_sum fun ν _ => (Finset.abs_sum_le_sum_abs _ _).trans (Finset.sum_le_sum fun m _ => term ν m)).trans ?_)
  simp only [Finset.sum_range_succ, Finset.sum_range_zero]
  norm_num

/-- The expansion against the exact distance. -/
theorem axisTerms_bound {s θ t : ℝ} (hs0 : 0 ≤ s) (hs1 : s ≤ 1) (ht0 : 0 ≤ t) (ht1 : t < 1) :
    |1 / √(1 - 2 * (s * cos θ * t) + t ^ 2) - axisTerms s θ t| ≤ t ^ 8 * ((1 + t) / (1 - t) ^ 2 + 12) := by
  have hc : |s * cos θ| ≤ 1 := by
    rw [abs_mul, abs_of_nonneg hs0]
    exact mul_le_one₀ hs1 (abs_nonneg _) (Real.abs_cos_le_one θ)
  have h := legendre_bound8 hc ht0 ht1
  have h2 := axisRest_le (θ := θ) hs0 hs1 ht0 ht1.le
  rw [axisTerms_split]
  set S := ∑ ν ∈ Finset.range 4, ∑ m ∈ Finset.range 8, if 8 ≤ 2 * ν + m then axisPoly ν m s * cos (m * θ) * t ^ (m + 2 * ν - 8) else 0
  have t8 : 0 ≤ t ^ 8 := by positivity
  have h3 : |t ^ 8 * S| ≤ t ^ 8 * 12 := by rw [abs_mul, abs_of_nonneg t8]; gcongr
  have e : 1 / √(1 - 2 * (s * cos θ * t) + t ^ 2) - (legSum7 (s * cos θ * t) (t ^ 2) + t ^ 8 * S) =
    (1 / √(1 - 2 * (s * cos θ * t) + t ^ 2) - legSum7 (s * cos θ * t) (t ^ 2)) - t ^ 8 * S := by ring
  rw [e]
  refine (abs_sub _ _).trans ?_
  rw [mul_add, ← mul_div_assoc]
  exact add_le_add h h3

/-- The sum in the program for one charge. -/
theorem series3D_point {ρ : ℝ} (hρ : 0 < ρ) (μ zq z0 : ℝ) {r : ℝ} (hr : 0 ≤ r) (φ : ℝ) :
    series3D (fun ν m => axialCoefficient3dPoint z0 0 ν m (cyl ρ μ zq)) (fun ν m => axialCoefficient3dPoint z0 1 ν m (cyl ρ μ zq)) (r * cos φ) (r * sin φ) =
      1 / (4 * π * axR ρ zq z0) * ∑ ν ∈ Finset.range 4, ∑ m ∈ Finset.range 8,
        factorialTable ν m * ((2 * ν + m).factorial : ℝ) * (axisPoly ν m (ρ / axR ρ zq z0) * cos (m * (φ - μ)) * (r / axR ρ zq z0) ^ (m + 2 * ν)) := by
  have hR := axR_pos hρ zq z0
  have hpi := Real.pi_pos
  unfold series3D
  simp only
  rw [sumNuM_eq, Finset.mul_sum]
  refine Finset.sum_congr rfl fun ν hν => ?_
  rw [Finset.mul_sum]
  refine Finset.sum_congr rfl fun m hm => ?_
  obtain ⟨hn, hm⟩ : ν < 4 ∧ m < 8 := ⟨Finset.mem_range.1 hν, Finset.mem_range.1 hm⟩
  have hp : ((zq - z0) / ρ) ^ 2 = (axR ρ zq z0 / ρ) ^ 2 - 1 := by
    rw [div_pow, div_pow, axR_sq]; field_simp; ring
  have hb := outputBase_poly (y := axR ρ zq z0 / ρ) (div_pos hR hρ) hp ν m hn hm
  rw [one_div_div] at hb
  have key : ∀ c' s' : ℝ, (m ≠ 0 ∨ s' = 0) → (axialCoefficient3dPoint z0 0 ν m (cyl ρ μ zq) * c' + axialCoefficient3dPoint z0 1 ν m (cyl ρ μ zq) * s') =
      factorialTable ν m * ((2 * ν + m).factorial : ℝ) * axisPoly ν m (ρ / axR ρ zq z0) / (4 * π * axR ρ zq z0 ^ (2 * ν + 1 + m)) * (cos (m * μ) * c' + sin (m * μ) * s') := by
    intro c' s' h
    simp only [axialCoefficient3dPoint, cyl, norm2d_cyl hρ.le, norm_cyl, hb, trigBuffer, cos_mul_atan2 hρ, sin_mul_atan2 hρ, if_true, one_ne_zero, if_false]
    rw [one_div_pow]
    have hX : axR ρ zq z0 ^ (2 * ν + 1 + m) ≠ 0 := (pow_pos hR _).ne'
    generalize axR ρ zq z0 ^ (2 * ν + 1 + m) = X at hX
    generalize axisPoly ν m (ρ / axR ρ zq z0) = A
    generalize ((2 * ν + m).factorial : ℝ) = F
    split
    · rename_i h0
      have hs : s' = 0 := h.resolve_left (by simpa using h0)
      rw [hs]; field_simp; ring
    · field_simp
  have e1 : axR ρ zq z0 ^ (2 * ν + 1 + m) = axR ρ zq z0 * axR ρ zq z0 ^ (m + 2 * ν) := by rw [← pow_succ']; congr 1; ring
  rw [norm2d_cyl hr]
  rcases hr.eq_or_lt with h0 | h0
  · by_cases hmn : m + 2 * ν = 0
    · obtain rfl : m = 0 := by omega
      obtain rfl : ν = 0 := by omega
      rw [key _ _ (Or.inr (by simp)), e1]
      simp
      field_simp
    · rw [← h0, zero_pow hmn, zero_div, zero_pow hmn]; simp
  · rw [cos_mul_atan2 h0, sin_mul_atan2 h0, key]
    · rw [e1, div_pow, mul_sub, cos_sub]
      have hX : axR ρ zq z0 ^ (m + 2 * ν) ≠ 0 := (pow_pos hR _).ne'
      generalize axR ρ zq z0 ^ (m + 2 * ν) = X at hX
      field_simp
    · by_cases hm0 : m = 0
      · right; rw [hm0]; simp
      · left; exact hm0

/-- The error bound for the potential of a unit charge at the distance `R` of the point on the axis, at the distance `r` of the axis. -/
noncomputable def axialError (R r : ℝ) : ℝ := 1 / (4 * π * R) * ((r / R) ^ 8 * ((1 + r / R) / (1 - r / R) ^ 2 + 12) + 1e-13)

theorem C77_point {ρ : ℝ} (hρ : 0 < ρ) (μ zq z0 : ℝ) {r : ℝ} (hr : 0 ≤ r) (φ : ℝ) (hlt : r < axR ρ zq z0) :
    |series3D (fun ν m => axialCoefficient3dPoint z0 0 ν m (cyl ρ μ zq)) (fun ν m => axialCoefficient3dPoint z0 1 ν m (cyl ρ μ zq)) (r * cos φ) (r * sin φ) -
      potential3dPoint (cyl r φ z0) (cyl ρ μ zq)| ≤ axialError (axR ρ zq z0) r := by
  have hR := axR_pos hρ zq z0
  have hpi := Real.pi_pos
  set R := axR ρ zq z0 with hRd
  have hs0 : 0 ≤ ρ / R := by positivity
  have hs1 : ρ / R ≤ 1 := by
    rw [div_le_one hR]
    exact Real.le_sqrt_of_sq_le (by nlinarith [sq_nonneg (zq - z0)])
  have ht0 : 0 ≤ r / R := by positivity
  have ht1 : r / R < 1 := (div_lt_one hR).2 hlt
  have hb := axisTerms_bound (θ := φ - μ) hs0 hs1 ht0 ht1
  have hpot : potential3dPoint (cyl r φ z0) (cyl ρ μ zq) = 1 / (4 * π * R) * (1 / √(1 - 2 * (ρ / R * cos (φ - μ) * (r / R)) + (r / R) ^ 2)) := by
    have hn : V3.norm (cyl ρ μ zq - cyl r φ z0) = R * √(1 - 2 * (ρ / R * cos (φ - μ) * (r / R)) + (r / R) ^ 2) := by
      have hsq : R = √(R ^ 2) := (Real.sqrt_sq hR.le).symm
      conv_rhs => rw [hsq]
      rw [← Real.sqrt_mul (by positivity), Real.sqrt_sq hR.le]
      unfold V3.norm dot
      congr 1
      have e : R ^ 2 * (1 - 2 * (ρ / R * cos (φ - μ) * (r / R)) + (r / R) ^ 2) = R ^ 2 - 2 * ρ * r * cos (φ - μ) + r ^ 2 := by field_simp
      rw [e, cos_sub, hRd, axR_sq]
      simp only [cyl, sub_x, sub_y, sub_z]
      linear_combination ρ ^ 2 * Real.sin_sq_add_cos_sq μ + r ^ 2 * Real.sin_sq_add_cos_sq φ
    unfold potential3dPoint
    rw [hn, one_div_mul_one_div]; ring
  rw [series3D_point hρ μ zq z0 hr, ← hRd, hpot, ← mul_sub, abs_mul, abs_of_nonneg (by positivity : 0 ≤ 1 / (4 * π * R))]
  unfold axialError
  refine mul_le_mul_of_nonneg_left ?_ (by positivity)
  set T : ℕ → ℕ → ℝ := fun ν m => axisPoly ν m (ρ / R) * cos (m * (φ - μ)) * (r / R) ^ (m + 2 * ν) with hT
  have hround : |(∑ ν ∈ Finset.range 4, ∑ m ∈ Finset.range 8, factorialTable ν m * ((2 * ν + m).factorial : ℝ) * T ν m) - axisTerms (ρ / R) (φ - μ) (r / R)| ≤ 1e-13 := by
    unfold axisTerms
    rw [← Finset.sum_sub_distrib]
    have term : ∀ ν ∈ Finset.range 4, ∀ m ∈ Finset.range 8, |factorialTable ν m * ((2 * ν + m).factorial : ℝ) * T ν m - T ν m| ≤ 3e-15 := by
      intro ν hν m hm
      have h1 := factorialTable_eq ν m (Finset.mem_range.1 hν) (Finset.mem_range.1 hm)
      have h2 : |T ν m| ≤ 3 := by
        have h3 : |axisPoly ν m (ρ / R)| ≤ 3 := (axisPoly_le ν m hs0 hs1).trans (by split <;> norm_num)
        have h4 := Real.abs_cos_le_one (m * (φ - μ))
        have h5 : (r / R) ^ (m + 2 * ν) ≤ 1 := pow_le_one₀ ht0 ht1.le
        rw [hT]
        simp only
        rw [abs_mul, abs_mul, abs_of_nonneg (by positivity : 0 ≤ (r / R) ^ (m + 2 * ν))]
        exact (mul_mul_le (abs_nonneg _) (abs_nonneg _) (by positivity) h3 h4 h5).trans (by norm_num)
      have e : factorialTable ν m * ((2 * ν + m).factorial : ℝ) * T ν m - T ν m = (factorialTable ν m * ((2 * ν + m).factorial : ℝ) - 1) * T ν m := by ring
      rw [e, abs_mul]
      exact (mul_le_mul h1 h2 (abs_nonneg _) (by norm_num)).trans (by norm_num)
    refine (Finset.abs_sum_le_sum_abs _ _).trans (le_trans (b := ∑ ν ∈ Finset.range 4, ∑ m ∈ Finset.range 8, (3e-15 : ℝ)) (Finset.sum_le_sum fun ν hν => ?_) ?_)
    · rw [← Finset.sum_sub_distrib]
      exact (Finset.abs_sum_le_sum_abs _ _).trans (Finset.sum_le_sum fun m hm => term ν hν m hm)
    · norm_num
  rw [abs_le] at hround hb ⊢
  constructor <;> linarith [hround.1, hround.2, hb.1, hb.2]

/-! ## All charges -/

theorem loop_finset {P ι : Type} (e : EffCharges P) (s : Finset ι) (f : ι → P → ℝ) : e.loop (fun q => ∑ i ∈ s, f i q) = ∑ i ∈ s, e.loop (f i) := by
  classical
  induction s using Finset.induction_on with
  | empty => simpa using loop_linear e (fun _ => 0) (fun _ => 0) 0 0
  | insert a s ha ih => simp only [Finset.sum_insert ha]; rw [loop_add', ih]

theorem series3D_loop (e : EffCharges V3) (A B : Nat → Nat → V3 → ℝ) (x y : ℝ) :
    series3D (fun ν m => e.loop (A ν m)) (fun ν m => e.loop (B ν m)) x y = e.loop (fun q => series3D (fun ν m => A ν m q) (fun ν m => B ν m q) x y) := by
  unfold series3D
  simp only [sumNuM_eq]
  rw [loop_finset]
  refine Finset.sum_congr rfl fun ν _ => ?_
  rw [loop_finset]
  refine Finset.sum_congr rfl fun m _ => ?_
  have h := loop_linear e (A ν m) (B ν m) (cos (m * atan2 y x) * norm2d x y ^ (m + 2 * ν)) (sin (m * atan2 y x) * norm2d x y ^ (m + 2 * ν))
  rw [show (e.loop (A ν m) * cos (m * atan2 y x) + e.loop (B ν m) * sin (m * atan2 y x)) * norm2d x y ^ (m + 2 * ν) =
    cos (m * atan2 y x) * norm2d x y ^ (m + 2 * ν) * e.loop (A ν m) + sin (m * atan2 y x) * norm2d x y ^ (m + 2 * ν) * e.loop (B ν m) by ring, ← h]
  congr 1
  funext q
  ring

/-- **C77** (potential). The coefficients computed for the point `z0` of the axis, summed as the program sums them, give the potential of the charges at the distance `r` of the axis within
the error `axialError`, of the eighth order in `r/R`. The charges must be off the axis, and further from the point of the axis than `r`. -/
theorem C77_potential (e : EffCharges V3) (z0 : ℝ) {r : ℝ} (hr : 0 ≤ r) (φ : ℝ)
    (h : ∀ row ∈ e.positions, ∀ q ∈ row, ¬(q.x = 0 ∧ q.y = 0) ∧ r < V3.norm (q - ⟨0, 0, z0⟩)) :
    |series3D (axialCoefficients3d e z0 0) (axialCoefficients3d e z0 1) (r * cos φ) (r * sin φ) - potential3d (cyl r φ z0) e| ≤
      absSuperpose (fun q => axialError (V3.norm (q - ⟨0, 0, z0⟩)) r) e := by
  unfold axialCoefficients3d potential3d
  rw [series3D_loop]
  refine abs_loop_sub_le e fun row hrow q hq => ?_
  obtain ⟨hne, hlt⟩ := h row hrow q hq
  obtain ⟨ρ, μ, hρ0, hq', hn⟩ := exists_cyl q
  have hρ : 0 < ρ := by
    refine lt_of_le_of_ne hρ0 fun h0 => hne ?_
    rw [hq', ← h0]; simp [cyl]
  have hR : V3.norm (q - ⟨0, 0, z0⟩) = axR ρ q.z z0 := by
    rw [hq', ← norm_cyl ρ μ]
    congr 1
    ext <;> simp [cyl]
  rw [hR] at hlt ⊢
  rw [hq']
  exact C77_point hρ μ q.z z0 hr φ hlt

/-! ## The field is minus the gradient of the potential -/

/-- Real and imaginary part of `(x + i y)^m`. -/
noncomputable def cre (x y : ℝ) : ℕ → ℝ × ℝ
  | 0 => (1, 0)
  | m + 1 => (x * (cre x y m).1 - y * (cre x y m).2, x * (cre x y m).2 + y * (cre x y m).1)

theorem cre_eq (x y : ℝ) (m : ℕ) : cos (m * atan2 y x) * norm2d x y ^ m = (cre x y m).1 ∧ sin (m * atan2 y x) * norm2d x y ^ m = (cre x y m).2 := by
  obtain ⟨ρ, μ, hρ0, hq, hn⟩ := exists_cyl ⟨x, y, 0⟩
  have hx : norm2d x y * cos (atan2 y x) = x := by
    have h := Complex.norm_mul_cos_arg (⟨x, y⟩ : ℂ)
    have hn : ‖(⟨x, y⟩ : ℂ)‖ = norm2d x y := by rw [Complex.norm_def, Complex.normSq_apply]; rfl
    rwa [hn] at h
  have hy : norm2d x y * sin (atan2 y x) = y := by
    have h := Complex.norm_mul_sin_arg (⟨x, y⟩ : ℂ)
    have hn : ‖(⟨x, y⟩ : ℂ)‖ = norm2d x y := by rw [Complex.norm_def, Complex.normSq_apply]; rfl
    rwa [hn] at h
  induction m with
  | zero => simp [cre]
  | succ m ih =>
    have e : ((m + 1 : ℕ) : ℝ) * atan2 y x = m * atan2 y x + atan2 y x := by push_cast; ring
    rw [e, cos_add, sin_add]
    simp only [cre, ← ih.1, ← ih.2]
    generalize atan2 y x = a at *
    generalize norm2d x y = n at *
    constructor
    · rw [← hx, ← hy]; ring
    · rw [← hx, ← hy]; ring

theorem cre_gradient (m : ℕ) (p : V3) :
    IsGradient (fun q => (cre q.x q.y m).1) ⟨m * (cre p.x p.y (m - 1)).1, -(m * (cre p.x p.y (m - 1)).2), 0⟩ p ∧
    IsGradient (fun q => (cre q.x q.y m).2) ⟨m * (cre p.x p.y (m - 1)).2, m * (cre p.x p.y (m - 1)).1, 0⟩ p := by
  induction m with
  | zero =>
    constructor
    · refine (IsGradient.const 1 p).eq ?_; ext <;> simp
    · refine (IsGradient.const 0 p).eq ?_; ext <;> simp
  | succ m ih =>
    have hx := IsGradient.x p
    have hy := IsGradient.y p
    have hs : m = 0 ∨ ((cre p.x p.y m).1 = p.x * (cre p.x p.y (m - 1)).1 - p.y * (cre p.x p.y (m - 1)).2 ∧ (cre p.x p.y m).2 = p.x * (cre p.x p.y (m - 1)).2 + p.y * (cre p.x p.y (m - 1)).1) := by
      cases m with
      | zero => exact Or.inl rfl
      | succ m => exact Or.inr ⟨rfl, rfl⟩
    constructor
    · refine (((hx.mul ih.1).add ((hy.mul ih.2).smul (-1))).congr (fun q => by simp only [cre]; ring)).eq ?_
      rcases hs with rfl | ⟨h1, h2⟩
      · ext <;> simp [cre]
      · ext <;> simp
        · rw [h1]; ring
        · rw [h2]; ring
    · refine (((hx.mul ih.2).add (hy.mul ih.1)).congr (fun q => by simp only [cre])).eq ?_
      rcases hs with rfl | ⟨h1, h2⟩
      · ext <;> simp [cre]
      · ext <;> simp
        · rw [h2]; ring
        · rw [h1]; ring

end Traceon
