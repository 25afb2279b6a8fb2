import Verif.Props.Axial2
import Verif.Lemmas.AxisSeries

/-!
# C52: how well the radial series approximates the potential and the field near the axis
-/
namespace Traceon
open Real Spec V3 MeasureTheory

/-! ## Closed forms of the series -/

theorem axis_r2 (r z v : ℝ) : r ^ 2 = norm2d (v - z) r ^ 2 - (v - z) ^ 2 := by rw [norm2d_sq']; ring

theorem axis_S (r z v : ℝ) : r ^ 2 + (z - v) ^ 2 = norm2d (v - z) r ^ 2 := by rw [norm2d_sq']; ring

theorem axis_sqrtS (r z v : ℝ) : √(r ^ 2 + (z - v) ^ 2) = norm2d (v - z) r := by
  unfold norm2d; congr 1; ring

theorem series_potential_closed {r : ℝ} (hr : 0 < r) (z v u : ℝ) :
    seriesPotential u (axialDerivativesRadialRing v r z) = r / 2 / √(r ^ 2 + (z - v) ^ 2) * axisPot u r (1 / (r ^ 2 + (z - v) ^ 2)) := by
  have hR := (norm2d_pos' hr (v - z)).ne'
  have h2 := axis_r2 r z v
  have h4 : r ^ 4 = (norm2d (v - z) r ^ 2 - (v - z) ^ 2) ^ 2 := by rw [← h2]; ring
  have h6 : r ^ 6 = (norm2d (v - z) r ^ 2 - (v - z) ^ 2) ^ 3 := by rw [← h2]; ring
  have h8 : r ^ 8 = (norm2d (v - z) r ^ 2 - (v - z) ^ 2) ^ 4 := by rw [← h2]; ring
  rw [axis_sqrtS, axis_S]
  unfold axisPot
  rw [h2, h4, h6, h8]
  simp only [seriesPotential, axialDerivativesRadialRing, ringDerivsRaw]
  generalize norm2d (v - z) r = R at *
  generalize v - z = d at *
  push_cast
  field_simp
  ring

/-- The radial component of the field of the series. -/
noncomputable def seriesRadial (u : ℝ) (d : Nat → ℝ) : ℝ := 0.5 * (d 2 - u ^ 2 / 8 * d 4 + u ^ 4 / 192 * d 6 - u ^ 6 / 9216 * d 8)

theorem seriesField_polar (p : V3) (u : ℝ) (d : Nat → ℝ) : seriesField p u d = ⟨p.x * seriesRadial u d, p.y * seriesRadial u d, (seriesField 0 u d).z⟩ := rfl

theorem series_radial_closed {r : ℝ} (hr : 0 < r) (z v u : ℝ) :
    u * seriesRadial u (axialDerivativesRadialRing v r z) =
      r / 2 / √(r ^ 2 + (z - v) ^ 2) ^ 3 * (u * axisJ0 u r (1 / (r ^ 2 + (z - v) ^ 2)) - r * axisJ1 u r (1 / (r ^ 2 + (z - v) ^ 2))) := by
  have hR := (norm2d_pos' hr (v - z)).ne'
  have h2 := axis_r2 r z v
  have e : u * axisJ0 u r (1 / (r ^ 2 + (z - v) ^ 2)) - r * axisJ1 u r (1 / (r ^ 2 + (z - v) ^ 2)) =
    u * axisJ0 u r (1 / (norm2d (v - z) r ^ 2)) - (((3 / 2) * u * (r ^ 2) * (1 / norm2d (v - z) r ^ 2)) + ((-15 / 4) * u ^ 3 * (r ^ 2) * (1 / norm2d (v - z) r ^ 2) ^ 2 + (105 / 16) * u ^ 3 * (r ^ 2) ^ 2 * (1 / norm2d (v - z) r ^ 2) ^ 3) +
      ((105 / 16) * u ^ 5 * (r ^ 2) * (1 / norm2d (v - z) r ^ 2) ^ 3 + (-945 / 32) * u ^ 5 * (r ^ 2) ^ 2 * (1 / norm2d (v - z) r ^ 2) ^ 4 + (3465 / 128) * u ^ 5 * (r ^ 2) ^ 3 * (1 / norm2d (v - z) r ^ 2) ^ 5) +
      ((-315 / 32) * u ^ 7 * (r ^ 2) * (1 / norm2d (v - z) r ^ 2) ^ 4 + (10395 / 128) * u ^ 7 * (r ^ 2) ^ 2 * (1 / norm2d (v - z) r ^ 2) ^ 5 + (-45045 / 256) * u ^ 7 * (r ^ 2) ^ 3 * (1 / norm2d (v - z) r ^ 2) ^ 6 +
        (225225 / 2048) * u ^ 7 * (r ^ 2) ^ 4 * (1 / norm2d (v - z) r ^ 2) ^ 7)) := by
    rw [axis_S]; unfold axisJ1; ring
  have h4 : r ^ 4 = (norm2d (v - z) r ^ 2 - (v - z) ^ 2) ^ 2 := by rw [← h2]; ring
  have h6 : r ^ 6 = (norm2d (v - z) r ^ 2 - (v - z) ^ 2) ^ 3 := by rw [← h2]; ring
  rw [e, axis_sqrtS]
  unfold axisJ0
  rw [h4, h6, h2]
  simp only [seriesRadial, axialDerivativesRadialRing, ringDerivsRaw]
  generalize norm2d (v - z) r = R at *
  generalize v - z = d at *
  push_cast
  field_simp
  ring

theorem series_axial_closed {r : ℝ} (hr : 0 < r) (z v u : ℝ) :
    (seriesField 0 u (axialDerivativesRadialRing v r z)).z = r / 2 * (v - z) / √(r ^ 2 + (z - v) ^ 2) ^ 3 * axisJ0 u r (1 / (r ^ 2 + (z - v) ^ 2)) := by
  have hR := (norm2d_pos' hr (v - z)).ne'
  have h2 := axis_r2 r z v
  have h4 : r ^ 4 = (norm2d (v - z) r ^ 2 - (v - z) ^ 2) ^ 2 := by rw [← h2]; ring
  have h6 : r ^ 6 = (norm2d (v - z) r ^ 2 - (v - z) ^ 2) ^ 3 := by rw [← h2]; ring
  rw [axis_sqrtS, axis_S]
  unfold axisJ0
  rw [h4, h6, h2]
  simp only [seriesField, axialDerivativesRadialRing, ringDerivsRaw]
  generalize norm2d (v - z) r = R at *
  generalize v - z = d at *
  push_cast
  field_simp
  ring

theorem current_radial_closed {r : ℝ} (hr : 0 < r) (z v u : ℝ) :
    u * seriesRadial u (currentAxialDerivativesRadialRing v r z) = r / 2 * (v - z) / √(r ^ 2 + (z - v) ^ 2) ^ 3 * axisJ1 u r (1 / (r ^ 2 + (z - v) ^ 2)) := by
  have hR := (norm2d_pos' hr (v - z)).ne'
  have h2 := axis_r2 r z v
  have h3 : r ^ 3 = r * (norm2d (v - z) r ^ 2 - (v - z) ^ 2) := by rw [← h2]; ring
  have h5 : r ^ 5 = r * (norm2d (v - z) r ^ 2 - (v - z) ^ 2) ^ 2 := by rw [← h2]; ring
  have h7 : r ^ 7 = r * (norm2d (v - z) r ^ 2 - (v - z) ^ 2) ^ 3 := by rw [← h2]; ring
  have hS : (v - z) * (v - z) + r * r = norm2d (v - z) r ^ 2 := (norm2d_sq' _ _).symm
  have hsq : √(norm2d (v - z) r ^ 2) = norm2d (v - z) r := Real.sqrt_sq (norm2d_pos' hr _).le
  rw [axis_sqrtS, axis_S]
  unfold axisJ1
  rw [h3, h5, h7]
  simp only [seriesRadial, currentAxialDerivativesRadialRing, hS, hsq]
  generalize norm2d (v - z) r = R at *
  generalize v - z = d at *
  push_cast
  field_simp
  ring

theorem current_axial_closed {r : ℝ} (hr : 0 < r) (z : ℝ) : ∃ k₀, ∀ v, ∃ k, |k| ≤ k₀ ∧ ∀ u,
    r / 2 / √(r ^ 2 + (z - v) ^ 2) ^ 3 * (r * axisJ0 u r (1 / (r ^ 2 + (z - v) ^ 2)) - u * axisJ1 u r (1 / (r ^ 2 + (z - v) ^ 2))) =
      (seriesField 0 u (currentAxialDerivativesRadialRing v r z)).z + u ^ 8 * k := by
  refine ⟨r / 2 / r ^ 3 * ((315 / 32) * r * (1 / r ^ 2) ^ 4 + (10395 / 128) * r ^ 3 * (1 / r ^ 2) ^ 5 + (45045 / 256) * r ^ 5 * (1 / r ^ 2) ^ 6 + (225225 / 2048) * r ^ 7 * (1 / r ^ 2) ^ 7), fun v => ?_⟩
  have hR := (norm2d_pos' hr (v - z)).ne'
  have h2 := axis_r2 r z v
  have hS : (v - z) * (v - z) + r * r = norm2d (v - z) r ^ 2 := (norm2d_sq' _ _).symm
  have hsq : √(norm2d (v - z) r ^ 2) = norm2d (v - z) r := Real.sqrt_sq (norm2d_pos' hr _).le
  refine ⟨-(r / 2 / norm2d (v - z) r ^ 3 * (((-315 / 32) * r * (1 / norm2d (v - z) r ^ 2) ^ 4) + (10395 / 128) * r ^ 3 * (1 / norm2d (v - z) r ^ 2) ^ 5 + (-45045 / 256) * r ^ 5 * (1 / norm2d (v - z) r ^ 2) ^ 6 +
    (225225 / 2048) * r ^ 7 * (1 / norm2d (v - z) r ^ 2) ^ 7)), ?_, ?_⟩
  · have hn := norm2d_pos' hr (v - z)
    have hle : r ≤ norm2d (v - z) r := by
      have := norm2d_sq' (v - z) r
      nlinarith [sq_nonneg (v - z)]
    generalize norm2d (v - z) r = R at *
    have hs : 1 / R ^ 2 ≤ 1 / r ^ 2 := one_div_le_one_div_of_le (by positivity) (pow_le_pow_left₀ hr.le hle 2)
    have hs0 : 0 ≤ 1 / R ^ 2 := by positivity
    generalize 1 / R ^ 2 = s at *
    generalize 1 / r ^ 2 = t at *
    have h3 : r / 2 / R ^ 3 ≤ r / 2 / r ^ 3 := by gcongr
    have ht := hs0.trans hs
    rw [abs_neg, abs_mul, abs_of_nonneg (by positivity : 0 ≤ r / 2 / R ^ 3)]
    refine mul_le_mul h3 ?_ (abs_nonneg _) (by positivity)
    have p4 : s ^ 4 ≤ t ^ 4 := pow_le_pow_left₀ hs0 hs 4
    have p5 : s ^ 5 ≤ t ^ 5 := pow_le_pow_left₀ hs0 hs 5
    have p6 : s ^ 6 ≤ t ^ 6 := pow_le_pow_left₀ hs0 hs 6
    have p7 : s ^ 7 ≤ t ^ 7 := pow_le_pow_left₀ hs0 hs 7
    have q4 := mul_le_mul_of_nonneg_left p4 (by positivity : 0 ≤ r)
    have q5 := mul_le_mul_of_nonneg_left p5 (by positivity : 0 ≤ r ^ 3)
    have q6 := mul_le_mul_of_nonneg_left p6 (by positivity : 0 ≤ r ^ 5)
    have q7 := mul_le_mul_of_nonneg_left p7 (by positivity : 0 ≤ r ^ 7)
    have z4 : 0 ≤ r * s ^ 4 := by positivity
    have z5 : 0 ≤ r ^ 3 * s ^ 5 := by positivity
    have z6 : 0 ≤ r ^ 5 * s ^ 6 := by positivity
    have z7 : 0 ≤ r ^ 7 * s ^ 7 := by positivity
    rw [abs_le]
    constructor <;> nlinarith
  intro u
  have h3 : r ^ 3 = r * (norm2d (v - z) r ^ 2 - (v - z) ^ 2) := by rw [← h2]; ring
  have h5 : r ^ 5 = r * (norm2d (v - z) r ^ 2 - (v - z) ^ 2) ^ 2 := by rw [← h2]; ring
  have h7 : r ^ 7 = r * (norm2d (v - z) r ^ 2 - (v - z) ^ 2) ^ 3 := by rw [← h2]; ring
  have h4 : r ^ 4 = (norm2d (v - z) r ^ 2 - (v - z) ^ 2) ^ 2 := by rw [← h2]; ring
  have h6 : r ^ 6 = (norm2d (v - z) r ^ 2 - (v - z) ^ 2) ^ 3 := by rw [← h2]; ring
  rw [axis_sqrtS, axis_S]
  unfold axisJ1 axisJ0
  rw [h3, h5, h7, h4, h6, h2]
  simp only [seriesField, currentAxialDerivativesRadialRing, hS, hsq]
  generalize norm2d (v - z) r = R at *
  generalize v - z = d at *
  push_cast
  field_simp
  ring

/-! ## One ring -/

theorem kernel_pos {r z v u : ℝ} (hr : 0 < r) (hu0 : 0 ≤ u) (hu : u ≤ r / 2) (c : ℝ) (hc : c ≤ 1) : 0 < u ^ 2 + r ^ 2 + (z - v) ^ 2 - 2 * r * u * c := by
  refine dist2_pos hu0 hr.le ?_ hc
  unfold nearSq
  nlinarith [sq_nonneg (z - v)]

/-- The three integrals. -/
theorem ring_expansions {r : ℝ} (hr : 0 < r) : ∃ C δ : ℝ, 0 ≤ C ∧ 0 < δ ∧ δ ≤ r / 2 ∧ δ ≤ 1 ∧ ∀ z v u, 0 ≤ u → u ≤ δ →
    |(∫ φ in (0 : ℝ)..2 * π, 1 / √(u ^ 2 + r ^ 2 + (z - v) ^ 2 - 2 * r * u * cos φ)) - 2 * π / √(r ^ 2 + (z - v) ^ 2) * axisPot u r (1 / (r ^ 2 + (z - v) ^ 2))| ≤ C * u ^ 10 ∧
    |(∫ φ in (0 : ℝ)..2 * π, 1 / √(u ^ 2 + r ^ 2 + (z - v) ^ 2 - 2 * r * u * cos φ) ^ 3) - 2 * π / √(r ^ 2 + (z - v) ^ 2) ^ 3 * axisJ0 u r (1 / (r ^ 2 + (z - v) ^ 2))| ≤ C * u ^ 8 ∧
    |(∫ φ in (0 : ℝ)..2 * π, cos φ / √(u ^ 2 + r ^ 2 + (z - v) ^ 2 - 2 * r * u * cos φ) ^ 3) - 2 * π / √(r ^ 2 + (z - v) ^ 2) ^ 3 * axisJ1 u r (1 / (r ^ 2 + (z - v) ^ 2))| ≤ C * u ^ 9 := by
  have hc1 : Continuous taylor1 := by unfold taylor1; fun_prop
  have hc3 : Continuous taylor3 := by unfold taylor3; fun_prop
  obtain ⟨C1, δ1, hC1, hδ1, h1⟩ := ring_expansion 1 0 10 le_rfl taylor1 (fun s u => axisPot u r s) (fun s u => axisPotRest u r s) hc1 (by unfold axisPotRest; fun_prop) hr
    taylor1_bound (fun s u => axisPot_avg u r s)
  obtain ⟨C2, δ2, hC2, hδ2, h2⟩ := ring_expansion 3 0 8 (by norm_num) taylor3 (fun s u => axisJ0 u r s) (fun s u => axisJ0Rest u r s) hc3 (by unfold axisJ0Rest; fun_prop) hr
    taylor3_bound (fun s u => axisJ0_avg u r s)
  obtain ⟨C3, δ3, hC3, hδ3, h3⟩ := ring_expansion 3 1 9 (by norm_num) taylor3 (fun s u => axisJ1 u r s) (fun s u => axisJ1Rest u r s) hc3 (by unfold axisJ1Rest; fun_prop) hr
    taylor3_bound (fun s u => axisJ1_avg u r s)
  simp only [pow_zero, pow_one] at h1 h2 h3
  refine ⟨C1 + C2 + C3, min (min δ1 δ2) (min δ3 (min (r / 2) 1)), by positivity, by positivity, ?_, ?_, ?_⟩
  · exact le_trans (min_le_right _ _) (le_trans (min_le_right _ _) (min_le_left _ _))
  · exact le_trans (min_le_right _ _) (le_trans (min_le_right _ _) (min_le_right _ _))
  · intro z v u hu0 hu
    have a1 := h1 z v u hu0 (le_trans hu (le_trans (min_le_left _ _) (min_le_left _ _)))
    have a2 := h2 z v u hu0 (le_trans hu (le_trans (min_le_left _ _) (min_le_right _ _)))
    have a3 := h3 z v u hu0 (le_trans hu (le_trans (min_le_right _ _) (min_le_left _ _)))
    have p10 : 0 ≤ u ^ 10 := by positivity
    have p9 : 0 ≤ u ^ 9 := by positivity
    have p8 : 0 ≤ u ^ 8 := by positivity
    refine ⟨le_trans a1 ?_, le_trans a2 ?_, le_trans a3 ?_⟩ <;> nlinarith [mul_nonneg hC1 p10, mul_nonneg hC2 p10, mul_nonneg hC3 p10, mul_nonneg hC1 p9, mul_nonneg hC2 p9, mul_nonneg hC3 p9,
      mul_nonneg hC1 p8, mul_nonneg hC2 p8, mul_nonneg hC3 p8]

theorem ringPotential_polar (r z u v α : ℝ) :
    ringPotential r z ⟨u * cos α, u * sin α, v⟩ = r / (4 * π) * ∫ φ in (0 : ℝ)..2 * π, 1 / √(u ^ 2 + r ^ 2 + (z - v) ^ 2 - 2 * r * u * cos φ) := by
  unfold ringPotential V3.norm
  simp only [polar_dist2]
  have h := circle_shift (fun φ => r / (4 * π) * (1 / √(u ^ 2 + r ^ 2 + (z - v) ^ 2 - 2 * r * u * cos φ))) (fun φ => by simp only [Real.cos_add_two_pi]) α
  rw [← intervalIntegral.integral_const_mul, ← h]
  congr 1
  funext φ
  ring

/-- The gradient of the potential of a ring, in polar coordinates. -/
theorem ringGradient_polar {r z u v : ℝ} (α : ℝ) (hr : 0 < r) (hu0 : 0 ≤ u) (hu : u ≤ r / 2) :
    IsGradient (ringPotential r z)
      ⟨cos α * (r / (4 * π) * ∫ φ in (0 : ℝ)..2 * π, (r * cos φ - u) / √(u ^ 2 + r ^ 2 + (z - v) ^ 2 - 2 * r * u * cos φ) ^ 3),
       sin α * (r / (4 * π) * ∫ φ in (0 : ℝ)..2 * π, (r * cos φ - u) / √(u ^ 2 + r ^ 2 + (z - v) ^ 2 - 2 * r * u * cos φ) ^ 3),
       r * (z - v) / (4 * π) * ∫ φ in (0 : ℝ)..2 * π, 1 / √(u ^ 2 + r ^ 2 + (z - v) ^ 2 - 2 * r * u * cos φ) ^ 3⟩ ⟨u * cos α, u * sin α, v⟩ := by
  have hpos := fun c hc => kernel_pos (z := z) (v := v) hr hu0 hu c hc
  have hnorm : norm2d (u * cos α) (u * sin α) = u := by
    unfold norm2d
    rw [show u * cos α * (u * cos α) + u * sin α * (u * sin α) = u ^ 2 by linear_combination u ^ 2 * sin_sq_add_cos_sq α]
    exact Real.sqrt_sq hu0
  have hoff : OffRing ⟨u * cos α, u * sin α, v⟩ r z := by
    rw [offRing_iff hr.le]
    simp only [hnorm, nearSq]
    nlinarith [sq_nonneg (z - v)]
  refine (isGradient_ringPotential _ r z hr hoff).eq ?_
  have hN : ∀ c, c ≤ 1 → √(u ^ 2 + r ^ 2 + (z - v) ^ 2 - 2 * r * u * c) ≠ 0 := fun c hc => (Real.sqrt_pos.2 (hpos c hc)).ne'
  have hpi := Real.pi_pos.ne'
  have hcos : Continuous (fun φ => (r * cos φ - u) / √(u ^ 2 + r ^ 2 + (z - v) ^ 2 - 2 * r * u * cos φ) ^ 3) :=
    Continuous.div (by fun_prop) (by fun_prop) (fun φ => pow_ne_zero _ (hN _ (Real.cos_le_one φ)))
  have hsin : Continuous (fun φ => sin φ * (1 / √(u ^ 2 + r ^ 2 + (z - v) ^ 2 - 2 * r * u * cos φ) ^ 3)) :=
    Continuous.mul (by fun_prop) (Continuous.div (by fun_prop) (by fun_prop) (fun φ => pow_ne_zero _ (hN _ (Real.cos_le_one φ))))
  have hodd := circle_odd (fun c => 1 / √(u ^ 2 + r ^ 2 + (z - v) ^ 2 - 2 * r * u * c) ^ 3)
  have hnrm : ∀ φ, V3.norm (ringPoint r z φ - ⟨u * cos α, u * sin α, v⟩) = √(u ^ 2 + r ^ 2 + (z - v) ^ 2 - 2 * r * u * cos (φ - α)) := by
    intro φ
    rw [← polar_dist2]
    unfold V3.norm dot
    simp only [sub_x, sub_y, sub_z]
    congr 1; ring
  have hx : ∀ φ, r * dx1Potential3dPoint ⟨u * cos α, u * sin α, v⟩ (ringPoint r z φ) =
      (fun ψ => cos α * (r / (4 * π)) * ((r * cos ψ - u) / √(u ^ 2 + r ^ 2 + (z - v) ^ 2 - 2 * r * u * cos ψ) ^ 3) +
      (-(sin α * (r * r / (4 * π)))) * (sin ψ * (1 / √(u ^ 2 + r ^ 2 + (z - v) ^ 2 - 2 * r * u * cos ψ) ^ 3))) (φ - α) := by
    intro φ
    unfold dx1Potential3dPoint
    rw [hnrm]
    have h := hN (cos (φ - α)) (Real.cos_le_one _)
    have h2 : cos φ = cos (φ - α) * cos α - sin (φ - α) * sin α := by rw [← Real.cos_add]; ring_nf
    simp only [ringPoint]
    field_simp
    rw [h2]; ring
  have hy : ∀ φ, r * dy1Potential3dPoint ⟨u * cos α, u * sin α, v⟩ (ringPoint r z φ) =
      (fun ψ => sin α * (r / (4 * π)) * ((r * cos ψ - u) / √(u ^ 2 + r ^ 2 + (z - v) ^ 2 - 2 * r * u * cos ψ) ^ 3) +
      (cos α * (r * r / (4 * π))) * (sin ψ * (1 / √(u ^ 2 + r ^ 2 + (z - v) ^ 2 - 2 * r * u * cos ψ) ^ 3))) (φ - α) := by
    intro φ
    unfold dy1Potential3dPoint
    rw [hnrm]
    have h := hN (cos (φ - α)) (Real.cos_le_one _)
    have h2 : sin φ = sin (φ - α) * cos α + cos (φ - α) * sin α := by rw [← Real.sin_add]; ring_nf
    simp only [ringPoint]
    field_simp
    rw [h2]; ring
  have hz : ∀ φ, r * dz1Potential3dPoint ⟨u * cos α, u * sin α, v⟩ (ringPoint r z φ) =
      (fun ψ => r * (z - v) / (4 * π) * (1 / √(u ^ 2 + r ^ 2 + (z - v) ^ 2 - 2 * r * u * cos ψ) ^ 3)) (φ - α) := by
    intro φ
    unfold dz1Potential3dPoint
    rw [hnrm]
    have h := hN (cos (φ - α)) (Real.cos_le_one _)
    simp only [ringPoint]
    field_simp
  have shift : ∀ F : ℝ → ℝ, Function.Periodic F (2 * π) → ∫ φ in (0 : ℝ)..2 * π, F (φ - α) = ∫ φ in (0 : ℝ)..2 * π, F φ := fun F hF => circle_shift F hF α
  ext
  · simp only [hx]
    rw [shift (fun ψ => cos α * (r / (4 * π)) * ((r * cos ψ - u) / √(u ^ 2 + r ^ 2 + (z - v) ^ 2 - 2 * r * u * cos ψ) ^ 3) +
      (-(sin α * (r * r / (4 * π)))) * (sin ψ * (1 / √(u ^ 2 + r ^ 2 + (z - v) ^ 2 - 2 * r * u * cos ψ) ^ 3))) (fun ψ => by simp only [Real.cos_add_two_pi, Real.sin_add_two_pi])]
    have c1 : Continuous (fun ψ => cos α * (r / (4 * π)) * ((r * cos ψ - u) / √(u ^ 2 + r ^ 2 + (z - v) ^ 2 - 2 * r * u * cos ψ) ^ 3)) := continuous_const.mul hcos
    have c2 : Continuous (fun ψ => (-(sin α * (r * r / (4 * π)))) * (sin ψ * (1 / √(u ^ 2 + r ^ 2 + (z - v) ^ 2 - 2 * r * u * cos ψ) ^ 3))) := continuous_const.mul hsin
    rw [intervalIntegral.integral_add (c1.intervalIntegrable _ _) (c2.intervalIntegrable _ _), intervalIntegral.integral_const_mul, intervalIntegral.integral_const_mul, hodd]
    ring
  · simp only [hy]
    rw [shift (fun ψ => sin α * (r / (4 * π)) * ((r * cos ψ - u) / √(u ^ 2 + r ^ 2 + (z - v) ^ 2 - 2 * r * u * cos ψ) ^ 3) +
      (cos α * (r * r / (4 * π))) * (sin ψ * (1 / √(u ^ 2 + r ^ 2 + (z - v) ^ 2 - 2 * r * u * cos ψ) ^ 3))) (fun ψ => by simp only [Real.cos_add_two_pi, Real.sin_add_two_pi])]
    have c1 : Continuous (fun ψ => sin α * (r / (4 * π)) * ((r * cos ψ - u) / √(u ^ 2 + r ^ 2 + (z - v) ^ 2 - 2 * r * u * cos ψ) ^ 3)) := continuous_const.mul hcos
    have c2 : Continuous (fun ψ => (cos α * (r * r / (4 * π))) * (sin ψ * (1 / √(u ^ 2 + r ^ 2 + (z - v) ^ 2 - 2 * r * u * cos ψ) ^ 3))) := continuous_const.mul hsin
    rw [intervalIntegral.integral_add (c1.intervalIntegrable _ _) (c2.intervalIntegrable _ _), intervalIntegral.integral_const_mul, intervalIntegral.integral_const_mul, hodd]
    ring
  · simp only [hz]
    rw [shift (fun ψ => r * (z - v) / (4 * π) * (1 / √(u ^ 2 + r ^ 2 + (z - v) ^ 2 - 2 * r * u * cos ψ) ^ 3)) (fun ψ => by simp only [Real.cos_add_two_pi]),
      intervalIntegral.integral_const_mul]

theorem integral_affine {r z u v : ℝ} (hr : 0 < r) (hu0 : 0 ≤ u) (hu : u ≤ r / 2) (a b : ℝ) :
    ∫ φ in (0 : ℝ)..2 * π, (a + b * cos φ) / √(u ^ 2 + r ^ 2 + (z - v) ^ 2 - 2 * r * u * cos φ) ^ 3 =
      a * (∫ φ in (0 : ℝ)..2 * π, 1 / √(u ^ 2 + r ^ 2 + (z - v) ^ 2 - 2 * r * u * cos φ) ^ 3) +
      b * ∫ φ in (0 : ℝ)..2 * π, cos φ / √(u ^ 2 + r ^ 2 + (z - v) ^ 2 - 2 * r * u * cos φ) ^ 3 := by
  have hN : ∀ φ, √(u ^ 2 + r ^ 2 + (z - v) ^ 2 - 2 * r * u * cos φ) ^ 3 ≠ 0 := fun φ => pow_ne_zero _ (Real.sqrt_pos.2 (kernel_pos hr hu0 hu _ (Real.cos_le_one φ))).ne'
  have c0 : Continuous (fun φ => 1 / √(u ^ 2 + r ^ 2 + (z - v) ^ 2 - 2 * r * u * cos φ) ^ 3) := Continuous.div (by fun_prop) (by fun_prop) hN
  have c1 : Continuous (fun φ => cos φ / √(u ^ 2 + r ^ 2 + (z - v) ^ 2 - 2 * r * u * cos φ) ^ 3) := Continuous.div (by fun_prop) (by fun_prop) hN
  have d0 : Continuous (fun φ => a * (1 / √(u ^ 2 + r ^ 2 + (z - v) ^ 2 - 2 * r * u * cos φ) ^ 3)) := continuous_const.mul c0
  have d1 : Continuous (fun φ => b * (cos φ / √(u ^ 2 + r ^ 2 + (z - v) ^ 2 - 2 * r * u * cos φ) ^ 3)) := continuous_const.mul c1
  rw [← intervalIntegral.integral_const_mul, ← intervalIntegral.integral_const_mul, ← intervalIntegral.integral_add (d0.intervalIntegrable _ _) (d1.intervalIntegrable _ _)]
  congr 1
  funext φ
  ring

/-- One charged ring: potential and gradient near the axis. -/
theorem ring_accuracy {r : ℝ} (hr : 0 < r) (z B : ℝ) : ∃ C δ : ℝ, 0 ≤ C ∧ 0 < δ ∧ ∀ v, |v| ≤ B → ∀ x y, norm2d x y ≤ δ →
    |ringPotential r z ⟨x, y, v⟩ - seriesPotential (norm2d x y) (axialDerivativesRadialRing v r z)| ≤ C * norm2d x y ^ 10 ∧
    ∃ g : V3, IsGradient (ringPotential r z) g ⟨x, y, v⟩ ∧
      |g.x + (seriesField ⟨x, y, v⟩ (norm2d x y) (axialDerivativesRadialRing v r z)).x| ≤ C * norm2d x y ^ 9 ∧
      |g.y + (seriesField ⟨x, y, v⟩ (norm2d x y) (axialDerivativesRadialRing v r z)).y| ≤ C * norm2d x y ^ 9 ∧
      |g.z + (seriesField ⟨x, y, v⟩ (norm2d x y) (axialDerivativesRadialRing v r z)).z| ≤ C * norm2d x y ^ 8 := by
  obtain ⟨C, δ, hC, hδ, hδr, hδ1, hexp⟩ := ring_expansions hr
  have hpi := Real.pi_pos
  refine ⟨r / (4 * π) * (1 + r + (|z| + |B|)) * C, δ, by positivity, hδ, ?_⟩
  intro v hv x y hxy
  obtain ⟨α, hx, hy⟩ := exists_polar2d x y
  have hu0 := norm2d_nonneg x y
  change x = norm2d x y * cos α at hx
  change y = norm2d x y * sin α at hy
  generalize norm2d x y = u at *
  subst hx hy
  obtain ⟨e1, e2, e3⟩ := hexp z v u hu0 hxy
  have hur := le_trans hxy hδr
  have hrpi : 0 < r / (4 * π) := by positivity
  have hzv := abs_nonneg (z - v)
  have hzB : |z - v| ≤ |z| + |B| := (abs_sub z v).trans (by linarith [hv.trans (le_abs_self B)])
  have hB0 : 0 ≤ |z| + |B| := hzv.trans hzB
  constructor
  · rw [ringPotential_polar, series_potential_closed hr]
    generalize (∫ φ in (0 : ℝ)..2 * π, 1 / √(u ^ 2 + r ^ 2 + (z - v) ^ 2 - 2 * r * u * cos φ)) = I at *
    have : r / (4 * π) * I - r / 2 / √(r ^ 2 + (z - v) ^ 2) * axisPot u r (1 / (r ^ 2 + (z - v) ^ 2)) =
        r / (4 * π) * (I - 2 * π / √(r ^ 2 + (z - v) ^ 2) * axisPot u r (1 / (r ^ 2 + (z - v) ^ 2))) := by
      field_simp; ring
    rw [this, abs_mul, abs_of_pos hrpi]
    have p10 : 0 ≤ C * u ^ 10 := by positivity
    calc _ ≤ r / (4 * π) * (C * u ^ 10) := mul_le_mul_of_nonneg_left e1 hrpi.le
      _ ≤ r / (4 * π) * ((1 + r + (|z| + |B|)) * (C * u ^ 10)) := mul_le_mul_of_nonneg_left (by nlinarith) hrpi.le
      _ = _ := by ring
  · refine ⟨_, ringGradient_polar α hr hu0 hur, ?_⟩
    have hI : ∫ φ in (0 : ℝ)..2 * π, (r * cos φ - u) / √(u ^ 2 + r ^ 2 + (z - v) ^ 2 - 2 * r * u * cos φ) ^ 3 = _ :=
      (by congr 1; funext φ; ring : ∫ φ in (0 : ℝ)..2 * π, (r * cos φ - u) / √(u ^ 2 + r ^ 2 + (z - v) ^ 2 - 2 * r * u * cos φ) ^ 3 =
        ∫ φ in (0 : ℝ)..2 * π, (-u + r * cos φ) / √(u ^ 2 + r ^ 2 + (z - v) ^ 2 - 2 * r * u * cos φ) ^ 3).trans (integral_affine hr hu0 hur (-u) r)
    rw [hI, seriesField_polar]
    simp only
    rw [series_axial_closed hr]
    have hrad := series_radial_closed hr z v u
    generalize (∫ φ in (0 : ℝ)..2 * π, 1 / √(u ^ 2 + r ^ 2 + (z - v) ^ 2 - 2 * r * u * cos φ) ^ 3) = K0 at *
    generalize (∫ φ in (0 : ℝ)..2 * π, cos φ / √(u ^ 2 + r ^ 2 + (z - v) ^ 2 - 2 * r * u * cos φ) ^ 3) = K1 at *
    generalize axisJ0 u r (1 / (r ^ 2 + (z - v) ^ 2)) = j0 at *
    generalize axisJ1 u r (1 / (r ^ 2 + (z - v) ^ 2)) = j1 at *
    generalize √(r ^ 2 + (z - v) ^ 2) ^ 3 = N3 at *
    have rad : |r / (4 * π) * (-u * K0 + r * K1) + u * seriesRadial u (axialDerivativesRadialRing v r z)| ≤ r / (4 * π) * (1 + r + (|z| + |B|)) * C * u ^ 9 := by
      rw [hrad]
      have : r / (4 * π) * (-u * K0 + r * K1) + r / 2 / N3 * (u * j0 - r * j1) = r / (4 * π) * (-u * (K0 - 2 * π / N3 * j0) + r * (K1 - 2 * π / N3 * j1)) := by
        field_simp; ring
      rw [this, abs_mul, abs_of_pos hrpi]
      have t1 : |-u * (K0 - 2 * π / N3 * j0)| ≤ C * u ^ 9 := by
        rw [abs_mul, abs_neg, abs_of_nonneg hu0]
        calc _ ≤ u * (C * u ^ 8) := mul_le_mul_of_nonneg_left e2 hu0
          _ = _ := by ring
      have t2 : |r * (K1 - 2 * π / N3 * j1)| ≤ r * (C * u ^ 9) := by
        rw [abs_mul, abs_of_pos hr]
        exact mul_le_mul_of_nonneg_left e3 hr.le
      have p9 : 0 ≤ C * u ^ 9 := by positivity
      have := le_trans (abs_add_le (-u * (K0 - 2 * π / N3 * j0)) (r * (K1 - 2 * π / N3 * j1))) (add_le_add t1 t2)
      calc _ ≤ r / (4 * π) * (C * u ^ 9 + r * (C * u ^ 9)) := mul_le_mul_of_nonneg_left this hrpi.le
        _ ≤ r / (4 * π) * ((1 + r + (|z| + |B|)) * (C * u ^ 9)) := mul_le_mul_of_nonneg_left (by nlinarith) hrpi.le
        _ = _ := by ring
    refine ⟨?_, ?_, ?_⟩
    · rw [show cos α * (r / (4 * π) * (-u * K0 + r * K1)) + u * cos α * seriesRadial u (axialDerivativesRadialRing v r z) =
        cos α * (r / (4 * π) * (-u * K0 + r * K1) + u * seriesRadial u (axialDerivativesRadialRing v r z)) by ring, abs_mul]
      exact le_trans (mul_le_of_le_one_left (abs_nonneg _) (Real.abs_cos_le_one α)) rad
    · rw [show sin α * (r / (4 * π) * (-u * K0 + r * K1)) + u * sin α * seriesRadial u (axialDerivativesRadialRing v r z) =
        sin α * (r / (4 * π) * (-u * K0 + r * K1) + u * seriesRadial u (axialDerivativesRadialRing v r z)) by ring, abs_mul]
      exact le_trans (mul_le_of_le_one_left (abs_nonneg _) (Real.abs_sin_le_one α)) rad
    · have : r * (z - v) / (4 * π) * K0 + r / 2 * (v - z) / N3 * j0 = r / (4 * π) * ((z - v) * (K0 - 2 * π / N3 * j0)) := by
        field_simp; ring
      rw [this, abs_mul, abs_of_pos hrpi, abs_mul]
      have p8 : 0 ≤ C * u ^ 8 := by positivity
      calc _ ≤ r / (4 * π) * (|z - v| * (C * u ^ 8)) := mul_le_mul_of_nonneg_left (mul_le_mul_of_nonneg_left e2 hzv) hrpi.le
        _ ≤ r / (4 * π) * ((1 + r + (|z| + |B|)) * (C * u ^ 8)) := mul_le_mul_of_nonneg_left (by nlinarith) hrpi.le
        _ = _ := by ring

/-- One current ring: the field near the axis. -/
theorem currentRing_accuracy {r : ℝ} (hr : 0 < r) (z B : ℝ) : ∃ C δ : ℝ, 0 ≤ C ∧ 0 < δ ∧ ∀ v, |v| ≤ B → ∀ x y, norm2d x y ≤ δ →
    |(ringField r z ⟨x, y, v⟩).x - (seriesField ⟨x, y, v⟩ (norm2d x y) (currentAxialDerivativesRadialRing v r z)).x| ≤ C * norm2d x y ^ 9 ∧
    |(ringField r z ⟨x, y, v⟩).y - (seriesField ⟨x, y, v⟩ (norm2d x y) (currentAxialDerivativesRadialRing v r z)).y| ≤ C * norm2d x y ^ 9 ∧
    |(ringField r z ⟨x, y, v⟩).z - (seriesField ⟨x, y, v⟩ (norm2d x y) (currentAxialDerivativesRadialRing v r z)).z| ≤ C * norm2d x y ^ 8 := by
  obtain ⟨C, δ, hC, hδ, hδr, hδ1, hexp⟩ := ring_expansions hr
  obtain ⟨k₀, hk₀⟩ := current_axial_closed hr z
  have hpi := Real.pi_pos
  refine ⟨r / (4 * π) * (1 + r + (|z| + |B|)) * C + |k₀|, δ, by positivity, hδ, ?_⟩
  intro v hv x y hxy
  obtain ⟨k, hkk, hk⟩ := hk₀ v
  obtain ⟨α, hx, hy⟩ := exists_polar2d x y
  have hu0 := norm2d_nonneg x y
  change x = norm2d x y * cos α at hx
  change y = norm2d x y * sin α at hy
  generalize norm2d x y = u at *
  subst hx hy
  obtain ⟨-, e2, e3⟩ := hexp z v u hu0 hxy
  have hur := le_trans hxy hδr
  have hu1 := le_trans hxy hδ1
  have hrpi : 0 < r / (4 * π) := by positivity
  have hzv := abs_nonneg (v - z)
  have hzB : |v - z| ≤ |z| + |B| := (abs_sub v z).trans (by linarith [hv.trans (le_abs_self B)])
  have hB0 : 0 ≤ |z| + |B| := hzv.trans hzB
  have hn : 0 < nearSq u v r z := by unfold nearSq; nlinarith [sq_nonneg (z - v)]
  rw [ringField_polar hu0 hr hn, integral_affine hr hu0 hur, integral_affine hr hu0 hur, seriesField_polar]
  simp only
  have hrad := current_radial_closed hr z v u
  have hax := hk u
  generalize (∫ φ in (0 : ℝ)..2 * π, 1 / √(u ^ 2 + r ^ 2 + (z - v) ^ 2 - 2 * r * u * cos φ) ^ 3) = K0 at *
  generalize (∫ φ in (0 : ℝ)..2 * π, cos φ / √(u ^ 2 + r ^ 2 + (z - v) ^ 2 - 2 * r * u * cos φ) ^ 3) = K1 at *
  generalize axisJ0 u r (1 / (r ^ 2 + (z - v) ^ 2)) = j0 at *
  generalize axisJ1 u r (1 / (r ^ 2 + (z - v) ^ 2)) = j1 at *
  generalize √(r ^ 2 + (z - v) ^ 2) ^ 3 = N3 at *
  have rad : |r * (v - z) / (4 * π) * (0 * K0 + 1 * K1) - u * seriesRadial u (currentAxialDerivativesRadialRing v r z)| ≤ (r / (4 * π) * (1 + r + (|z| + |B|)) * C + |k₀|) * u ^ 9 := by
    rw [hrad]
    have : r * (v - z) / (4 * π) * (0 * K0 + 1 * K1) - r / 2 * (v - z) / N3 * j1 = r / (4 * π) * ((v - z) * (K1 - 2 * π / N3 * j1)) := by
      field_simp; ring
    rw [this, abs_mul, abs_of_pos hrpi, abs_mul]
    have p9 : 0 ≤ C * u ^ 9 := by positivity
    have pk : 0 ≤ |k| * u ^ 9 := by positivity
    calc _ ≤ r / (4 * π) * (|v - z| * (C * u ^ 9)) := mul_le_mul_of_nonneg_left (mul_le_mul_of_nonneg_left e3 hzv) hrpi.le
      _ ≤ r / (4 * π) * ((1 + r + (|z| + |B|)) * (C * u ^ 9)) := mul_le_mul_of_nonneg_left (by nlinarith) hrpi.le
      _ ≤ r / (4 * π) * ((1 + r + (|z| + |B|)) * (C * u ^ 9)) + |k| * u ^ 9 := by linarith
      _ ≤ r / (4 * π) * ((1 + r + (|z| + |B|)) * (C * u ^ 9)) + |k₀| * u ^ 9 := by
        have := mul_le_mul_of_nonneg_right (hkk.trans (le_abs_self k₀)) (by positivity : 0 ≤ u ^ 9)
        linarith
      _ = _ := by ring
  refine ⟨?_, ?_, ?_⟩
  · rw [show cos α * (r * (v - z) / (4 * π) * (0 * K0 + 1 * K1)) - u * cos α * seriesRadial u (currentAxialDerivativesRadialRing v r z) =
      cos α * (r * (v - z) / (4 * π) * (0 * K0 + 1 * K1) - u * seriesRadial u (currentAxialDerivativesRadialRing v r z)) by ring, abs_mul]
    exact le_trans (mul_le_of_le_one_left (abs_nonneg _) (Real.abs_cos_le_one α)) rad
  · rw [show sin α * (r * (v - z) / (4 * π) * (0 * K0 + 1 * K1)) - u * sin α * seriesRadial u (currentAxialDerivativesRadialRing v r z) =
      sin α * (r * (v - z) / (4 * π) * (0 * K0 + 1 * K1) - u * seriesRadial u (currentAxialDerivativesRadialRing v r z)) by ring, abs_mul]
    exact le_trans (mul_le_of_le_one_left (abs_nonneg _) (Real.abs_sin_le_one α)) rad
  · have e : (seriesField 0 u (currentAxialDerivativesRadialRing v r z)).z = r / 2 / N3 * (r * j0 - u * j1) - u ^ 8 * k := by linarith
    rw [e]
    have : r / (4 * π) * (r * K0 + -u * K1) - (r / 2 / N3 * (r * j0 - u * j1) - u ^ 8 * k) =
        r / (4 * π) * (r * (K0 - 2 * π / N3 * j0) + -u * (K1 - 2 * π / N3 * j1)) + u ^ 8 * k := by
      field_simp; ring
    rw [this]
    have p8 : 0 ≤ C * u ^ 8 := by positivity
    have t1 : |r * (K0 - 2 * π / N3 * j0)| ≤ r * (C * u ^ 8) := by
      rw [abs_mul, abs_of_pos hr]
      exact mul_le_mul_of_nonneg_left e2 hr.le
    have t2 : |-u * (K1 - 2 * π / N3 * j1)| ≤ C * u ^ 8 := by
      rw [abs_mul, abs_neg, abs_of_nonneg hu0]
      have h10 : u ^ 10 ≤ u ^ 8 := pow_le_pow_of_le_one hu0 hu1 (by norm_num)
      calc _ ≤ u * (C * u ^ 9) := mul_le_mul_of_nonneg_left e3 hu0
        _ = C * u ^ 10 := by ring
        _ ≤ _ := mul_le_mul_of_nonneg_left h10 hC
    have t3 := le_trans (abs_add_le (r * (K0 - 2 * π / N3 * j0)) (-u * (K1 - 2 * π / N3 * j1))) (add_le_add t1 t2)
    refine le_trans (abs_add_le _ _) ?_
    rw [abs_mul (r / (4 * π)), abs_of_pos hrpi, abs_mul, abs_of_nonneg (by positivity : 0 ≤ u ^ 8)]
    calc _ ≤ r / (4 * π) * (r * (C * u ^ 8) + C * u ^ 8) + u ^ 8 * |k| := by linarith [mul_le_mul_of_nonneg_left t3 hrpi.le]
      _ ≤ r / (4 * π) * ((1 + r + (|z| + |B|)) * (C * u ^ 8)) + u ^ 8 * |k| := by
        have := mul_le_mul_of_nonneg_left (by nlinarith : r * (C * u ^ 8) + C * u ^ 8 ≤ (1 + r + (|z| + |B|)) * (C * u ^ 8)) hrpi.le
        linarith
      _ ≤ r / (4 * π) * ((1 + r + (|z| + |B|)) * (C * u ^ 8)) + u ^ 8 * |k₀| := by
        have := mul_le_mul_of_nonneg_left (hkk.trans (le_abs_self k₀)) (by positivity : 0 ≤ u ^ 8)
        linarith
      _ = _ := by ring

/-! ## Distributions of rings -/

theorem loop_linear {P : Type} (e : EffCharges P) (f g : P → ℝ) (a b : ℝ) : e.loop (fun q => a * f q + b * g q) = a * e.loop f + b * e.loop g := by
  simp only [EffCharges.loop_eq]
  unfold Spec.superpose
  have inner : ∀ (c : ℝ) (l : List (ℝ × P)), (l.map (fun y => c * y.1 * (a * f y.2 + b * g y.2))).sum =
      a * (l.map (fun y => c * y.1 * f y.2)).sum + b * (l.map (fun y => c * y.1 * g y.2)).sum := by
    intro c l
    induction l with
    | nil => simp
    | cons y l ih => simp only [List.map_cons, List.sum_cons, ih]; ring
  simp only [inner]
  induction e.charges.zip (e.jacobians.zip e.positions) with
  | nil => simp
  | cons y l ih => simp only [List.map_cons, List.sum_cons, ih]; ring

/-- Finitely many errors of order `m` add up to an error of order `m`. -/
theorem loop_bound {P : Type} (e : EffCharges P) (m : ℕ) (A : ℝ → Prop) (F : ℝ × ℝ × ℝ → P → ℝ)
    (h : ∀ row ∈ e.positions, ∀ q ∈ row, ∃ C δ : ℝ, 0 ≤ C ∧ 0 < δ ∧ ∀ x, A x.2.2 → norm2d x.1 x.2.1 ≤ δ → |F x q| ≤ C * norm2d x.1 x.2.1 ^ m) :
    ∃ C δ : ℝ, 0 ≤ C ∧ 0 < δ ∧ ∀ x, A x.2.2 → norm2d x.1 x.2.1 ≤ δ → |e.loop (F x)| ≤ C * norm2d x.1 x.2.1 ^ m := by
  have key : ∀ {α : Type} (l : List α) (G : ℝ × ℝ × ℝ → α → ℝ), (∀ a ∈ l, ∃ C δ : ℝ, 0 ≤ C ∧ 0 < δ ∧ ∀ x, A x.2.2 → norm2d x.1 x.2.1 ≤ δ → |G x a| ≤ C * norm2d x.1 x.2.1 ^ m) →
      ∃ C δ : ℝ, 0 ≤ C ∧ 0 < δ ∧ ∀ x, A x.2.2 → norm2d x.1 x.2.1 ≤ δ → |(l.map (G x)).sum| ≤ C * norm2d x.1 x.2.1 ^ m := by
    intro α l G hl
    induction l with
    | nil => exact ⟨0, 1, le_rfl, one_pos, fun x _ _ => by simp⟩
    | cons a l ih =>
      obtain ⟨C1, δ1, hC1, hδ1, h1⟩ := hl a (by simp)
      obtain ⟨C2, δ2, hC2, hδ2, h2⟩ := ih (fun b hb => hl b (by simp [hb]))
      refine ⟨C1 + C2, min δ1 δ2, add_nonneg hC1 hC2, lt_min hδ1 hδ2, fun x hA hx => ?_⟩
      simp only [List.map_cons, List.sum_cons]
      have := add_le_add (h1 x hA (le_trans hx (min_le_left _ _))) (h2 x hA (le_trans hx (min_le_right _ _)))
      rw [add_mul]
      exact le_trans (abs_add_le _ _) this
  simp only [EffCharges.loop_eq]
  unfold Spec.superpose
  refine key _ (fun x (t : ℝ × List ℝ × List P) => ((t.2.1.zip t.2.2).map (fun y => t.1 * y.1 * F x y.2)).sum) ?_
  rintro ⟨c, js, ps⟩ hx
  refine key _ (fun x (y : ℝ × P) => c * y.1 * F x y.2) ?_
  rintro ⟨j, q⟩ hy
  obtain ⟨C, δ, hC, hδ, hb⟩ := h ps (List.of_mem_zip (List.of_mem_zip hx).2).2 q (List.of_mem_zip hy).2
  refine ⟨|c * j| * C, δ, by positivity, hδ, fun x hA hx => ?_⟩
  simp only
  rw [abs_mul, mul_assoc]
  exact mul_le_mul_of_nonneg_left (hb x hA hx) (abs_nonneg _)

theorem seriesPotential_loop {P : Type} (e : EffCharges P) (D : P → Nat → ℝ) (u : ℝ) :
    seriesPotential u (fun n => e.loop (fun q => D q n)) = e.loop (fun q => seriesPotential u (D q)) := by
  have h : (fun q => seriesPotential u (D q)) = fun q => 1 * (1 * (1 * (1 * D q 0 + -(u ^ 2 / 4) * D q 2) + u ^ 4 / 64 * D q 4) + -(u ^ 6 / 2304) * D q 6) + u ^ 8 / 147456 * D q 8 := by
    funext q; unfold seriesPotential; ring
  rw [h]
  simp only [loop_linear]
  unfold seriesPotential
  ring

theorem seriesField_loop {P : Type} (e : EffCharges P) (D : P → Nat → ℝ) (p : V3) (u : ℝ) :
    seriesField p u (fun n => e.loop (fun q => D q n)) =
      ⟨e.loop (fun q => (seriesField p u (D q)).x), e.loop (fun q => (seriesField p u (D q)).y), e.loop (fun q => (seriesField p u (D q)).z)⟩ := by
  have hr : ∀ k : ℝ, e.loop (fun q => k * (0.5 * (D q 2 - u ^ 2 / 8 * D q 4 + u ^ 4 / 192 * D q 6 - u ^ 6 / 9216 * D q 8))) =
      k * (0.5 * (e.loop (fun q => D q 2) - u ^ 2 / 8 * e.loop (fun q => D q 4) + u ^ 4 / 192 * e.loop (fun q => D q 6) - u ^ 6 / 9216 * e.loop (fun q => D q 8))) := by
    intro k
    have h : (fun q => k * (0.5 * (D q 2 - u ^ 2 / 8 * D q 4 + u ^ 4 / 192 * D q 6 - u ^ 6 / 9216 * D q 8))) =
        fun q => 1 * (1 * ((k * 0.5) * D q 2 + -(k * 0.5 * (u ^ 2 / 8)) * D q 4) + k * 0.5 * (u ^ 4 / 192) * D q 6) + -(k * 0.5 * (u ^ 6 / 9216)) * D q 8 := by
      funext q; ring
    rw [h]
    simp only [loop_linear]
    ring
  ext
  · exact (hr p.x).symm
  · exact (hr p.y).symm
  · simp only [seriesField]
    have h : (fun q => -D q 1 + u ^ 2 / 4 * D q 3 - u ^ 4 / 64 * D q 5 + u ^ 6 / 2304 * D q 7) =
        fun q => 1 * (1 * ((-1) * D q 1 + u ^ 2 / 4 * D q 3) + -(u ^ 4 / 64) * D q 5) + u ^ 6 / 2304 * D q 7 := by
      funext q; ring
    rw [h]
    simp only [loop_linear]
    ring

theorem norm2d_spec (x y : ℝ) : norm2d x y = √(x ^ 2 + y ^ 2) := by unfold norm2d; rw [← sq, ← sq]

theorem loop_sub' {P : Type} (e : EffCharges P) (f g : P → ℝ) : e.loop (fun q => f q - g q) = e.loop f - e.loop g := by
  have := loop_linear e f g 1 (-1)
  simp only [one_mul, neg_one_mul, ← sub_eq_add_neg] at this
  exact this

theorem loop_add' {P : Type} (e : EffCharges P) (f g : P → ℝ) : e.loop (fun q => f q + g q) = e.loop f + e.loop g := by
  have := loop_linear e f g 1 1
  simp only [one_mul] at this
  exact this

/-- **C52** (accuracy, electrostatic). For every distribution of charged rings, uniformly for the positions `v` in any bounded part of the axis: the potential of the radial series, with the derivatives the code computes at `v`,
differs from the potential of the rings (superposition of the potentials of their points) by at most a constant times `r¹⁰`, where `r` is the distance from the axis; the transversal components of
its field differ from minus the gradient of that potential by at most a constant times `r⁹`, and the longitudinal component by at most a constant times `r⁸`. -/
theorem C52_accuracy_charges (e : EffCharges (ℝ × ℝ)) (he : ∀ row ∈ e.positions, ∀ q ∈ row, 0 < q.1) (B : ℝ) :
    ∃ C δ : ℝ, 0 < δ ∧ ∀ v, |v| ≤ B → ∀ x y r, r = √(x ^ 2 + y ^ 2) → r ≤ δ →
      |Spec.superpose (fun q => ringPotential q.1 q.2 ⟨x, y, v⟩) e - seriesPotential r (getElectrostaticAxialPotentialDerivatives e v)| ≤ C * r ^ 10 ∧
      ∃ g : V3, IsGradient (fun p => Spec.superpose (fun q => ringPotential q.1 q.2 p) e) g ⟨x, y, v⟩ ∧
        |(seriesField ⟨x, y, v⟩ r (getElectrostaticAxialPotentialDerivatives e v)).x - -g.x| ≤ C * r ^ 9 ∧
        |(seriesField ⟨x, y, v⟩ r (getElectrostaticAxialPotentialDerivatives e v)).y - -g.y| ≤ C * r ^ 9 ∧
        |(seriesField ⟨x, y, v⟩ r (getElectrostaticAxialPotentialDerivatives e v)).z - -g.z| ≤ C * r ^ 8 := by
  classical
  -- the gradients of the rings
  let g : ℝ × ℝ × ℝ → ℝ × ℝ → V3 := fun x q => if h : ∃ g, IsGradient (ringPotential q.1 q.2) g ⟨x.1, x.2.1, x.2.2⟩ then h.choose else 0
  have hg : ∀ x q g', IsGradient (ringPotential q.1 q.2) g' ⟨x.1, x.2.1, x.2.2⟩ → g x q = g' ∧ IsGradient (ringPotential q.1 q.2) (g x q) ⟨x.1, x.2.1, x.2.2⟩ := by
    intro x q g' hg'
    have hex : ∃ g, IsGradient (ringPotential q.1 q.2) g ⟨x.1, x.2.1, x.2.2⟩ := ⟨g', hg'⟩
    have h1 : IsGradient (ringPotential q.1 q.2) (g x q) ⟨x.1, x.2.1, x.2.2⟩ := by
      simp only [g, dif_pos hex]; exact hex.choose_spec
    refine ⟨?_, h1⟩
    have hu := ((isGradient_iff _ _ _).1 h1).unique ((isGradient_iff _ _ _).1 hg')
    have a1 := DFunLike.congr_fun hu (1, 0, 0)
    have a2 := DFunLike.congr_fun hu (0, 1, 0)
    have a3 := DFunLike.congr_fun hu (0, 0, 1)
    simp only [gradMap_apply] at a1 a2 a3
    ext
    · simpa using a1
    · simpa using a2
    · simpa using a3
  have hall := fun row hr q hq => ring_accuracy (he row hr q hq) q.2 B
  obtain ⟨C1, δ1, hC1, hδ1, h1⟩ := loop_bound e 10 (fun v => |v| ≤ B) (fun x q => ringPotential q.1 q.2 ⟨x.1, x.2.1, x.2.2⟩ - seriesPotential (norm2d x.1 x.2.1) (axialDerivativesRadialRing x.2.2 q.1 q.2))
    (fun row hr q hq => by obtain ⟨C, δ, hC, hδ, h⟩ := hall row hr q hq; exact ⟨C, δ, hC, hδ, fun x hA hx => (h x.2.2 hA x.1 x.2.1 hx).1⟩)
  obtain ⟨C2, δ2, hC2, hδ2, h2⟩ := loop_bound e 9 (fun v => |v| ≤ B) (fun x q => (g x q).x + (seriesField ⟨x.1, x.2.1, x.2.2⟩ (norm2d x.1 x.2.1) (axialDerivativesRadialRing x.2.2 q.1 q.2)).x)
    (fun row hr q hq => by
      obtain ⟨C, δ, hC, hδ, h⟩ := hall row hr q hq
      exact ⟨C, δ, hC, hδ, fun x hA hx => by obtain ⟨g', hg', hx', -, -⟩ := (h x.2.2 hA x.1 x.2.1 hx).2; rw [(hg x q g' hg').1]; exact hx'⟩)
  obtain ⟨C3, δ3, hC3, hδ3, h3⟩ := loop_bound e 9 (fun v => |v| ≤ B) (fun x q => (g x q).y + (seriesField ⟨x.1, x.2.1, x.2.2⟩ (norm2d x.1 x.2.1) (axialDerivativesRadialRing x.2.2 q.1 q.2)).y)
    (fun row hr q hq => by
      obtain ⟨C, δ, hC, hδ, h⟩ := hall row hr q hq
      exact ⟨C, δ, hC, hδ, fun x hA hx => by obtain ⟨g', hg', -, hx', -⟩ := (h x.2.2 hA x.1 x.2.1 hx).2; rw [(hg x q g' hg').1]; exact hx'⟩)
  obtain ⟨C4, δ4, hC4, hδ4, h4⟩ := loop_bound e 8 (fun v => |v| ≤ B) (fun x q => (g x q).z + (seriesField ⟨x.1, x.2.1, x.2.2⟩ (norm2d x.1 x.2.1) (axialDerivativesRadialRing x.2.2 q.1 q.2)).z)
    (fun row hr q hq => by
      obtain ⟨C, δ, hC, hδ, h⟩ := hall row hr q hq
      exact ⟨C, δ, hC, hδ, fun x hA hx => by obtain ⟨g', hg', -, -, hx'⟩ := (h x.2.2 hA x.1 x.2.1 hx).2; rw [(hg x q g' hg').1]; exact hx'⟩)
  -- gradients exist close to the axis
  have h5 : ∃ δ5 : ℝ, 0 < δ5 ∧ ∀ x : ℝ × ℝ × ℝ, |x.2.2| ≤ B → norm2d x.1 x.2.1 ≤ δ5 → ∀ row ∈ e.positions, ∀ q ∈ row, IsGradient (ringPotential q.1 q.2) (g x q) ⟨x.1, x.2.1, x.2.2⟩ := by
    have key : ∀ l : List (ℝ × ℝ), (∀ q ∈ l, 0 < q.1) → ∃ δ5 : ℝ, 0 < δ5 ∧ ∀ x : ℝ × ℝ × ℝ, |x.2.2| ≤ B → norm2d x.1 x.2.1 ≤ δ5 → ∀ q ∈ l, IsGradient (ringPotential q.1 q.2) (g x q) ⟨x.1, x.2.1, x.2.2⟩ := by
      intro l
      induction l with
      | nil => exact fun _ => ⟨1, one_pos, fun x _ _ q hq => by simp at hq⟩
      | cons q l ih =>
        intro hl
        obtain ⟨δ, hδ, h⟩ := ih (fun q hq => hl q (by simp [hq]))
        obtain ⟨C, δ', -, hδ', h'⟩ := ring_accuracy (hl q (by simp)) q.2 B
        refine ⟨min δ δ', lt_min hδ hδ', fun x hA hx q' hq' => ?_⟩
        rcases List.mem_cons.1 hq' with rfl | hq'
        · obtain ⟨g', hg', -⟩ := (h' x.2.2 hA x.1 x.2.1 (le_trans hx (min_le_right _ _))).2
          exact (hg x q' g' hg').2
        · exact h x hA (le_trans hx (min_le_left _ _)) q' hq'
    obtain ⟨δ5, hδ5, h⟩ := key e.positions.flatten (fun q hq => by obtain ⟨row, hr, hq⟩ := List.mem_flatten.1 hq; exact he row hr q hq)
    exact ⟨δ5, hδ5, fun x hA hx row hr q hq => h x hA hx q (List.mem_flatten.2 ⟨row, hr, hq⟩)⟩
  obtain ⟨δ5, hδ5, h5⟩ := h5
  refine ⟨C1 + C2 + C3 + C4, min (min δ1 δ2) (min (min δ3 δ4) δ5), by positivity, ?_⟩
  intro v hv x y r hr hrδ
  rw [← norm2d_spec] at hr
  subst hr
  have b1 := h1 (x, y, v) hv (le_trans hrδ (le_trans (min_le_left _ _) (min_le_left _ _)))
  have b2 := h2 (x, y, v) hv (le_trans hrδ (le_trans (min_le_left _ _) (min_le_right _ _)))
  have b3 := h3 (x, y, v) hv (le_trans hrδ (le_trans (min_le_right _ _) (le_trans (min_le_left _ _) (min_le_left _ _))))
  have b4 := h4 (x, y, v) hv (le_trans hrδ (le_trans (min_le_right _ _) (le_trans (min_le_left _ _) (min_le_right _ _))))
  have b5 := h5 (x, y, v) hv (le_trans hrδ (le_trans (min_le_right _ _) (min_le_right _ _)))
  simp only [loop_sub', loop_add'] at b1 b2 b3 b4
  have hsp : seriesPotential (norm2d x y) (getElectrostaticAxialPotentialDerivatives e v) = e.loop (fun q => seriesPotential (norm2d x y) (axialDerivativesRadialRing v q.1 q.2)) :=
    seriesPotential_loop e (fun q => axialDerivativesRadialRing v q.1 q.2) _
  have hsf : seriesField ⟨x, y, v⟩ (norm2d x y) (getElectrostaticAxialPotentialDerivatives e v) = _ := seriesField_loop e (fun q => axialDerivativesRadialRing v q.1 q.2) ⟨x, y, v⟩ _
  have hu0 := norm2d_nonneg x y
  have p10 : 0 ≤ norm2d x y ^ 10 := by positivity
  have p9 : 0 ≤ norm2d x y ^ 9 := by positivity
  have p8 : 0 ≤ norm2d x y ^ 8 := by positivity
  refine ⟨?_, ⟨e.loop (fun q => (g (x, y, v) q).x), e.loop (fun q => (g (x, y, v) q).y), e.loop (fun q => (g (x, y, v) q).z)⟩, ?_, ?_, ?_, ?_⟩
  · rw [hsp, ← EffCharges.loop_eq]
    exact le_trans b1 (mul_le_mul_of_nonneg_right (by linarith) p10)
  · have := Spec.IsGradient.loop e (fun p q => ringPotential q.1 q.2 p) (fun q => g (x, y, v) q) ⟨x, y, v⟩ (fun row hr q hq => b5 row hr q hq)
    refine this.congr (fun p => ?_)
    rw [EffCharges.loop_eq]
  · rw [hsf, sub_neg_eq_add, add_comm]
    exact le_trans b2 (mul_le_mul_of_nonneg_right (by linarith) p9)
  · rw [hsf, sub_neg_eq_add, add_comm]
    exact le_trans b3 (mul_le_mul_of_nonneg_right (by linarith) p9)
  · rw [hsf, sub_neg_eq_add, add_comm]
    exact le_trans b4 (mul_le_mul_of_nonneg_right (by linarith) p8)

/-- **C52** (accuracy, currents). For every distribution of current rings and every bounded range of positions `v` on the axis: the field of the radial series with the derivatives the code computes at `v` differs from the field
according to the law of Biot and Savart by at most a constant times `r⁹` (transversal) and `r⁸` (longitudinal). -/
theorem C52_accuracy_currents (c : EffCharges V3) (hc : ∀ row ∈ c.positions, ∀ q ∈ row, 0 < q.x) (B : ℝ) :
    ∃ C δ : ℝ, 0 < δ ∧ ∀ v, |v| ≤ B → ∀ x y r, r = √(x ^ 2 + y ^ 2) → r ≤ δ →
      |(seriesField ⟨x, y, v⟩ r (getCurrentAxialPotentialDerivatives c v)).x - Spec.superpose (fun q => (ringField q.x q.z ⟨x, y, v⟩).x) c| ≤ C * r ^ 9 ∧
      |(seriesField ⟨x, y, v⟩ r (getCurrentAxialPotentialDerivatives c v)).y - Spec.superpose (fun q => (ringField q.x q.z ⟨x, y, v⟩).y) c| ≤ C * r ^ 9 ∧
      |(seriesField ⟨x, y, v⟩ r (getCurrentAxialPotentialDerivatives c v)).z - Spec.superpose (fun q => (ringField q.x q.z ⟨x, y, v⟩).z) c| ≤ C * r ^ 8 := by
  have hall := fun row hr q hq => currentRing_accuracy (hc row hr q hq) q.z B
  obtain ⟨C2, δ2, hC2, hδ2, h2⟩ := loop_bound c 9 (fun v => |v| ≤ B) (fun x q => (ringField q.x q.z ⟨x.1, x.2.1, x.2.2⟩).x - (seriesField ⟨x.1, x.2.1, x.2.2⟩ (norm2d x.1 x.2.1) (currentAxialDerivativesRadialRing x.2.2 q.x q.z)).x)
    (fun row hr q hq => by obtain ⟨C, δ, hC, hδ, h⟩ := hall row hr q hq; exact ⟨C, δ, hC, hδ, fun x hA hx => (h x.2.2 hA x.1 x.2.1 hx).1⟩)
  obtain ⟨C3, δ3, hC3, hδ3, h3⟩ := loop_bound c 9 (fun v => |v| ≤ B) (fun x q => (ringField q.x q.z ⟨x.1, x.2.1, x.2.2⟩).y - (seriesField ⟨x.1, x.2.1, x.2.2⟩ (norm2d x.1 x.2.1) (currentAxialDerivativesRadialRing x.2.2 q.x q.z)).y)
    (fun row hr q hq => by obtain ⟨C, δ, hC, hδ, h⟩ := hall row hr q hq; exact ⟨C, δ, hC, hδ, fun x hA hx => (h x.2.2 hA x.1 x.2.1 hx).2.1⟩)
  obtain ⟨C4, δ4, hC4, hδ4, h4⟩ := loop_bound c 8 (fun v => |v| ≤ B) (fun x q => (ringField q.x q.z ⟨x.1, x.2.1, x.2.2⟩).z - (seriesField ⟨x.1, x.2.1, x.2.2⟩ (norm2d x.1 x.2.1) (currentAxialDerivativesRadialRing x.2.2 q.x q.z)).z)
    (fun row hr q hq => by obtain ⟨C, δ, hC, hδ, h⟩ := hall row hr q hq; exact ⟨C, δ, hC, hδ, fun x hA hx => (h x.2.2 hA x.1 x.2.1 hx).2.2⟩)
  refine ⟨C2 + C3 + C4, min δ2 (min δ3 δ4), by positivity, ?_⟩
  intro v hv x y r hr hrδ
  rw [← norm2d_spec] at hr
  subst hr
  have b2 := h2 (x, y, v) hv (le_trans hrδ (min_le_left _ _))
  have b3 := h3 (x, y, v) hv (le_trans hrδ (le_trans (min_le_right _ _) (min_le_left _ _)))
  have b4 := h4 (x, y, v) hv (le_trans hrδ (le_trans (min_le_right _ _) (min_le_right _ _)))
  simp only [loop_sub'] at b2 b3 b4
  have hsf : seriesField ⟨x, y, v⟩ (norm2d x y) (getCurrentAxialPotentialDerivatives c v) = _ := seriesField_loop c (fun q => currentAxialDerivativesRadialRing v q.x q.z) ⟨x, y, v⟩ _
  have hu0 := norm2d_nonneg x y
  have p9 : 0 ≤ norm2d x y ^ 9 := by positivity
  have p8 : 0 ≤ norm2d x y ^ 8 := by positivity
  rw [hsf]
  simp only [← EffCharges.loop_eq]
  refine ⟨?_, ?_, ?_⟩
  · rw [abs_sub_comm]
    exact le_trans b2 (mul_le_mul_of_nonneg_right (by linarith) p9)
  · rw [abs_sub_comm]
    exact le_trans b3 (mul_le_mul_of_nonneg_right (by linarith) p9)
  · rw [abs_sub_comm]
    exact le_trans b4 (mul_le_mul_of_nonneg_right (by linarith) p8)

end Traceon
