import Verif.Model.Triangle
import Verif.Spec.Triangle
import Verif.Lemmas.OrientTest
import Verif.Props.Kronrod2
import Mathlib.MeasureTheory.Integral.IntervalIntegral.FundThmCalculus

namespace Traceon
open Spec V3

/-! ## The coordinate system -/

theorem dot_cross_left (a b : V3) : dot a (cross a b) = 0 := by simp only [dot, cross]; ring
theorem dot_cross_right (a b : V3) : dot b (cross a b) = 0 := by simp only [dot, cross]; ring
theorem dot_comm' (a b : V3) : dot a b = dot b a := by simp only [dot]; ring
theorem dot_unit_right (a b : V3) : dot a (unit b) = dot a b / norm b := by
  simp only [dot, unit, smul_x, smul_y, smul_z]; ring
theorem dot_unit_left (a b : V3) : dot (unit a) b = dot a b / norm a := by
  simp only [dot, unit, smul_x, smul_y, smul_z]; ring
theorem norm_eq_of_sq {a : V3} {r : ℝ} (hr : 0 ≤ r) (h : dot a a = r * r) : norm a = r := by
  unfold V3.norm; rw [h, Real.sqrt_mul_self hr]

/-- Expansion in an orthonormal basis `ex`, `ez × ex`, `ez`. -/
theorem dot_expand {ex ez : V3} (hx : dot ex ex = 1) (hz : dot ez ez = 1) (hxz : dot ex ez = 0) (n w : V3) :
    dot n w = dot n ex * dot w ex + dot n (cross ez ex) * dot w (cross ez ex) + dot n ez * dot w ez := by
  have gram : ∀ w : V3, dot w (cross ez ex) * dot w (cross ez ex) =
      dot w w * (dot ez ez * dot ex ex - dot ex ez * dot ex ez) - dot ez ez * dot w ex * dot w ex
        - dot ex ex * dot w ez * dot w ez + 2 * dot w ez * dot w ex * dot ex ez := by
    intro w; simp only [dot, cross]; ring
  have sq : ∀ w : V3, dot w w = dot w ex * dot w ex + dot w (cross ez ex) * dot w (cross ez ex) + dot w ez * dot w ez := by
    intro w
    rw [gram w, hx, hz, hxz]; ring
  have h1 := sq (n + w)
  have h2 := sq n
  have h3 := sq w
  have ladd : ∀ e : V3, dot (n + w) e = dot n e + dot w e := by intro e; simp only [dot, add_x, add_y, add_z]; ring
  have radd : dot (n + w) (n + w) = dot n n + 2 * dot n w + dot w w := by simp only [dot, add_x, add_y, add_z]; ring
  rw [radd, ladd, ladd, ladd] at h1
  linarith

section
variable {v0 v1 v2 : V3} (h : cross (v1 - v0) (v2 - v0) ≠ 0)
include h

theorem frame_x : dot (triFrame v0 v1 v2).ex (triFrame v0 v1 v2).ex = 1 := dot_unit_self (cross_ne_left h)
theorem frame_z : dot (triFrame v0 v1 v2).ez (triFrame v0 v1 v2).ez = 1 := dot_unit_self h
omit h in
theorem frame_xz : dot (triFrame v0 v1 v2).ex (triFrame v0 v1 v2).ez = 0 := by
  simp only [triFrame]
  rw [dot_unit_left, dot_unit_right, dot_cross_left]; simp

theorem frame_expand (n w : V3) : dot n w =
    dot n (triFrame v0 v1 v2).ex * dot w (triFrame v0 v1 v2).ex +
    dot n (triFrame v0 v1 v2).ey * dot w (triFrame v0 v1 v2).ey +
    dot n (triFrame v0 v1 v2).ez * dot w (triFrame v0 v1 v2).ez :=
  dot_expand (frame_x h) (frame_z h) frame_xz n w

theorem vec1_x : dot (v1 - v0) (triFrame v0 v1 v2).ex = norm (v1 - v0) := by
  simp only [triFrame]
  rw [dot_unit_right, ← norm_sq]
  have := (norm_pos (cross_ne_left h)).ne'
  field_simp

omit h in
theorem vec1_y : dot (v1 - v0) (triFrame v0 v1 v2).ey = 0 := by
  simp only [triFrame]
  generalize unit (cross (v1 - v0) (v2 - v0)) = e
  simp only [unit, dot, cross, smul_x, smul_y, smul_z]
  ring

omit h in
theorem vec1_z : dot (v1 - v0) (triFrame v0 v1 v2).ez = 0 := by
  simp only [triFrame]; rw [dot_unit_right, dot_cross_left, zero_div]

omit h in
theorem vec2_z : dot (v2 - v0) (triFrame v0 v1 v2).ez = 0 := by
  simp only [triFrame]; rw [dot_unit_right, dot_cross_right, zero_div]

/-- The height `c` over the side `v0 v1`. -/
theorem vec2_y : dot (v2 - v0) (triFrame v0 v1 v2).ey * norm (v1 - v0) = norm (cross (v1 - v0) (v2 - v0)) := by
  simp only [triFrame]
  have h1 := (norm_pos (cross_ne_left h)).ne'
  have h2 := (norm_pos h).ne'
  have h3 := norm_sq (cross (v1 - v0) (v2 - v0))
  have e : dot (v2 - v0) (cross (unit (cross (v1 - v0) (v2 - v0))) (unit (v1 - v0))) =
      dot (cross (v1 - v0) (v2 - v0)) (cross (v1 - v0) (v2 - v0)) /
        (norm (cross (v1 - v0) (v2 - v0)) * norm (v1 - v0)) := by
    generalize hN : norm (cross (v1 - v0) (v2 - v0)) = N at *
    generalize hA : norm (v1 - v0) = A at *
    simp only [unit, hN, hA]
    generalize v1 - v0 = p
    generalize v2 - v0 = q
    simp only [dot, cross, smul_x, smul_y, smul_z]
    field_simp
    ring
  rw [e, ← h3]
  field_simp

end

section
variable {v0 v1 v2 : V3} (h : cross (v1 - v0) (v2 - v0) ≠ 0) (p n : V3)
include h

theorem tri_a_pos : 0 < (normalizeTri v0 v1 v2 p n).a := norm_pos (cross_ne_left h)

theorem tri_c_pos : 0 < (normalizeTri v0 v1 v2 p n).c := by
  have h1 := vec2_y h
  have h2 := norm_pos (cross_ne_left h)
  have h3 := norm_pos h
  simp only [normalizeTri]
  by_contra hc
  push Not at hc
  nlinarith

theorem tri_area : (normalizeTri v0 v1 v2 p n).a * (normalizeTri v0 v1 v2 p n).c = norm (cross (v1 - v0) (v2 - v0)) := by
  rw [mul_comm]; exact vec2_y h

/-- The components of `s - p` in the coordinate system. -/
theorem tri_components (u v : ℝ) :
    dot (triPoint v0 v1 v2 u v - p) (triFrame v0 v1 v2).ex =
      (normalizeTri v0 v1 v2 p n).x0 + v * (normalizeTri v0 v1 v2 p n).b + u * (normalizeTri v0 v1 v2 p n).a ∧
    dot (triPoint v0 v1 v2 u v - p) (triFrame v0 v1 v2).ey =
      (normalizeTri v0 v1 v2 p n).y0 + v * (normalizeTri v0 v1 v2 p n).c ∧
    dot (triPoint v0 v1 v2 u v - p) (triFrame v0 v1 v2).ez = -(normalizeTri v0 v1 v2 p n).z := by
  have lin : ∀ e : V3, dot (triPoint v0 v1 v2 u v - p) e = dot (v0 - p) e + u * dot (v1 - v0) e + v * dot (v2 - v0) e := by
    intro e
    simp only [triPoint, dot, sub_x, sub_y, sub_z, add_x, add_y, add_z, smul_x, smul_y, smul_z]; ring
  simp only [normalizeTri]
  refine ⟨?_, ?_, ?_⟩
  · rw [lin, vec1_x h]; ring
  · rw [lin, vec1_y]; ring
  · rw [lin, vec1_z, vec2_z, dot_comm' _ (v0 - p)]; ring

/-- **C55.** Distances to the target are preserved by the coordinate system. -/
theorem C55_isometric (u v : ℝ) :
    norm (p - triPoint v0 v1 v2 u v) =
      Real.sqrt (((normalizeTri v0 v1 v2 p n).x0 + v * (normalizeTri v0 v1 v2 p n).b + u * (normalizeTri v0 v1 v2 p n).a) ^ 2 +
        ((normalizeTri v0 v1 v2 p n).y0 + v * (normalizeTri v0 v1 v2 p n).c) ^ 2 + (normalizeTri v0 v1 v2 p n).z ^ 2) := by
  have hs : dot (p - triPoint v0 v1 v2 u v) (p - triPoint v0 v1 v2 u v) =
      dot (triPoint v0 v1 v2 u v - p) (triPoint v0 v1 v2 u v - p) := by
    simp only [dot, sub_x, sub_y, sub_z]; ring
  obtain ⟨c1, c2, c3⟩ := tri_components h p n u v
  unfold V3.norm
  rw [hs, frame_expand h, c1, c2, c3]
  congr 1
  ring

end

/-! ## The inner integrals -/

theorem hasDerivAt_arsinh_div {d : ℝ} (hd : 0 < d) (x : ℝ) :
    HasDerivAt (fun x => Real.arsinh (x / d)) (1 / Real.sqrt (x ^ 2 + d ^ 2)) x := by
  have h1 : HasDerivAt (fun x : ℝ => x / d) (1 / d) x := (hasDerivAt_id x).div_const d
  refine HasDerivAt.congr_deriv (h1.arsinh) ?_
  have e : Real.sqrt (x ^ 2 + d ^ 2) = Real.sqrt (1 + (x / d) ^ 2) * d := by
    rw [show x ^ 2 + d ^ 2 = (1 + (x / d) ^ 2) * d ^ 2 by field_simp; ring, Real.sqrt_mul (by positivity), Real.sqrt_sq hd.le]
  rw [e]
  have : 0 < Real.sqrt (1 + (x / d) ^ 2) := Real.sqrt_pos.2 (by positivity)
  simp only [smul_eq_mul]
  field_simp

/-- `∫ dx / √(x² + d²)`. -/
theorem integral_inv_sqrt {d : ℝ} (hd : 0 < d) (s e : ℝ) :
    ∫ x in s..e, 1 / Real.sqrt (x ^ 2 + d ^ 2) = Real.arsinh (e / d) - Real.arsinh (s / d) := by
  have hpos : ∀ x : ℝ, Real.sqrt (x ^ 2 + d ^ 2) ≠ 0 := fun x => (Real.sqrt_pos.2 (by positivity)).ne'
  refine intervalIntegral.integral_eq_sub_of_hasDerivAt (fun x _ => hasDerivAt_arsinh_div hd x) ?_
  apply Continuous.intervalIntegrable
  exact continuous_const.div (by fun_prop) hpos

/-- `∫ -x dx / (x² + r²)^(3/2)`. -/
theorem integral_x_cube {r2 : ℝ} (hr : 0 < r2) (s e : ℝ) :
    ∫ x in s..e, -x / Real.sqrt (x ^ 2 + r2) ^ 3 = 1 / Real.sqrt (r2 + e * e) - 1 / Real.sqrt (r2 + s * s) := by
  have hpos : ∀ x : ℝ, 0 < Real.sqrt (x ^ 2 + r2) := fun x => Real.sqrt_pos.2 (by positivity)
  have hd : ∀ x ∈ Set.uIcc s e, HasDerivAt (fun x => 1 / Real.sqrt (r2 + x * x)) (-x / Real.sqrt (x ^ 2 + r2) ^ 3) x := by
    intro x _
    have e1 : r2 + x * x = x ^ 2 + r2 := by ring
    have h1 : HasDerivAt (fun x : ℝ => r2 + x * x) (2 * x) x := by
      refine HasDerivAt.congr_deriv (((hasDerivAt_id x).mul (hasDerivAt_id x)).const_add r2) ?_
      simp; ring
    have h2 := (h1.sqrt (by rw [e1]; positivity)).inv (by rw [e1]; exact (hpos x).ne')
    refine HasDerivAt.congr_deriv (h2.congr_of_eventuallyEq (Filter.Eventually.of_forall fun y => by simp)) ?_
    rw [e1]
    have := (hpos x).ne'
    field_simp
  refine intervalIntegral.integral_eq_sub_of_hasDerivAt hd ?_
  apply Continuous.intervalIntegrable
  exact Continuous.div (by fun_prop) (by fun_prop) (fun x => pow_ne_zero _ (hpos x).ne')

/-- `∫ dx / (x² + r²)^(3/2)`. -/
theorem integral_one_cube {r2 : ℝ} (hr : 0 < r2) (s e : ℝ) :
    ∫ x in s..e, 1 / Real.sqrt (x ^ 2 + r2) ^ 3 =
      e / (r2 * Real.sqrt (r2 + e * e)) - s / (r2 * Real.sqrt (r2 + s * s)) := by
  have hpos : ∀ x : ℝ, 0 < Real.sqrt (x ^ 2 + r2) := fun x => Real.sqrt_pos.2 (by positivity)
  have hd : ∀ x ∈ Set.uIcc s e, HasDerivAt (fun x => x / (r2 * Real.sqrt (r2 + x * x))) (1 / Real.sqrt (x ^ 2 + r2) ^ 3) x := by
    intro x _
    have e1 : r2 + x * x = x ^ 2 + r2 := by ring
    have h1 : HasDerivAt (fun x : ℝ => r2 + x * x) (2 * x) x := by
      refine HasDerivAt.congr_deriv (((hasDerivAt_id x).mul (hasDerivAt_id x)).const_add r2) ?_
      simp; ring
    have h2 := (hasDerivAt_id x).div ((h1.sqrt (by rw [e1]; positivity)).const_mul r2)
      (by rw [e1]; exact mul_ne_zero hr.ne' (hpos x).ne')
    refine HasDerivAt.congr_deriv h2 ?_
    rw [e1]
    have hne := (hpos x).ne'
    have hsq : Real.sqrt (x ^ 2 + r2) ^ 2 = x ^ 2 + r2 := Real.sq_sqrt (by positivity)
    generalize Real.sqrt (x ^ 2 + r2) = q at *
    simp only [id]
    field_simp
    rw [hsq]
    ring
  refine intervalIntegral.integral_eq_sub_of_hasDerivAt hd ?_
  apply Continuous.intervalIntegrable
  exact Continuous.div (by fun_prop) (by fun_prop) (fun x => pow_ne_zero _ (hpos x).ne')

section
variable {v0 v1 v2 : V3} (h : cross (v1 - v0) (v2 - v0) ≠ 0) (p n : V3)
include h

theorem tri_xmin (v : ℝ) : (normalizeTri v0 v1 v2 p n).xmin ((normalizeTri v0 v1 v2 p n).c * v) =
    (normalizeTri v0 v1 v2 p n).x0 + v * (normalizeTri v0 v1 v2 p n).b := by
  have := (tri_c_pos h p n).ne'
  unfold NormTri.xmin; field_simp

theorem tri_xmax (v : ℝ) : (normalizeTri v0 v1 v2 p n).xmax ((normalizeTri v0 v1 v2 p n).c * v) =
    (normalizeTri v0 v1 v2 p n).x0 + v * (normalizeTri v0 v1 v2 p n).b + (1 - v) * (normalizeTri v0 v1 v2 p n).a := by
  have := (tri_c_pos h p n).ne'
  unfold NormTri.xmax; field_simp; ring

/-- Substitution in the inner integral. -/
theorem inner_subst (G : ℝ → ℝ) (v : ℝ) :
    ∫ u in (0 : ℝ)..(1 - v), norm (cross (v1 - v0) (v2 - v0)) *
        G ((normalizeTri v0 v1 v2 p n).x0 + v * (normalizeTri v0 v1 v2 p n).b + u * (normalizeTri v0 v1 v2 p n).a) =
      (normalizeTri v0 v1 v2 p n).c *
        ∫ x in (normalizeTri v0 v1 v2 p n).xmin ((normalizeTri v0 v1 v2 p n).c * v)..(normalizeTri v0 v1 v2 p n).xmax ((normalizeTri v0 v1 v2 p n).c * v), G x := by
  rw [tri_xmin h, tri_xmax h, ← tri_area h p n, intervalIntegral.integral_const_mul]
  have ha := (tri_a_pos h p n).ne'
  have := intervalIntegral.mul_integral_comp_add_mul (f := G) (normalizeTri v0 v1 v2 p n).a
    ((normalizeTri v0 v1 v2 p n).x0 + v * (normalizeTri v0 v1 v2 p n).b) (a := 0) (b := 1 - v)
  rw [mul_zero, add_zero, mul_comm (normalizeTri v0 v1 v2 p n).a (1 - v)] at this
  rw [← this]
  simp only [mul_comm (normalizeTri v0 v1 v2 p n).a]
  ring

/-- The distance to a line parallel to the first side. -/
theorem line_dist {d : ℝ} (hd : 0 ≤ d) (haway : AwayFromLines v0 v1 v2 p d) {v : ℝ} (hv0 : 0 ≤ v) (hv1 : v ≤ 1) :
    d ≤ Real.sqrt (((normalizeTri v0 v1 v2 p n).c * v + (normalizeTri v0 v1 v2 p n).y0) *
      ((normalizeTri v0 v1 v2 p n).c * v + (normalizeTri v0 v1 v2 p n).y0) +
      (normalizeTri v0 v1 v2 p n).z * (normalizeTri v0 v1 v2 p n).z) := by
  have ha := (tri_a_pos h p n).ne'
  have := haway v hv0 hv1 (-((normalizeTri v0 v1 v2 p n).x0 + v * (normalizeTri v0 v1 v2 p n).b) / (normalizeTri v0 v1 v2 p n).a)
  rw [C55_isometric h p n, div_mul_cancel₀ _ ha] at this
  refine this.trans (le_of_eq ?_)
  congr 1
  ring

/-- The integrand of the potential is the exact inner integral. -/
theorem C55_potential_integrand (haway : AwayFromLines v0 v1 v2 p 1e-12) {v : ℝ} (hv0 : 0 ≤ v) (hv1 : v ≤ 1) :
    (∫ u in (0 : ℝ)..(1 - v), norm (cross (v1 - v0) (v2 - v0)) * (1 / norm (p - triPoint v0 v1 v2 u v))) =
      (normalizeTri v0 v1 v2 p n).c * (normalizeTri v0 v1 v2 p n).potentialIntegrand ((normalizeTri v0 v1 v2 p n).c * v) := by
  have hd := line_dist h p n (by norm_num) haway hv0 hv1
  simp only [NormTri.potentialIntegrand]
  set t := normalizeTri v0 v1 v2 p n with ht
  set d := Real.sqrt ((t.c * v + t.y0) * (t.c * v + t.y0) + t.z * t.z) with hdd
  have hd0 : 0 < d := lt_of_lt_of_le (by norm_num) hd
  have hd2 : d ^ 2 = (t.c * v + t.y0) * (t.c * v + t.y0) + t.z * t.z :=
    Real.sq_sqrt (by nlinarith [mul_self_nonneg (t.c * v + t.y0), mul_self_nonneg t.z])
  rw [if_neg (not_lt.2 hd), ← integral_inv_sqrt hd0, ht, ← inner_subst h p n, ← ht]
  refine intervalIntegral.integral_congr fun u _ => ?_
  beta_reduce
  rw [C55_isometric h p n, ← ht, hd2, show (t.x0 + v * t.b + u * t.a) ^ 2 + (t.y0 + v * t.c) ^ 2 + t.z ^ 2 =
    (t.x0 + v * t.b + u * t.a) ^ 2 + ((t.c * v + t.y0) * (t.c * v + t.y0) + t.z * t.z) by ring]

/-- **C55.** The integral of the integrand over the height of the triangle is the potential of the triangle. -/
theorem C55_potential_partial (haway : AwayFromLines v0 v1 v2 p 1e-12) :
    ∫ y in (0 : ℝ)..(normalizeTri v0 v1 v2 p n).c, (normalizeTri v0 v1 v2 p n).potentialIntegrand y =
      triPotential v0 v1 v2 p := by
  have hc := tri_c_pos h p n
  unfold triPotential triIntegral
  have : ∀ v ∈ Set.uIcc (0 : ℝ) 1, (∫ u in (0 : ℝ)..(1 - v), norm (cross (v1 - v0) (v2 - v0)) * (1 / norm (p - triPoint v0 v1 v2 u v))) =
      (normalizeTri v0 v1 v2 p n).c * (normalizeTri v0 v1 v2 p n).potentialIntegrand ((normalizeTri v0 v1 v2 p n).c * v) := by
    intro v hv
    rw [Set.uIcc_of_le zero_le_one] at hv
    exact C55_potential_integrand h p n haway hv.1 hv.2
  rw [intervalIntegral.integral_congr this, intervalIntegral.integral_const_mul,
    intervalIntegral.mul_integral_comp_mul_left]
  simp

/-- The integrand of the flux is the exact inner integral. -/
theorem C55_flux_integrand (haway : AwayFromLines v0 v1 v2 p (Real.sqrt 1e-9)) {v : ℝ} (hv0 : 0 ≤ v) (hv1 : v ≤ 1) :
    (∫ u in (0 : ℝ)..(1 - v), norm (cross (v1 - v0) (v2 - v0)) *
        (dot n (p - triPoint v0 v1 v2 u v) / norm (p - triPoint v0 v1 v2 u v) ^ 3)) =
      (normalizeTri v0 v1 v2 p n).c * (normalizeTri v0 v1 v2 p n).fluxIntegrand ((normalizeTri v0 v1 v2 p n).c * v) := by
  have hd := line_dist h p n (Real.sqrt_nonneg _) haway hv0 hv1
  have hn1 : (normalizeTri v0 v1 v2 p n).normal.x = dot n (triFrame v0 v1 v2).ex := dot_comm' _ _
  have hn2 : (normalizeTri v0 v1 v2 p n).normal.y = dot n (triFrame v0 v1 v2).ey := dot_comm' _ _
  have hn3 : (normalizeTri v0 v1 v2 p n).normal.z = dot n (triFrame v0 v1 v2).ez := dot_comm' _ _
  simp only [NormTri.fluxIntegrand, NormTri.fluxVector]
  set t := normalizeTri v0 v1 v2 p n with ht
  set r2 := t.z * t.z + (t.c * v + t.y0) * (t.c * v + t.y0) with hr2
  have hr2' : 1e-9 ≤ r2 := by
    have h1 := (Real.sqrt_le_sqrt_iff (by nlinarith [mul_self_nonneg (t.c * v + t.y0), mul_self_nonneg t.z])).1 hd
    rw [hr2]; linarith
  have hr0 : 0 < r2 := lt_of_lt_of_le (by norm_num) hr2'
  rw [if_neg (by rw [abs_of_pos hr0]; exact not_lt.2 hr2')]
  have point : ∀ u : ℝ, dot n (p - triPoint v0 v1 v2 u v) / norm (p - triPoint v0 v1 v2 u v) ^ 3 =
      (fun x => t.normal.x * (-x / Real.sqrt (x ^ 2 + r2) ^ 3) +
        (-(t.c * v + t.y0) * t.normal.y + t.z * t.normal.z) * (1 / Real.sqrt (x ^ 2 + r2) ^ 3))
        (t.x0 + v * t.b + u * t.a) := by
    intro u
    obtain ⟨c1, c2, c3⟩ := tri_components h p n u v
    rw [← ht] at c1 c2 c3
    have e1 : dot n (p - triPoint v0 v1 v2 u v) = -(dot n (triPoint v0 v1 v2 u v - p)) := by
      simp only [dot, sub_x, sub_y, sub_z]; ring
    rw [e1, frame_expand h, c1, c2, c3, ← hn1, ← hn2, ← hn3, C55_isometric h p n, ← ht]
    beta_reduce
    rw [show (t.x0 + v * t.b + u * t.a) ^ 2 + (t.y0 + v * t.c) ^ 2 + t.z ^ 2 = (t.x0 + v * t.b + u * t.a) ^ 2 + r2 by
      rw [hr2]; ring]
    ring
  have e2 : (∫ u in (0 : ℝ)..(1 - v), norm (cross (v1 - v0) (v2 - v0)) *
        (dot n (p - triPoint v0 v1 v2 u v) / norm (p - triPoint v0 v1 v2 u v) ^ 3)) =
      ∫ u in (0 : ℝ)..(1 - v), norm (cross (v1 - v0) (v2 - v0)) *
        (fun x => t.normal.x * (-x / Real.sqrt (x ^ 2 + r2) ^ 3) +
        (-(t.c * v + t.y0) * t.normal.y + t.z * t.normal.z) * (1 / Real.sqrt (x ^ 2 + r2) ^ 3))
        (t.x0 + v * t.b + u * t.a) := by
    refine intervalIntegral.integral_congr fun u _ => ?_
    beta_reduce
    rw [point u]
  have hpos : ∀ x : ℝ, Real.sqrt (x ^ 2 + r2) ^ 3 ≠ 0 := fun x => pow_ne_zero _ (Real.sqrt_pos.2 (by positivity)).ne'
  have k1 : Continuous fun x : ℝ => -x / Real.sqrt (x ^ 2 + r2) ^ 3 := Continuous.div (by fun_prop) (by fun_prop) hpos
  have k2 : Continuous fun x : ℝ => 1 / Real.sqrt (x ^ 2 + r2) ^ 3 := Continuous.div (by fun_prop) (by fun_prop) hpos
  have e3 := inner_subst h p n (fun x => t.normal.x * (-x / Real.sqrt (x ^ 2 + r2) ^ 3) +
        (-(t.c * v + t.y0) * t.normal.y + t.z * t.normal.z) * (1 / Real.sqrt (x ^ 2 + r2) ^ 3)) v
  rw [← ht] at e3
  refine (e2.trans e3).trans ?_
  congr 1
  have k1' : Continuous fun x : ℝ => t.normal.x * (-x / Real.sqrt (x ^ 2 + r2) ^ 3) := continuous_const.mul k1
  have k2' : Continuous fun x : ℝ => (-(t.c * v + t.y0) * t.normal.y + t.z * t.normal.z) * (1 / Real.sqrt (x ^ 2 + r2) ^ 3) :=
    continuous_const.mul k2
  rw [intervalIntegral.integral_add (k1'.intervalIntegrable _ _) (k2'.intervalIntegrable _ _),
    intervalIntegral.integral_const_mul, intervalIntegral.integral_const_mul, integral_x_cube hr0, integral_one_cube hr0]
  simp only [dot]
  ring

/-- **C55.** The integral of the integrand over the height of the triangle is the field of the triangle along `n`. -/
theorem C55_flux_partial (haway : AwayFromLines v0 v1 v2 p (Real.sqrt 1e-9)) :
    ∫ y in (0 : ℝ)..(normalizeTri v0 v1 v2 p n).c, (normalizeTri v0 v1 v2 p n).fluxIntegrand y =
      triFieldAlong v0 v1 v2 p n := by
  unfold triFieldAlong triIntegral
  have : ∀ v ∈ Set.uIcc (0 : ℝ) 1, (∫ u in (0 : ℝ)..(1 - v), norm (cross (v1 - v0) (v2 - v0)) *
        (dot n (p - triPoint v0 v1 v2 u v) / norm (p - triPoint v0 v1 v2 u v) ^ 3)) =
      (normalizeTri v0 v1 v2 p n).c * (normalizeTri v0 v1 v2 p n).fluxIntegrand ((normalizeTri v0 v1 v2 p n).c * v) := by
    intro v hv
    rw [Set.uIcc_of_le zero_le_one] at hv
    exact C55_flux_integrand h p n haway hv.1 hv.2
  rw [intervalIntegral.integral_congr this, intervalIntegral.integral_const_mul,
    intervalIntegral.mul_integral_comp_mul_left]
  simp

end

end Traceon
