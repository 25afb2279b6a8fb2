import Verif.Spec.Accuracy
import Verif.Lemmas.FarTriangle
import Verif.Lemmas.LegendreAll
import Verif.Props.Triangle2
import Verif.Props.Kronrod3

/-!
# C55: the accuracy of the potential of a triangle
-/
namespace Traceon
open V3 Spec MeasureTheory

/-! ## The inner integral of a polynomial is a polynomial -/

theorem PolyBound.inner {f : ℝ → ℝ → ℝ} {m : ℕ} {B : ℝ} (h : PolyBound f m B) :
    ∀ k : ℕ, ∃ P : Polynomial ℝ, P.natDegree ≤ m + k + 1 ∧ ∀ v, ∫ u in (0 : ℝ)..(1 - v), u ^ k * f u v = P.eval v := by
  induction h with
  | const a =>
    intro k
    refine ⟨Polynomial.C (a / (k + 1)) * (Polynomial.C 1 + Polynomial.C (-1) * Polynomial.X) ^ (k + 1), ?_, fun v => ?_⟩
    · refine (Polynomial.natDegree_C_mul_le _ _).trans ((Polynomial.natDegree_pow_le).trans ?_)
      have : (Polynomial.C (1 : ℝ) + Polynomial.C (-1) * Polynomial.X).natDegree ≤ 1 := by
        rw [add_comm]; exact Polynomial.natDegree_linear_le
      calc _ ≤ (k + 1) * 1 := Nat.mul_le_mul_left _ this
        _ ≤ _ := by omega
    · rw [intervalIntegral.integral_mul_const, integral_pow]
      simp only [Polynomial.eval_mul, Polynomial.eval_C, Polynomial.eval_pow, Polynomial.eval_add, Polynomial.eval_X]
      rw [zero_pow (Nat.succ_ne_zero k)]
      have : (k : ℝ) + 1 ≠ 0 := by positivity
      field_simp
      ring
  | @lin f m B α β γ h ih =>
    intro k
    obtain ⟨P, hP, eP⟩ := ih k
    obtain ⟨Q, hQ, eQ⟩ := ih (k + 1)
    have hc := h.continuous
    refine ⟨(Polynomial.C α + Polynomial.C γ * Polynomial.X) * P + Polynomial.C β * Q, ?_, fun v => ?_⟩
    · refine Polynomial.natDegree_add_le_of_degree_le ?_ ?_
      · refine Polynomial.natDegree_mul_le.trans ?_
        have : (Polynomial.C α + Polynomial.C γ * Polynomial.X).natDegree ≤ 1 := by
          rw [add_comm]; exact Polynomial.natDegree_linear_le
        omega
      · exact (Polynomial.natDegree_C_mul_le _ _).trans (by omega)
    · have i1 : IntervalIntegrable (fun u => (α + γ * v) * (u ^ k * f u v)) volume 0 (1 - v) :=
        (continuous_const.mul ((continuous_pow k).mul (cont_slice hc v))).intervalIntegrable _ _
      have i2 : IntervalIntegrable (fun u => β * (u ^ (k + 1) * f u v)) volume 0 (1 - v) :=
        (continuous_const.mul ((continuous_pow (k + 1)).mul (cont_slice hc v))).intervalIntegrable _ _
      have := intervalIntegral.integral_add i1 i2
      rw [intervalIntegral.integral_const_mul, intervalIntegral.integral_const_mul, eP, eQ] at this
      simp only [Polynomial.eval_mul, Polynomial.eval_C, Polynomial.eval_add, Polynomial.eval_X]
      rw [← this]
      refine intervalIntegral.integral_congr fun u _ => ?_
      ring
  | @add f g m B C h h' ih ih' =>
    intro k
    obtain ⟨P, hP, eP⟩ := ih k
    obtain ⟨Q, hQ, eQ⟩ := ih' k
    refine ⟨P + Q, Polynomial.natDegree_add_le_of_degree_le hP hQ, fun v => ?_⟩
    have i1 : IntervalIntegrable (fun u => u ^ k * f u v) volume 0 (1 - v) := ((continuous_pow k).mul (cont_slice h.continuous v)).intervalIntegrable _ _
    have i2 : IntervalIntegrable (fun u => u ^ k * g u v) volume 0 (1 - v) := ((continuous_pow k).mul (cont_slice h'.continuous v)).intervalIntegrable _ _
    have := intervalIntegral.integral_add i1 i2
    rw [eP, eQ] at this
    rw [Polynomial.eval_add, ← this]
    refine intervalIntegral.integral_congr fun u _ => ?_
    simp only
    ring
  | mono h hm hB ih =>
    intro k
    obtain ⟨P, hP, eP⟩ := ih k
    exact ⟨P, by omega, eP⟩

/-! ## The expansion in Legendre polynomials is a polynomial in the position -/

/-- `tⁿ Pₙ(k)` as a function of `a = k t` and `b = t²`. -/
noncomputable def legHom (a b : ℝ) : ℕ → ℝ
  | 0 => 1
  | 1 => a
  | n + 2 => 1 / (n + 2) * ((2 * n + 3) * (a * legHom a b (n + 1)) + -(n + 1) * (b * legHom a b n))

theorem legHom_eq (k t : ℝ) : ∀ n, legHom (k * t) (t ^ 2) n = leg n k * t ^ n
  | 0 => by simp [legHom, leg]
  | 1 => by simp [legHom, leg]
  | n + 2 => by
    have h := leg_rec n k
    have h2 : (n : ℝ) + 2 ≠ 0 := by positivity
    rw [legHom, legHom_eq k t (n + 1), legHom_eq k t n, one_div, inv_mul_eq_iff_eq_mul₀ h2]
    linear_combination (-(t ^ (n + 2))) * h

theorem legHom_poly {a b : ℝ → ℝ → ℝ} {A B : ℝ} (ha : PolyBound a 1 A) (hb : PolyBound b 2 B) :
    ∀ n, ∃ C, PolyBound (fun u v => legHom (a u v) (b u v) n) n C
  | 0 => ⟨_, PolyBound.const 1⟩
  | 1 => ⟨_, ha⟩
  | n + 2 => by
    obtain ⟨C1, h1⟩ := legHom_poly ha hb (n + 1)
    obtain ⟨C0, h0⟩ := legHom_poly ha hb n
    have k1 := ((ha.mul h1).smul (2 * n + 3)).mono (show 1 + (n + 1) ≤ n + 2 by omega) le_rfl
    have k0 := ((hb.mul h0).smul (-(n + 1))).mono (show 2 + n ≤ n + 2 by omega) le_rfl
    exact ⟨_, ((k1.add k0).smul (1 / (n + 2))).congr fun u v => by rw [legHom]⟩

theorem legHom_sum_poly {a b : ℝ → ℝ → ℝ} {A B : ℝ} (ha : PolyBound a 1 A) (hb : PolyBound b 2 B) :
    ∀ N, ∃ C, PolyBound (fun u v => ∑ n ∈ Finset.range (N + 1), legHom (a u v) (b u v) n) N C
  | 0 => ⟨_, (PolyBound.const 1).congr fun u v => by simp [legHom]⟩
  | N + 1 => by
    obtain ⟨C, h⟩ := legHom_sum_poly ha hb N
    obtain ⟨D, h'⟩ := legHom_poly ha hb (N + 1)
    exact ⟨_, ((h.mono (Nat.le_succ N) le_rfl).add h').congr fun u v => by rw [Finset.sum_range_succ _ (N + 1)]⟩

section
variable {v0 v1 v2 c p : V3} {ρ : ℝ}

theorem relA_poly (v0 v1 v2 c p : V3) : ∃ A, PolyBound (relA v0 v1 v2 c p) 1 A := by
  refine ⟨_, (PolyBound.linear (V3.dot (p - c) (v0 - c) / V3.norm (p - c) ^ 2) (V3.dot (p - c) (v1 - v0) / V3.norm (p - c) ^ 2)
    (V3.dot (p - c) (v2 - v0) / V3.norm (p - c) ^ 2)).congr fun u v => ?_⟩
  unfold relA
  simp only [triPoint, dot, sub_x, sub_y, sub_z, add_x, add_y, add_z, smul_x, smul_y, smul_z]
  ring

theorem relB_poly (v0 v1 v2 c p : V3) : ∃ B, PolyBound (relB v0 v1 v2 c p) 2 B := by
  have P : ∀ α β γ : ℝ, PolyBound (fun u v => (α + β * u + γ * v) ^ 2) 2 _ := fun α β γ => (PolyBound.linear α β γ).pow 2
  have hx := P (v0 - c).x (v1 - v0).x (v2 - v0).x
  have hy := P (v0 - c).y (v1 - v0).y (v2 - v0).y
  have hz := P (v0 - c).z (v1 - v0).z (v2 - v0).z
  refine ⟨_, (((hx.add hy).add hz).smul (1 / V3.norm (p - c) ^ 2)).congr fun u v => ?_⟩
  unfold relB
  simp only [triPoint, dot, sub_x, sub_y, sub_z, add_x, add_y, add_z, smul_x, smul_y, smul_z]
  ring
theorem Spec.Closer.nonneg (h : Spec.Closer v0 v1 v2 p c ρ) : 0 ≤ ρ := by
  have h0 : 0 ≤ V3.norm (v0 - c) := Real.sqrt_nonneg _
  have := h.h0
  by_contra hh
  have := mul_neg_of_neg_of_pos (not_le.1 hh) h.pos
  linarith

theorem Spec.Closer.inside (h : Spec.Closer v0 v1 v2 p c ρ) {u v : ℝ} (hu : 0 ≤ u) (hv : 0 ≤ v) (huv : u + v ≤ 1) :
    V3.dot (triPoint v0 v1 v2 u v - c) (triPoint v0 v1 v2 u v - c) ≤ (ρ * V3.norm (p - c)) ^ 2 := by
  have q0 := V3.dot_self_le h.h0
  have q1 := V3.dot_self_le h.h1
  have q2 := V3.dot_self_le h.h2
  set d := (ρ * V3.norm (p - c)) ^ 2
  have key : ∀ x0 x1 x2 : ℝ, (x0 + u * (x1 - x0) + v * (x2 - x0)) ^ 2 ≤ (1 - u - v) * x0 ^ 2 + u * x1 ^ 2 + v * x2 ^ 2 := by
    intro x0 x1 x2
    nlinarith [mul_nonneg (mul_nonneg hu (by linarith : 0 ≤ 1 - u - v)) (sq_nonneg (x1 - x0)), mul_nonneg (mul_nonneg hv (by linarith : 0 ≤ 1 - u - v)) (sq_nonneg (x2 - x0)),
      mul_nonneg (mul_nonneg hu hv) (sq_nonneg (x1 - x2))]
  have kx := key (v0 - c).x (v1 - c).x (v2 - c).x
  have ky := key (v0 - c).y (v1 - c).y (v2 - c).y
  have kz := key (v0 - c).z (v1 - c).z (v2 - c).z
  simp only [triPoint, dot, sub_x, sub_y, sub_z, add_x, add_y, add_z, smul_x, smul_y, smul_z] at *
  nlinarith [mul_le_mul_of_nonneg_left q0 (by linarith : 0 ≤ 1 - u - v), mul_le_mul_of_nonneg_left q1 hu, mul_le_mul_of_nonneg_left q2 hv]

theorem Spec.Closer.polar (h : Spec.Closer v0 v1 v2 p c ρ) {u v : ℝ} (hu : 0 ≤ u) (hv : 0 ≤ v) (huv : u + v ≤ 1) :
    ∃ k t, |k| ≤ 1 ∧ 0 ≤ t ∧ t ≤ ρ ∧ Traceon.relA v0 v1 v2 c p u v = k * t ∧ Traceon.relB v0 v1 v2 c p u v = t ^ 2 ∧
      V3.norm (triPoint v0 v1 v2 u v - c) = t * V3.norm (p - c) := by
  set r := V3.norm (p - c) with hr
  have hr0 : 0 < r := h.pos
  set y := triPoint v0 v1 v2 u v - c with hy
  have hin := V3.norm_le_of (mul_nonneg h.nonneg h.pos.le) (h.inside hu hv huv)
  rw [← hy] at hin
  have hy0 : 0 ≤ V3.norm y := Real.sqrt_nonneg _
  refine ⟨V3.dot (p - c) y / (r * V3.norm y), V3.norm y / r, ?_, by positivity, ?_, ?_, ?_, ?_⟩
  · rw [abs_div, abs_of_nonneg (mul_nonneg hr0.le hy0)]
    exact div_le_one_of_le₀ (V3.abs_dot_le _ _) (mul_nonneg hr0.le hy0)
  · rw [div_le_iff₀ hr0]; exact hin
  · unfold Traceon.relA
    rw [← hr, ← hy]
    rcases eq_or_lt_of_le hy0 with e | e
    · have : V3.dot (p - c) y = 0 := by
        have := V3.abs_dot_le (p - c) y
        rw [← e, mul_zero] at this
        exact abs_nonpos_iff.1 this
      rw [this, ← e]; simp
    · field_simp
  · unfold Traceon.relB
    rw [← hr, ← hy, ← V3.norm_sq, div_pow, sq (V3.norm y)]
  · field_simp

/-- The expansion of the inverse distance. -/
theorem Spec.Closer.expand (h : Spec.Closer v0 v1 v2 p c ρ) {u v : ℝ} (hu : 0 ≤ u) (hv : 0 ≤ v) (huv : u + v ≤ 1) :
    |1 / V3.norm (p - triPoint v0 v1 v2 u v) -
        1 / V3.norm (p - c) * ∑ n ∈ Finset.range 23, legHom (relA v0 v1 v2 c p u v) (relB v0 v1 v2 c p u v) n| ≤
      1 / V3.norm (p - c) * (ρ ^ 23 * (1 + ρ) / (1 - ρ) ^ 2) ∧
    |1 / V3.norm (p - c) * ∑ n ∈ Finset.range 23, legHom (relA v0 v1 v2 c p u v) (relB v0 v1 v2 c p u v) n| ≤ 1 / V3.norm (p - c) * (1 / (1 - ρ)) := by
  obtain ⟨k, t, hk, t0, tρ, ea, eb, -⟩ := h.polar hu hv huv
  have hr := h.pos
  have hlt := h.lt
  have hρ := h.nonneg
  have e : ∑ n ∈ Finset.range 23, legHom (relA v0 v1 v2 c p u v) (relB v0 v1 v2 c p u v) n = legPartial 23 k t := by
    rw [ea, eb]
    exact Finset.sum_congr rfl fun n _ => legHom_eq k t n
  rw [e]
  constructor
  · rw [dist_rel hr, ← one_div_mul_one_div, ← mul_sub, abs_mul, abs_of_pos (by positivity : 0 < 1 / V3.norm (p - c)), ea, eb]
    refine mul_le_mul_of_nonneg_left ?_ (by positivity)
    refine (legendre_bound_all 22 hk t0 (by linarith)).trans ?_
    have : 0 < 1 - ρ := by linarith
    norm_num
    gcongr
  · rw [abs_mul, abs_of_pos (by positivity : 0 < 1 / V3.norm (p - c))]
    refine mul_le_mul_of_nonneg_left ?_ (by positivity)
    unfold legPartial
    have hg : (∑ n ∈ Finset.range 23, ρ ^ n) * (1 - ρ) = 1 - ρ ^ 23 := by
      have := geom_sum_mul ρ 23
      linear_combination -this
    have h1 : 0 < 1 - ρ := by linarith
    calc _ ≤ ∑ n ∈ Finset.range 23, |leg n k * t ^ n| := Finset.abs_sum_le_sum_abs _ _
      _ ≤ ∑ n ∈ Finset.range 23, ρ ^ n := by
          refine Finset.sum_le_sum fun n _ => ?_
          rw [abs_mul, abs_of_nonneg (pow_nonneg t0 n)]
          calc _ ≤ 1 * t ^ n := mul_le_mul_of_nonneg_right (leg_abs_le hk n) (pow_nonneg t0 n)
            _ ≤ ρ ^ n := by rw [one_mul]; exact pow_le_pow_left₀ t0 tρ n
      _ ≤ 1 / (1 - ρ) := by
          rw [le_div_iff₀ h1, hg]
          have := pow_nonneg hρ 23
          linarith

theorem potentialIntegrand_continuousOn (h : cross (v1 - v0) (v2 - v0) ≠ 0) (n : V3) (haway : AwayFromLines v0 v1 v2 p 1e-12) :
    ContinuousOn (normalizeTri v0 v1 v2 p n).potentialIntegrand (Set.Icc 0 (normalizeTri v0 v1 v2 p n).c) := by
  set t := normalizeTri v0 v1 v2 p n with ht
  have hd : ∀ y ∈ Set.Icc 0 t.c, 1e-12 ≤ Real.sqrt ((y + t.y0) * (y + t.y0) + t.z * t.z) :=
    fun y hy => line_dist_y h p n (by norm_num) haway hy.1 hy.2
  have : ContinuousOn (fun y => Real.arsinh (t.xmax y / Real.sqrt ((y + t.y0) * (y + t.y0) + t.z * t.z)) -
      Real.arsinh (t.xmin y / Real.sqrt ((y + t.y0) * (y + t.y0) + t.z * t.z))) (Set.Icc 0 t.c) := by
    have k1 : Continuous t.xmax := by unfold NormTri.xmax; fun_prop
    have k2 : Continuous t.xmin := by unfold NormTri.xmin; fun_prop
    have k3 : Continuous fun y => Real.sqrt ((y + t.y0) * (y + t.y0) + t.z * t.z) := by fun_prop
    have k4 : ∀ y ∈ Set.Icc 0 t.c, Real.sqrt ((y + t.y0) * (y + t.y0) + t.z * t.z) ≠ 0 :=
      fun y hy => (lt_of_lt_of_le (by norm_num) (hd y hy)).ne'
    exact (Real.continuous_arsinh.comp_continuousOn (k1.continuousOn.div k3.continuousOn k4)).sub
      (Real.continuous_arsinh.comp_continuousOn (k2.continuousOn.div k3.continuousOn k4))
  refine this.congr fun y hy => ?_
  simp only [NormTri.potentialIntegrand]
  rw [if_neg (not_lt.2 (hd y hy))]

/-- **C55** (accuracy of the potential). For every triangle and every point outside some sphere around the triangle, not within 1e-12 of a line parallel to the first side, the value that
is returned is the potential of the charged triangle up to the given error. -/
theorem C55_accuracy (h : cross (v1 - v0) (v2 - v0) ≠ 0) (haway : AwayFromLines v0 v1 v2 p 1e-12) (hs : Spec.Closer v0 v1 v2 p c ρ) {r : ℝ}
    (hr : PotentialTriangleReturns v0 v1 v2 p r) :
    |r - triPotential v0 v1 v2 p| ≤
      V3.norm (cross (v1 - v0) (v2 - v0)) / V3.norm (p - c) * (2 * (ρ ^ 23 * (1 + ρ) / (1 - ρ) ^ 2) + 2.3e-14 / (1 - ρ)) := by
  have hc := tri_c_pos h p 0
  have hcont := potentialIntegrand_continuousOn h 0 haway
  have hpot := C55_potential_partial h p 0 haway
  have hint := fun {v : ℝ} => C55_potential_integrand h p 0 haway (v := v)
  unfold PotentialTriangleReturns at hr
  simp only at hr
  set t := normalizeTri v0 v1 v2 p 0 with ht
  set K := V3.norm (cross (v1 - v0) (v2 - v0)) with hK
  have hK0 : 0 ≤ K := Real.sqrt_nonneg _
  have hd0 := hs.pos
  set d := V3.norm (p - c) with hd
  -- the polynomial
  obtain ⟨A, hA⟩ := relA_poly v0 v1 v2 c p
  obtain ⟨B, hB⟩ := relB_poly v0 v1 v2 c p
  obtain ⟨C, hC⟩ := legHom_sum_poly hA hB 22
  have hS := (hC.smul (1 / d)).smul K
  obtain ⟨P, hP, eP⟩ := hS.inner 0
  simp only [pow_zero, one_mul] at eP
  set S : ℝ → ℝ → ℝ := fun u v => 1 / d * ∑ n ∈ Finset.range 23, legHom (relA v0 v1 v2 c p u v) (relB v0 v1 v2 c p u v) n with hSd
  have hSc : Continuous (Function.uncurry fun u v => K * S u v) := hS.continuous
  have hgc : ∀ v, 0 ≤ v → v ≤ 1 → ContinuousOn (fun u => 1 / V3.norm (p - triPoint v0 v1 v2 u v)) (Set.Icc 0 (1 - v)) := by
    intro v hv0 hv1
    refine ContinuousOn.div continuousOn_const ?_ fun u _ => ?_
    · refine Continuous.continuousOn ?_
      unfold V3.norm
      simp only [triPoint, dot, sub_x, sub_y, sub_z, add_x, add_y, add_z, smul_x, smul_y, smul_z]
      fun_prop
    · have := haway v hv0 hv1 u
      have h0 : (0 : ℝ) < 1e-12 := by norm_num
      exact (lt_of_lt_of_le h0 this).ne'
  have point : ∀ v, 0 ≤ v → v ≤ 1 → |t.c * t.potentialIntegrand (t.c * v) - P.eval v| ≤ K * (1 / d * (ρ ^ 23 * (1 + ρ) / (1 - ρ) ^ 2)) ∧
      |P.eval v| ≤ K * (1 / d * (1 / (1 - ρ))) := by
    intro v hv0 hv1
    have hv : (0 : ℝ) ≤ 1 - v := by linarith
    have hδ : 0 ≤ ρ ^ 23 * (1 + ρ) / (1 - ρ) ^ 2 := by have := hs.nonneg; positivity
    have hδ' : 0 ≤ 1 / (1 - ρ) := by have := hs.lt; have : 0 < 1 - ρ := by linarith
                                     positivity
    constructor
    · rw [← hint hv0 hv1, ← eP v]
      have i1 : IntervalIntegrable (fun u => K * (1 / V3.norm (p - triPoint v0 v1 v2 u v))) volume 0 (1 - v) := by
        refine ContinuousOn.intervalIntegrable ?_
        rw [Set.uIcc_of_le hv]
        exact continuousOn_const.mul (hgc v hv0 hv1)
      have i2 : IntervalIntegrable (fun u => K * S u v) volume 0 (1 - v) := (cont_slice hSc v).intervalIntegrable _ _
      rw [← intervalIntegral.integral_sub i1 i2]
      have := intervalIntegral.norm_integral_le_of_norm_le_const (a := 0) (b := 1 - v)
        (f := fun u => K * (1 / V3.norm (p - triPoint v0 v1 v2 u v)) - K * S u v) (C := K * (1 / d * (ρ ^ 23 * (1 + ρ) / (1 - ρ) ^ 2))) fun u hu => by
          rw [Set.uIoc_of_le hv] at hu
          rw [Real.norm_eq_abs, ← mul_sub, abs_mul, abs_of_nonneg hK0]
          exact mul_le_mul_of_nonneg_left (hs.expand hu.1.le hv0 (by linarith [hu.2])).1 hK0
      rw [Real.norm_eq_abs, sub_zero, abs_of_nonneg hv] at this
      refine this.trans ?_
      have h1 : 0 ≤ K * (1 / d * (ρ ^ 23 * (1 + ρ) / (1 - ρ) ^ 2)) := by positivity
      nlinarith
    · rw [← eP v]
      have := intervalIntegral.norm_integral_le_of_norm_le_const (a := 0) (b := 1 - v)
        (f := fun u => K * S u v) (C := K * (1 / d * (1 / (1 - ρ)))) fun u hu => by
          rw [Set.uIoc_of_le hv] at hu
          rw [Real.norm_eq_abs, abs_mul, abs_of_nonneg hK0]
          exact mul_le_mul_of_nonneg_left (hs.expand hu.1.le hv0 (by linarith [hu.2])).2 hK0
      rw [Real.norm_eq_abs, sub_zero, abs_of_nonneg hv] at this
      refine this.trans ?_
      have h1 : 0 ≤ K * (1 / d * (1 / (1 - ρ))) := by positivity
      nlinarith
  -- on the interval `[0, c]`
  set Q : Polynomial ℝ := Polynomial.C (1 / t.c) * P.comp (Polynomial.C (1 / t.c) * Polynomial.X) with hQ
  have eQ : ∀ y, Q.eval y = 1 / t.c * P.eval (1 / t.c * y) := fun y => by
    rw [hQ, Polynomial.eval_mul, Polynomial.eval_C, Polynomial.eval_comp, Polynomial.eval_mul, Polynomial.eval_C, Polynomial.eval_X]
  have hdeg : Q.natDegree ≤ 23 := by
    refine (Polynomial.natDegree_C_mul_le _ _).trans (Polynomial.natDegree_comp_le.trans ?_)
    have h1 : (Polynomial.C (1 / t.c) * Polynomial.X : Polynomial ℝ).natDegree ≤ 1 := by simpa using Polynomial.natDegree_C_mul_X_pow_le (1 / t.c) 1
    calc _ ≤ 23 * 1 := Nat.mul_le_mul hP h1
      _ = 23 := rfl
  have hy : ∀ y ∈ Set.Icc 0 t.c, 0 ≤ 1 / t.c * y ∧ 1 / t.c * y ≤ 1 := by
    rintro y ⟨y0, y1⟩
    refine ⟨by positivity, ?_⟩
    rw [one_div, inv_mul_le_iff₀ hc]; linarith
  have key := C56_accuracy (f := t.potentialIntegrand) hc.le (by
      refine ContinuousOn.intervalIntegrable ?_
      rwa [Set.uIcc_of_le hc.le]) Q hdeg (ε := 1 / t.c * (K * (1 / d * (ρ ^ 23 * (1 + ρ) / (1 - ρ) ^ 2)))) (B := 1 / t.c * (K * (1 / d * (1 / (1 - ρ)))))
    (by
      intro y hyy
      obtain ⟨h0, h1⟩ := hy y hyy
      have := (point _ h0 h1).1
      rw [eQ, show t.potentialIntegrand y = 1 / t.c * (t.c * t.potentialIntegrand y) by field_simp, ← mul_sub, abs_mul, abs_of_pos (by positivity : 0 < 1 / t.c)]
      refine mul_le_mul_of_nonneg_left ?_ (by positivity)
      rwa [show t.c * (1 / t.c * y) = y by field_simp] at this)
    (by
      intro y hyy
      obtain ⟨h0, h1⟩ := hy y hyy
      rw [eQ, abs_mul, abs_of_pos (by positivity : 0 < 1 / t.c)]
      exact mul_le_mul_of_nonneg_left (point _ h0 h1).2 (by positivity)) hr
  rw [hpot] at key
  refine key.trans (le_of_eq ?_)
  have : t.c ≠ 0 := hc.ne'
  rw [sub_zero]
  generalize ρ ^ 23 * (1 + ρ) / (1 - ρ) ^ 2 = δ
  have h1 : (2.3e-14 : ℝ) / (1 - ρ) = 2.3e-14 * (1 / (1 - ρ)) := by ring
  rw [h1]
  generalize 1 / (1 - ρ) = τ
  field_simp
end

/-- A case meeting the hypotheses: a point at a distance of three sides above a corner of a triangle. -/
theorem C55_accuracy_example : ∃ r, PotentialTriangleReturns ⟨0, 0, 0⟩ ⟨1, 0, 0⟩ ⟨0, 1, 0⟩ ⟨0, 0, 3⟩ r ∧
    |r - triPotential ⟨0, 0, 0⟩ ⟨1, 0, 0⟩ ⟨0, 1, 0⟩ ⟨0, 0, 3⟩| ≤ 1e-13 := by
  have h : cross ((⟨1, 0, 0⟩ : V3) - ⟨0, 0, 0⟩) ((⟨0, 1, 0⟩ : V3) - ⟨0, 0, 0⟩) ≠ 0 := by
    intro h0
    have := congrArg V3.z h0
    simp [cross] at this
  have haway : AwayFromLines ⟨0, 0, 0⟩ ⟨1, 0, 0⟩ ⟨0, 1, 0⟩ ⟨0, 0, 3⟩ 1e-12 := by
    intro v _ _ t
    have : (1 : ℝ) ≤ V3.norm ((⟨0, 0, 3⟩ : V3) - triPoint ⟨0, 0, 0⟩ ⟨1, 0, 0⟩ ⟨0, 1, 0⟩ t v) := by
      unfold V3.norm
      rw [Real.one_le_sqrt]
      simp only [dot, triPoint, sub_x, sub_y, sub_z, add_x, add_y, add_z, smul_x, smul_y, smul_z]
      nlinarith [mul_self_nonneg t, mul_self_nonneg v]
    exact le_trans (by norm_num) this
  have hd : (3 : ℝ) ≤ V3.norm ((⟨0, 0, 3⟩ : V3) - ⟨1 / 2, 1 / 2, 0⟩) := by
    unfold V3.norm
    refine Real.le_sqrt_of_sq_le ?_
    simp only [dot, sub_x, sub_y, sub_z]; norm_num
  have hv : ∀ a b : ℝ, a ^ 2 = 1 / 4 → b ^ 2 = 1 / 4 → ∀ w : V3, w - ⟨1 / 2, 1 / 2, 0⟩ = ⟨a, b, 0⟩ →
      V3.norm (w - ⟨1 / 2, 1 / 2, 0⟩) ≤ 1 / 4 * V3.norm ((⟨0, 0, 3⟩ : V3) - ⟨1 / 2, 1 / 2, 0⟩) := by
    intro a b ha hb w hw
    rw [hw]
    have : V3.norm (⟨a, b, 0⟩ : V3) ≤ 3 / 4 := V3.norm_le_of (by norm_num) (by simp only [dot]; nlinarith)
    linarith
  have hs : Spec.Closer ⟨0, 0, 0⟩ ⟨1, 0, 0⟩ ⟨0, 1, 0⟩ ⟨0, 0, 3⟩ ⟨1 / 2, 1 / 2, 0⟩ (1 / 4) :=
    ⟨by linarith, by norm_num, hv (-1 / 2) (-1 / 2) (by norm_num) (by norm_num) _ (by ext <;> simp <;> norm_num),
      hv (1 / 2) (-1 / 2) (by norm_num) (by norm_num) _ (by ext <;> simp <;> norm_num),
      hv (-1 / 2) (1 / 2) (by norm_num) (by norm_num) _ (by ext <;> simp <;> norm_num)⟩
  obtain ⟨r, hr⟩ := C55_potential_returns h _ haway
  refine ⟨r, hr, (C55_accuracy h haway hs hr).trans ?_⟩
  have hK : V3.norm (cross ((⟨1, 0, 0⟩ : V3) - ⟨0, 0, 0⟩) ((⟨0, 1, 0⟩ : V3) - ⟨0, 0, 0⟩)) = 1 := by
    unfold V3.norm
    rw [Real.sqrt_eq_one]
    simp [cross, dot]
  rw [hK]
  have h1 : 1 / V3.norm ((⟨0, 0, 3⟩ : V3) - ⟨1 / 2, 1 / 2, 0⟩) ≤ 1 / 3 := one_div_le_one_div_of_le (by norm_num) hd
  calc _ ≤ 1 / 3 * (2 * ((1 / 4) ^ 23 * (1 + 1 / 4) / (1 - 1 / 4) ^ 2) + 2.3e-14 / (1 - 1 / 4)) :=
        mul_le_mul_of_nonneg_right h1 (by norm_num)
    _ ≤ _ := by norm_num

end Traceon
