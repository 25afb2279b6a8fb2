import Verif.Props.TriangleAccuracy
import Verif.Lemmas.CubeSeries

/-!
# C55: the accuracy of the flux of a triangle
-/
namespace Traceon
open V3 Spec MeasureTheory

theorem PolyBound.sum {ι : Type} (s : Finset ι) {f : ι → ℝ → ℝ → ℝ} {m : ℕ} (h : ∀ i ∈ s, ∃ C, PolyBound (f i) m C) :
    ∃ C, PolyBound (fun u v => ∑ i ∈ s, f i u v) m C := by
  classical
  induction s using Finset.induction_on with
  | empty => exact ⟨_, ((PolyBound.const 0).mono (Nat.zero_le m) le_rfl).congr fun u v => by simp⟩
  | insert i s hi ih =>
    obtain ⟨A, hA⟩ := h i (Finset.mem_insert_self i s)
    obtain ⟨B, hB⟩ := ih fun j hj => h j (Finset.mem_insert_of_mem hj)
    exact ⟨_, (hA.add hB).congr fun u v => by rw [Finset.sum_insert hi]⟩

theorem cauchy_poly {f g : ℕ → ℝ → ℝ → ℝ} (hf : ∀ n, ∃ C, PolyBound (f n) n C) (hg : ∀ n, ∃ C, PolyBound (g n) n C) (n : ℕ) :
    ∃ C, PolyBound (fun u v => cauchy (fun k => f k u v) (fun k => g k u v) n) n C := by
  refine PolyBound.sum (Finset.antidiagonal n) (f := fun x u v => f x.1 u v * g x.2 u v) fun x hx => ?_
  obtain ⟨A, hA⟩ := hf x.1
  obtain ⟨B, hB⟩ := hg x.2
  exact ⟨_, (hA.mul hB).mono (Finset.mem_antidiagonal.1 hx).le le_rfl⟩

theorem cubic_legHom_poly {a b : ℝ → ℝ → ℝ} {A B : ℝ} (ha : PolyBound a 1 A) (hb : PolyBound b 2 B) (n : ℕ) :
    ∃ C, PolyBound (fun u v => cubic (legHom (a u v) (b u v)) n) n C :=
  cauchy_poly (fun n => cauchy_poly (legHom_poly ha hb) (legHom_poly ha hb) n) (legHom_poly ha hb) n

theorem cubic_legHom_sum_poly {a b : ℝ → ℝ → ℝ} {A B : ℝ} (ha : PolyBound a 1 A) (hb : PolyBound b 2 B) (N : ℕ) :
    ∃ C, PolyBound (fun u v => ∑ n ∈ Finset.range (N + 1), cubic (legHom (a u v) (b u v)) n) N C :=
  PolyBound.sum (Finset.range (N + 1)) fun n hn => by
    obtain ⟨C, h⟩ := cubic_legHom_poly ha hb n
    exact ⟨C, h.mono (Nat.lt_succ_iff.1 (Finset.mem_range.1 hn)) le_rfl⟩

section
variable {v0 v1 v2 c p n : V3} {ρ : ℝ}

theorem dotN_poly (v0 v1 v2 p n : V3) : ∃ A, PolyBound (fun u v => dot n (p - triPoint v0 v1 v2 u v)) 1 A := by
  refine ⟨_, (PolyBound.linear (dot n (p - v0)) (-dot n (v1 - v0)) (-dot n (v2 - v0))).congr fun u v => ?_⟩
  simp only [triPoint, dot, sub_x, sub_y, sub_z, add_x, add_y, add_z, smul_x, smul_y, smul_z]
  ring

/-- The expansion of the field of a point charge. -/
theorem Spec.Closer.expand_field (h : Spec.Closer v0 v1 v2 p c ρ) (n : V3) {u v : ℝ} (hu : 0 ≤ u) (hv : 0 ≤ v) (huv : u + v ≤ 1) :
    |dot n (p - triPoint v0 v1 v2 u v) / V3.norm (p - triPoint v0 v1 v2 u v) ^ 3 -
        1 / V3.norm (p - c) ^ 3 * (dot n (p - triPoint v0 v1 v2 u v) * ∑ n ∈ Finset.range 22, cubic (legHom (relA v0 v1 v2 c p u v) (relB v0 v1 v2 c p u v)) n)| ≤
      V3.norm n * (1 + ρ) / V3.norm (p - c) ^ 2 * cubeTail 22 ρ ∧
    |1 / V3.norm (p - c) ^ 3 * (dot n (p - triPoint v0 v1 v2 u v) * ∑ n ∈ Finset.range 22, cubic (legHom (relA v0 v1 v2 c p u v) (relB v0 v1 v2 c p u v)) n)| ≤
      V3.norm n * (1 + ρ) / V3.norm (p - c) ^ 2 * (1 / (1 - ρ) ^ 3) := by
  obtain ⟨k, t, hk, t0, tρ, ea, eb, ey⟩ := h.polar hu hv huv
  have hr := h.pos
  have hlt := h.lt
  have hρ := h.nonneg
  have hsum := legendre_sum hk t0 (by linarith : t < 1)
  have hle : ∀ n, |leg n k * t ^ n| ≤ ρ ^ n := fun n => by
    rw [abs_mul, abs_of_nonneg (pow_nonneg t0 n)]
    calc _ ≤ 1 * t ^ n := mul_le_mul_of_nonneg_right (leg_abs_le hk n) (pow_nonneg t0 n)
      _ ≤ ρ ^ n := by rw [one_mul]; exact pow_le_pow_left₀ t0 tρ n
  obtain ⟨c1, c2⟩ := cube_series hle hρ hlt hsum 22
  have e : legHom (relA v0 v1 v2 c p u v) (relB v0 v1 v2 c p u v) = fun n => leg n k * t ^ n := by
    rw [ea, eb]
    exact funext fun n => legHom_eq k t n
  rw [e]
  have hdot : |dot n (p - triPoint v0 v1 v2 u v)| ≤ V3.norm n * (1 + ρ) * V3.norm (p - c) := by
    refine (V3.abs_dot_le _ _).trans ?_
    have : V3.norm (p - triPoint v0 v1 v2 u v) ≤ (1 + ρ) * V3.norm (p - c) := by
      rw [dist_rel hr, ea, eb, mul_comm]
      refine mul_le_mul_of_nonneg_right ?_ hr.le
      refine Real.sqrt_le_iff.2 ⟨by linarith, ?_⟩
      have := (abs_le.1 hk).1
      nlinarith [mul_nonneg t0 (by linarith : 0 ≤ 1 + k)]
    calc _ ≤ V3.norm n * ((1 + ρ) * V3.norm (p - c)) := mul_le_mul_of_nonneg_left this (Real.sqrt_nonneg _)
      _ = _ := by ring
  have hd : dot n (p - triPoint v0 v1 v2 u v) / V3.norm (p - triPoint v0 v1 v2 u v) ^ 3 =
      1 / V3.norm (p - c) ^ 3 * (dot n (p - triPoint v0 v1 v2 u v) * (1 / Real.sqrt (1 - 2 * (k * t) + t ^ 2)) ^ 3) := by
    rw [dist_rel hr u v, ea, eb, mul_pow, div_pow, one_pow]
    simp only [div_eq_mul_inv, mul_inv]
    ring
  have hn0 : 0 ≤ V3.norm n * (1 + ρ) * V3.norm (p - c) := (abs_nonneg _).trans hdot
  have hp : 0 < 1 / V3.norm (p - c) ^ 3 := by positivity
  constructor
  · rw [hd, ← mul_sub, ← mul_sub, abs_mul, abs_mul, abs_of_pos hp]
    calc _ ≤ 1 / V3.norm (p - c) ^ 3 * (V3.norm n * (1 + ρ) * V3.norm (p - c) * cubeTail 22 ρ) :=
          mul_le_mul_of_nonneg_left (mul_le_mul hdot c1 (abs_nonneg _) hn0) hp.le
      _ = _ := by field_simp
  · rw [abs_mul, abs_mul, abs_of_pos hp]
    calc _ ≤ 1 / V3.norm (p - c) ^ 3 * (V3.norm n * (1 + ρ) * V3.norm (p - c) * (1 / (1 - ρ) ^ 3)) :=
          mul_le_mul_of_nonneg_left (mul_le_mul hdot c2 (abs_nonneg _) hn0) hp.le
      _ = _ := by
        generalize 1 / (1 - ρ) ^ 3 = τ
        field_simp

theorem fluxIntegrand_continuousOn (h : cross (v1 - v0) (v2 - v0) ≠ 0) (n : V3) (haway : AwayFromLines v0 v1 v2 p (Real.sqrt 1e-9)) :
    ContinuousOn (normalizeTri v0 v1 v2 p n).fluxIntegrand (Set.Icc 0 (normalizeTri v0 v1 v2 p n).c) := by
  set t := normalizeTri v0 v1 v2 p n with ht
  have hd : ∀ y ∈ Set.Icc 0 t.c, 1e-9 ≤ t.z * t.z + (y + t.y0) * (y + t.y0) := by
    intro y hy
    have h1 := line_dist_y h p n (Real.sqrt_nonneg _) haway hy.1 hy.2
    rw [← ht] at h1
    have h2 := (Real.sqrt_le_sqrt_iff (by nlinarith [mul_self_nonneg (y + t.y0), mul_self_nonneg t.z])).1 h1
    linarith
  have k1 : Continuous t.xmax := by unfold NormTri.xmax; fun_prop
  have k2 : Continuous t.xmin := by unfold NormTri.xmin; fun_prop
  have s1 : Continuous fun y => Real.sqrt (t.z * t.z + (y + t.y0) * (y + t.y0) + t.xmax y * t.xmax y) := by fun_prop
  have s2 : Continuous fun y => Real.sqrt (t.z * t.z + (y + t.y0) * (y + t.y0) + t.xmin y * t.xmin y) := by fun_prop
  have p0 : ∀ y ∈ Set.Icc 0 t.c, t.z * t.z + (y + t.y0) * (y + t.y0) ≠ 0 :=
    fun y hy => (lt_of_lt_of_le (by norm_num) (hd y hy)).ne'
  have p1 : ∀ y ∈ Set.Icc 0 t.c, Real.sqrt (t.z * t.z + (y + t.y0) * (y + t.y0) + t.xmax y * t.xmax y) ≠ 0 := by
    intro y hy
    have := hd y hy
    exact (Real.sqrt_pos.2 (by nlinarith [mul_self_nonneg (t.xmax y)])).ne'
  have p2 : ∀ y ∈ Set.Icc 0 t.c, Real.sqrt (t.z * t.z + (y + t.y0) * (y + t.y0) + t.xmin y * t.xmin y) ≠ 0 := by
    intro y hy
    have := hd y hy
    exact (Real.sqrt_pos.2 (by nlinarith [mul_self_nonneg (t.xmin y)])).ne'
  have r2c : Continuous fun y => t.z * t.z + (y + t.y0) * (y + t.y0) := by fun_prop
  have d1 := r2c.continuousOn.mul s1.continuousOn (s := Set.Icc 0 t.c)
  have d2 := r2c.continuousOn.mul s2.continuousOn (s := Set.Icc 0 t.c)
  have q1 : ∀ y ∈ Set.Icc 0 t.c, (t.z * t.z + (y + t.y0) * (y + t.y0)) *
      Real.sqrt (t.z * t.z + (y + t.y0) * (y + t.y0) + t.xmax y * t.xmax y) ≠ 0 := fun y hy => mul_ne_zero (p0 y hy) (p1 y hy)
  have q2 : ∀ y ∈ Set.Icc 0 t.c, (t.z * t.z + (y + t.y0) * (y + t.y0)) *
      Real.sqrt (t.z * t.z + (y + t.y0) * (y + t.y0) + t.xmin y * t.xmin y) ≠ 0 := fun y hy => mul_ne_zero (p0 y hy) (p2 y hy)
  have cy : Continuous fun y => y + t.y0 := by fun_prop
  have f0 := (continuousOn_const (c := (1:ℝ))).div s1.continuousOn p1 |>.sub
    ((continuousOn_const (c := (1:ℝ))).div s2.continuousOn p2)
  have f1 := ((k1.mul cy).continuousOn.div d1 q1).neg.add ((k2.mul cy).continuousOn.div d2 q2)
  have f2 := ((k1.mul (continuous_const (y := t.z))).continuousOn.div d1 q1).sub
    ((k2.mul (continuous_const (y := t.z))).continuousOn.div d2 q2)
  refine (((f0.const_mul t.normal.x).add (f1.const_mul t.normal.y)).add (f2.const_mul t.normal.z)).congr fun y hy => ?_
  simp only [NormTri.fluxIntegrand, NormTri.fluxVector]
  have h1 := hd y hy
  have h2 : 0 < t.z * t.z + (y + t.y0) * (y + t.y0) := lt_of_lt_of_le (by norm_num) h1
  rw [if_neg (by rw [abs_of_pos h2]; exact not_lt.2 h1)]
  simp only [dot, Pi.mul_apply, Pi.div_apply, Pi.neg_apply, Pi.sub_apply, Pi.add_apply]

/-- **C55** (accuracy of the flux). For every triangle, every normal and every point outside some sphere around the triangle, not within 3.2e-5 of a line parallel to the first side, the
value that is returned is the field of the charged triangle along the normal up to the given error. -/
theorem C55_flux_accuracy (h : cross (v1 - v0) (v2 - v0) ≠ 0) (haway : AwayFromLines v0 v1 v2 p (Real.sqrt 1e-9)) (hs : Spec.Closer v0 v1 v2 p c ρ) {r : ℝ}
    (hr : FluxTriangleReturns v0 v1 v2 p n r) :
    |r - triFieldAlong v0 v1 v2 p n| ≤
      V3.norm (cross (v1 - v0) (v2 - v0)) * V3.norm n * (1 + ρ) / V3.norm (p - c) ^ 2 * (2 * cubeTail 22 ρ + 2.3e-14 * (1 / (1 - ρ) ^ 3)) := by
  have hc := tri_c_pos h p n
  have hcont := fluxIntegrand_continuousOn h n haway
  have hpot := C55_flux_partial h p n haway
  have hint := fun {v : ℝ} => C55_flux_integrand h p n haway (v := v)
  unfold FluxTriangleReturns at hr
  simp only at hr
  set t := normalizeTri v0 v1 v2 p n with ht
  set K := V3.norm (cross (v1 - v0) (v2 - v0)) with hK
  have hK0 : 0 ≤ K := Real.sqrt_nonneg _
  have hd0 := hs.pos
  have hex := fun {u v : ℝ} => hs.expand_field n (u := u) (v := v)
  set d := V3.norm (p - c) with hd
  have hdel : 0 ≤ V3.norm n * (1 + ρ) / d ^ 2 * cubeTail 22 ρ :=
    (abs_nonneg _).trans (hex (u := 0) (v := 0) le_rfl le_rfl (by norm_num)).1
  have hdel' : 0 ≤ V3.norm n * (1 + ρ) / d ^ 2 * (1 / (1 - ρ) ^ 3) :=
    (abs_nonneg _).trans (hex (u := 0) (v := 0) le_rfl le_rfl (by norm_num)).2
  -- the polynomial
  obtain ⟨A, hA⟩ := relA_poly v0 v1 v2 c p
  obtain ⟨B, hB⟩ := relB_poly v0 v1 v2 c p
  obtain ⟨C, hC⟩ := cubic_legHom_sum_poly hA hB 21
  obtain ⟨D, hD⟩ := dotN_poly v0 v1 v2 p n
  have hS := ((hD.mul hC).smul (1 / d ^ 3)).smul K
  obtain ⟨P, hP, eP⟩ := hS.inner 0
  simp only [pow_zero, one_mul] at eP
  set S : ℝ → ℝ → ℝ := fun u v => 1 / d ^ 3 * (dot n (p - triPoint v0 v1 v2 u v) *
    ∑ n ∈ Finset.range 22, cubic (legHom (relA v0 v1 v2 c p u v) (relB v0 v1 v2 c p u v)) n) with hSd
  have hSc : Continuous (Function.uncurry fun u v => K * S u v) := hS.continuous
  have hgc : ∀ v, 0 ≤ v → v ≤ 1 → ContinuousOn (fun u => dot n (p - triPoint v0 v1 v2 u v) / V3.norm (p - triPoint v0 v1 v2 u v) ^ 3) (Set.Icc 0 (1 - v)) := by
    intro v hv0 hv1
    refine ContinuousOn.div ?_ ?_ fun u _ => ?_
    · refine Continuous.continuousOn ?_
      simp only [triPoint, dot, sub_x, sub_y, sub_z, add_x, add_y, add_z, smul_x, smul_y, smul_z]
      fun_prop
    · refine Continuous.continuousOn ?_
      unfold V3.norm
      simp only [triPoint, dot, sub_x, sub_y, sub_z, add_x, add_y, add_z, smul_x, smul_y, smul_z]
      fun_prop
    · have := haway v hv0 hv1 u
      have h0 : (0 : ℝ) < Real.sqrt 1e-9 := Real.sqrt_pos.2 (by norm_num)
      exact pow_ne_zero 3 (lt_of_lt_of_le h0 this).ne'
  have point : ∀ v, 0 ≤ v → v ≤ 1 → |t.c * t.fluxIntegrand (t.c * v) - P.eval v| ≤ K * (V3.norm n * (1 + ρ) / d ^ 2 * cubeTail 22 ρ) ∧
      |P.eval v| ≤ K * (V3.norm n * (1 + ρ) / d ^ 2 * (1 / (1 - ρ) ^ 3)) := by
    intro v hv0 hv1
    have hv : (0 : ℝ) ≤ 1 - v := by linarith
    constructor
    · rw [← hint hv0 hv1, ← eP v]
      have i1 : IntervalIntegrable (fun u => K * (dot n (p - triPoint v0 v1 v2 u v) / V3.norm (p - triPoint v0 v1 v2 u v) ^ 3)) volume 0 (1 - v) := by
        refine ContinuousOn.intervalIntegrable ?_
        rw [Set.uIcc_of_le hv]
        exact continuousOn_const.mul (hgc v hv0 hv1)
      have i2 : IntervalIntegrable (fun u => K * S u v) volume 0 (1 - v) := (cont_slice hSc v).intervalIntegrable _ _
      rw [← intervalIntegral.integral_sub i1 i2]
      have := intervalIntegral.norm_integral_le_of_norm_le_const (a := 0) (b := 1 - v)
        (f := fun u => K * (dot n (p - triPoint v0 v1 v2 u v) / V3.norm (p - triPoint v0 v1 v2 u v) ^ 3) - K * S u v)
        (C := K * (V3.norm n * (1 + ρ) / d ^ 2 * cubeTail 22 ρ)) fun u hu => by
          rw [Set.uIoc_of_le hv] at hu
          rw [Real.norm_eq_abs, ← mul_sub, abs_mul, abs_of_nonneg hK0]
          exact mul_le_mul_of_nonneg_left (hex hu.1.le hv0 (by linarith [hu.2])).1 hK0
      rw [Real.norm_eq_abs, sub_zero, abs_of_nonneg hv] at this
      refine this.trans ?_
      have h1 := mul_nonneg hK0 hdel
      nlinarith
    · rw [← eP v]
      have := intervalIntegral.norm_integral_le_of_norm_le_const (a := 0) (b := 1 - v)
        (f := fun u => K * S u v) (C := K * (V3.norm n * (1 + ρ) / d ^ 2 * (1 / (1 - ρ) ^ 3))) fun u hu => by
          rw [Set.uIoc_of_le hv] at hu
          rw [Real.norm_eq_abs, abs_mul, abs_of_nonneg hK0]
          exact mul_le_mul_of_nonneg_left (hex hu.1.le hv0 (by linarith [hu.2])).2 hK0
      rw [Real.norm_eq_abs, sub_zero, abs_of_nonneg hv] at this
      refine this.trans ?_
      have h1 := mul_nonneg hK0 hdel'
      nlinarith
  -- on the interval `[0, c]`
  set Q : Polynomial ℝ := Polynomial.C (1 / t.c) * P.comp (Polynomial.C (1 / t.c) * Polynomial.X) with hQ
  have eQ : ∀ y, Q.eval y = 1 / t.c * P.eval (1 / t.c * y) := fun y => by
    rw [hQ, Polynomial.eval_mul, Polynomial.eval_C, Polynomial.eval_comp, Polynomial.eval_mul, Polynomial.eval_C, Polynomial.eval_X]
  have hdeg : Q.natDegree ≤ 23 := by
    refine (Polynomial.natDegree_C_mul_le _ _).trans (Polynomial.natDegree_comp_le.trans ?_)
    have h1 : (Polynomial.C (1 / t.c) * Polynomial.X : Polynomial ℝ).natDegree ≤ 1 := by simpa using Polynomial.natDegree_C_mul_X_pow_le (1 / t.c) 1
    calc _ ≤ 23 * 1 := Nat.mul_le_mul hP h1
      _ = 23 := rfl
  have hy : ∀ y ∈ Set.Icc 0 t.c, 0 ≤ 1 / t.c * y ∧ 1 / t.c * y ≤ 1 := by
    rintro y ⟨y0, y1⟩
    refine ⟨by positivity, ?_⟩
    rw [one_div, inv_mul_le_iff₀ hc]; linarith
  have key := C56_accuracy (f := t.fluxIntegrand) hc.le (by
      refine ContinuousOn.intervalIntegrable ?_
      rwa [Set.uIcc_of_le hc.le]) Q hdeg (ε := 1 / t.c * (K * (V3.norm n * (1 + ρ) / d ^ 2 * cubeTail 22 ρ)))
      (B := 1 / t.c * (K * (V3.norm n * (1 + ρ) / d ^ 2 * (1 / (1 - ρ) ^ 3))))
    (by
      intro y hyy
      obtain ⟨h0, h1⟩ := hy y hyy
      have := (point _ h0 h1).1
      rw [eQ, show t.fluxIntegrand y = 1 / t.c * (t.c * t.fluxIntegrand y) by field_simp, ← mul_sub, abs_mul, abs_of_pos (by positivity : 0 < 1 / t.c)]
      refine mul_le_mul_of_nonneg_left ?_ (by positivity)
      rwa [show t.c * (1 / t.c * y) = y by field_simp] at this)
    (by
      intro y hyy
      obtain ⟨h0, h1⟩ := hy y hyy
      rw [eQ, abs_mul, abs_of_pos (by positivity : 0 < 1 / t.c)]
      exact mul_le_mul_of_nonneg_left (point _ h0 h1).2 (by positivity)) hr
  rw [hpot] at key
  refine key.trans (le_of_eq ?_)
  have : t.c ≠ 0 := hc.ne'
  rw [sub_zero]
  generalize cubeTail 22 ρ = δ
  generalize 1 / (1 - ρ) ^ 3 = τ
  field_simp
end

/-- A case meeting the hypotheses: the field along the axis at a distance of three sides above a corner of a triangle. -/
theorem C55_flux_accuracy_example : ∃ r, FluxTriangleReturns ⟨0, 0, 0⟩ ⟨1, 0, 0⟩ ⟨0, 1, 0⟩ ⟨0, 0, 3⟩ ⟨0, 0, 1⟩ r ∧
    |r - triFieldAlong ⟨0, 0, 0⟩ ⟨1, 0, 0⟩ ⟨0, 1, 0⟩ ⟨0, 0, 3⟩ ⟨0, 0, 1⟩| ≤ 1e-10 := by
  have h : cross ((⟨1, 0, 0⟩ : V3) - ⟨0, 0, 0⟩) ((⟨0, 1, 0⟩ : V3) - ⟨0, 0, 0⟩) ≠ 0 := by
    intro h0
    have := congrArg V3.z h0
    simp [cross] at this
  have haway : AwayFromLines ⟨0, 0, 0⟩ ⟨1, 0, 0⟩ ⟨0, 1, 0⟩ ⟨0, 0, 3⟩ (Real.sqrt 1e-9) := by
    intro v _ _ t
    unfold V3.norm
    refine Real.sqrt_le_sqrt ?_
    simp only [dot, triPoint, sub_x, sub_y, sub_z, add_x, add_y, add_z, smul_x, smul_y, smul_z]
    nlinarith [mul_self_nonneg t, mul_self_nonneg v]
  have hd : (3 : ℝ) ≤ V3.norm ((⟨0, 0, 3⟩ : V3) - ⟨1 / 2, 1 / 2, 0⟩) := by
    unfold V3.norm
    refine Real.le_sqrt_of_sq_le ?_
    simp only [dot, sub_x, sub_y, sub_z]; norm_num
  have hv : ∀ a b : ℝ, a ^ 2 = 1 / 4 → b ^ 2 = 1 / 4 → ∀ w : V3, w - ⟨1 / 2, 1 / 2, 0⟩ = ⟨a, b, 0⟩ →
      V3.norm (w - ⟨1 / 2, 1 / 2, 0⟩) ≤ 1 / 4 * V3.norm ((⟨0, 0, 3⟩ : V3) - ⟨1 / 2, 1 / 2, 0⟩) := by
    intro a b ha hb w hw
    rw [hw]
    have : V3.norm (⟨a, b, 0⟩ : V3) ≤ 3 / 4 := V3.norm_le_of (by norm_num) (by simp only [dot]; nlinarith)
    linarith
  have hs : Spec.Closer ⟨0, 0, 0⟩ ⟨1, 0, 0⟩ ⟨0, 1, 0⟩ ⟨0, 0, 3⟩ ⟨1 / 2, 1 / 2, 0⟩ (1 / 4) :=
    ⟨by linarith, by norm_num, hv (-1 / 2) (-1 / 2) (by norm_num) (by norm_num) _ (by ext <;> simp <;> norm_num),
      hv (1 / 2) (-1 / 2) (by norm_num) (by norm_num) _ (by ext <;> simp <;> norm_num),
      hv (-1 / 2) (1 / 2) (by norm_num) (by norm_num) _ (by ext <;> simp <;> norm_num)⟩
  obtain ⟨r, hr⟩ := C55_flux_returns h _ ⟨0, 0, 1⟩ haway
  refine ⟨r, hr, (C55_flux_accuracy h haway hs hr).trans ?_⟩
  have hK : V3.norm (cross ((⟨1, 0, 0⟩ : V3) - ⟨0, 0, 0⟩) ((⟨0, 1, 0⟩ : V3) - ⟨0, 0, 0⟩)) = 1 := by
    unfold V3.norm
    rw [Real.sqrt_eq_one]
    simp [cross, dot]
  have hN : V3.norm (⟨0, 0, 1⟩ : V3) = 1 := by
    unfold V3.norm
    rw [Real.sqrt_eq_one]
    simp [dot]
  rw [hK, hN]
  have h9 : (9 : ℝ) ≤ V3.norm ((⟨0, 0, 3⟩ : V3) - ⟨1 / 2, 1 / 2, 0⟩) ^ 2 := by nlinarith
  have h1 : 1 * 1 * (1 + 1 / 4) / V3.norm ((⟨0, 0, 3⟩ : V3) - ⟨1 / 2, 1 / 2, 0⟩) ^ 2 ≤ 1 * 1 * (1 + 1 / 4) / 9 :=
    div_le_div_of_nonneg_left (by norm_num) (by norm_num) h9
  have h2 : 0 ≤ cubeTail 22 (1 / 4) ∧ cubeTail 22 (1 / 4) ≤ 1e-10 := by
    unfold cubeTail
    simp only [Finset.sum_range_succ, Finset.sum_range_zero]
    norm_num
  calc _ ≤ 1 * 1 * (1 + 1 / 4) / 9 * (2 * cubeTail 22 (1 / 4) + 2.3e-14 * (1 / (1 - 1 / 4) ^ 3)) :=
        mul_le_mul_of_nonneg_right h1 (by have := h2.1; positivity)
    _ ≤ 1 * 1 * (1 + 1 / 4) / 9 * (2 * 1e-10 + 2.3e-14 * (1 / (1 - 1 / 4) ^ 3)) := by gcongr; exact h2.2
    _ ≤ _ := by norm_num

end Traceon
