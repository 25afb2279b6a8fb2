import Verif.Lemmas.Elliptic
import Mathlib.MeasureTheory.Integral.DominatedConvergence
import Mathlib.Analysis.SpecialFunctions.Pow.Asymptotics
import Mathlib.Analysis.Calculus.Deriv.MeanValue
import Mathlib.Analysis.Calculus.MeanValue

/-!
# The differential equation of the complete elliptic integrals, and their limits at zero
-/
namespace Traceon
open Real Spec MeasureTheory intervalIntegral Filter Topology

theorem hasDerivAt_ellE' {p : ℝ} (hp : 0 < p) : HasDerivAt ellE (∫ θ in (0 : ℝ)..π / 2, sin θ ^ 2 / √(ellD p θ) / 2) p := by
  set c := min 1 (p / 2) with hcdef
  have hc : 0 < c := lt_min one_pos (by linarith)
  have hball : ∀ x ∈ Metric.ball p (p / 2), 0 < x ∧ c ≤ x := by
    intro x hx
    rw [Metric.mem_ball, Real.dist_eq, abs_lt] at hx
    exact ⟨by linarith, le_trans (min_le_right _ _) (by linarith)⟩
  refine (intervalIntegral.hasDerivAt_integral_of_dominated_loc_of_deriv_le (F := fun p θ => √(ellD p θ)) (F' := fun p θ => sin θ ^ 2 / √(ellD p θ) / 2)
    (s := Metric.ball p (p / 2)) (bound := fun _ => 1 / √c / 2) (Metric.ball_mem_nhds p (by linarith)) ?_ ?_ ?_ ?_ ?_ ?_).2
  · exact Filter.Eventually.of_forall (fun x => (continuous_sqrt_ellD x).aestronglyMeasurable)
  · exact (continuous_sqrt_ellD p).intervalIntegrable _ _
  · exact ((Continuous.div (by fun_prop) (continuous_sqrt_ellD p) (fun θ => sqrt_ellD_ne hp θ) :
      Continuous (fun θ => sin θ ^ 2 / √(ellD p θ))).div_const 2).aestronglyMeasurable
  · refine Filter.Eventually.of_forall (fun θ _ x hx => ?_)
    obtain ⟨h0, h1⟩ := hball x hx
    have h2 : √c ≤ √(ellD x θ) := Real.sqrt_le_sqrt (ellD_ge (min_le_left _ _) h1 θ)
    have h3 : 0 < √c := Real.sqrt_pos.2 hc
    rw [Real.norm_of_nonneg (by positivity)]
    have h4 : sin θ ^ 2 ≤ 1 := by nlinarith [sin_sq_add_cos_sq θ, sq_nonneg (cos θ)]
    gcongr
  · exact continuous_const.intervalIntegrable _ _
  · refine Filter.Eventually.of_forall (fun θ _ x hx => ?_)
    obtain ⟨h0, h1⟩ := hball x hx
    have hD : HasDerivAt (fun x => ellD x θ) (sin θ ^ 2) x := by
      unfold ellD
      simpa using ((hasDerivAt_id x).mul_const (sin θ ^ 2)).const_add (cos θ ^ 2)
    refine (hD.sqrt (ellD_pos h0 θ).ne').congr_deriv ?_
    field_simp

/-- The derivative of the complete elliptic integral of the second kind. -/
theorem hasDerivAt_ellE {p : ℝ} (hp : 0 < p) (h1 : p ≠ 1) : HasDerivAt ellE ((ellK p - ellE p) / (2 * (1 - p))) p := by
  refine (hasDerivAt_ellE' hp).congr_deriv ?_
  have hi : Continuous (fun θ => 1 / √(ellD p θ)) := Continuous.div continuous_const (continuous_sqrt_ellD p) (fun θ => sqrt_ellD_ne hp θ)
  have hne : 1 - p ≠ 0 := fun h => h1 (by linarith)
  have h2 : ellK p - ellE p = ∫ θ in (0 : ℝ)..π / 2, (1 / √(ellD p θ) - √(ellD p θ)) := by
    rw [integral_sub (hi.intervalIntegrable _ _) ((continuous_sqrt_ellD p).intervalIntegrable _ _)]
    rfl
  rw [h2, ← intervalIntegral.integral_div]
  refine integral_congr (fun θ _ => ?_)
  beta_reduce
  have hs := sqrt_ellD_ne hp θ
  have h3 : √(ellD p θ) ^ 2 = cos θ ^ 2 + p * sin θ ^ 2 := Real.sq_sqrt (ellD_pos hp θ).le
  have h5 := sin_sq_add_cos_sq θ
  field_simp
  rw [h3]
  linear_combination h5

/-- `p (1 - p) K' = -(E - pK)/2`, and the derivative of it is `K/4`. -/
theorem hasDerivAt_fluxK {p : ℝ} (hp : 0 < p) (h1 : p ≠ 1) : HasDerivAt (fun p => -(ellE p - p * ellK p) / 2) (ellK p / 4) p := by
  have hne : 1 - p ≠ 0 := fun h => h1 (by linarith)
  have h := (((hasDerivAt_ellE hp h1).sub ((hasDerivAt_id p).mul (hasDerivAt_ellK hp h1))).neg).div_const 2
  refine h.congr_deriv ?_
  simp only [id]
  field_simp
  ring

theorem ellE_tendsto : Tendsto ellE (𝓝[>] 0) (𝓝 1) := by
  have h : Tendsto (fun p => ∫ θ in (0 : ℝ)..π / 2, √(ellD p θ)) (𝓝[>] 0) (𝓝 (∫ θ in (0 : ℝ)..π / 2, cos θ)) := by
    refine intervalIntegral.tendsto_integral_filter_of_dominated_convergence (fun _ => 1) ?_ ?_ ?_ ?_
    · exact Filter.Eventually.of_forall (fun x => (continuous_sqrt_ellD x).aestronglyMeasurable)
    · filter_upwards [Ioo_mem_nhdsGT (show (0:ℝ) < 1 by norm_num)] with p hp
      refine Filter.Eventually.of_forall (fun θ _ => ?_)
      rw [Real.norm_of_nonneg (Real.sqrt_nonneg _)]
      refine Real.sqrt_le_one.2 ?_
      unfold ellD
      nlinarith [sin_sq_add_cos_sq θ, sq_nonneg (sin θ), hp.1, hp.2]
    · exact continuous_const.intervalIntegrable _ _
    · refine Filter.Eventually.of_forall (fun θ hθ => ?_)
      rw [Set.uIoc_of_le (by positivity)] at hθ
      have hc : 0 ≤ cos θ := cos_nonneg_of_mem_Icc ⟨by linarith [hθ.1, pi_pos], hθ.2⟩
      have e : cos θ = √(ellD 0 θ) := by unfold ellD; rw [zero_mul, add_zero, Real.sqrt_sq hc]
      rw [e]
      have : Continuous (fun p => √(ellD p θ)) := by unfold ellD; fun_prop
      exact (this.tendsto 0).mono_left nhdsWithin_le_nhds
  have e : ∫ θ in (0 : ℝ)..π / 2, cos θ = 1 := by simp
  rw [e] at h
  exact h

theorem mul_ellK_tendsto : Tendsto (fun p => p * ellK p) (𝓝[>] 0) (𝓝 0) := by
  have hb : ∀ p ∈ Set.Ioo (0:ℝ) 1, 0 ≤ p * ellK p ∧ p * ellK p ≤ √p * (π / 2) := by
    intro p hp
    have hi : Continuous (fun θ => 1 / √(ellD p θ)) := Continuous.div continuous_const (continuous_sqrt_ellD p) (fun θ => sqrt_ellD_ne hp.1 θ)
    have h0 : 0 ≤ ellK p := intervalIntegral.integral_nonneg (by positivity) (fun θ _ => by positivity)
    refine ⟨mul_nonneg hp.1.le h0, ?_⟩
    have h1 : ellK p ≤ ∫ θ in (0 : ℝ)..π / 2, 1 / √p := by
      refine intervalIntegral.integral_mono_on (by positivity) (hi.intervalIntegrable _ _) (continuous_const.intervalIntegrable _ _) ?_
      intro θ _
      have hs : 0 < √p := Real.sqrt_pos.2 hp.1
      have : √p ≤ √(ellD p θ) := Real.sqrt_le_sqrt (ellD_ge hp.2.le le_rfl θ)
      exact one_div_le_one_div_of_le hs this
    have hs : 0 < √p := Real.sqrt_pos.2 hp.1
    calc p * ellK p ≤ p * ∫ θ in (0 : ℝ)..π / 2, 1 / √p := mul_le_mul_of_nonneg_left h1 hp.1.le
      _ = √p * (π / 2) := by
        rw [intervalIntegral.integral_const, smul_eq_mul, sub_zero]
        have : p = √p * √p := (Real.mul_self_sqrt hp.1.le).symm
        rw [mul_one_div, mul_div_assoc', div_eq_iff hs.ne']
        conv_lhs => rw [this]
        ring
  have hlim : Tendsto (fun p => √p * (π / 2)) (𝓝[>] 0) (𝓝 0) := by
    have : Continuous (fun p => √p * (π / 2)) := by fun_prop
    have h := (this.tendsto 0).mono_left (nhdsWithin_le_nhds (s := Set.Ioi 0))
    simpa using h
  refine tendsto_of_tendsto_of_tendsto_of_le_of_le' tendsto_const_nhds hlim ?_ ?_
  · filter_upwards [Ioo_mem_nhdsGT (show (0:ℝ) < 1 by norm_num)] with p hp using (hb p hp).1
  · filter_upwards [Ioo_mem_nhdsGT (show (0:ℝ) < 1 by norm_num)] with p hp using (hb p hp).2

/-- `∫ sin / √(cos² + p sin²)` in closed form -/
theorem integral_sin_div {p : ℝ} (hp : 0 < p) (h1 : p < 1) :
    ∫ θ in (0 : ℝ)..π / 2, sin θ / √(ellD p θ) = (log (1 + √(1 - p)) + log (1 / p) / 2) / √(1 - p) := by
  set q := √(1 - p) with hq
  have hq0 : 0 < q := Real.sqrt_pos.2 (by linarith)
  have hq2 : q ^ 2 = 1 - p := Real.sq_sqrt (by linarith)
  have hpos : ∀ θ, 0 < q * cos θ + √(ellD p θ) := by
    intro θ
    have hD := ellD_pos hp θ
    have : |q * cos θ| < √(ellD p θ) := by
      rw [← Real.sqrt_sq_eq_abs]
      refine Real.sqrt_lt_sqrt (sq_nonneg _) ?_
      rw [mul_pow, hq2]
      unfold ellD
      nlinarith [sin_sq_add_cos_sq θ]
    have := neg_abs_le (q * cos θ)
    linarith
  have hder : ∀ θ, HasDerivAt (fun θ => -log (q * cos θ + √(ellD p θ)) / q) (sin θ / √(ellD p θ)) θ := by
    intro θ
    have hs := sqrt_ellD_ne hp θ
    have hd := (((hasDerivAt_cos θ).const_mul q).add ((hasDerivAt_ellD p θ).sqrt (ellD_pos hp θ).ne')).log (hpos θ).ne'
    refine (hd.neg.div_const q).congr_deriv ?_
    have hn := (hpos θ).ne'
    simp only [Pi.add_apply]
    rw [div_eq_iff hq0.ne', ← neg_div, div_eq_iff hn]
    have e : 2 * (p - 1) * sin θ * cos θ / (2 * √(ellD p θ)) = -(q ^ 2 * sin θ * cos θ) / √(ellD p θ) := by
      rw [hq2]; field_simp; ring
    rw [e]
    field_simp
    ring
  have hc : Continuous (fun θ => sin θ / √(ellD p θ)) :=
    Continuous.div continuous_sin (continuous_sqrt_ellD p) (fun θ => sqrt_ellD_ne hp θ)
  rw [integral_eq_sub_of_hasDerivAt (fun θ _ => hder θ) (hc.intervalIntegrable _ _)]
  have e1 : ellD p (π / 2) = p := by unfold ellD; simp
  have e2 : ellD p 0 = 1 := by unfold ellD; simp
  rw [e1, e2, Real.cos_pi_div_two, Real.cos_zero, mul_zero, zero_add, mul_one, Real.sqrt_one, Real.log_sqrt hp.le,
    one_div p, Real.log_inv, add_comm q 1]
  ring

theorem one_sub_sin_le {θ : ℝ} (h0 : 0 ≤ θ) (h1 : θ ≤ π / 2) : 1 - sin θ ≤ cos θ := by
  have hs : 0 ≤ sin θ := sin_nonneg_of_nonneg_of_le_pi h0 (by linarith [pi_pos])
  have hc : 0 ≤ cos θ := cos_nonneg_of_mem_Icc ⟨by linarith [pi_pos], h1⟩
  nlinarith [sin_sq_add_cos_sq θ, sin_le_one θ, mul_nonneg hs hc]

theorem integral_one_sub_sin : Tendsto (fun p => ∫ θ in (0 : ℝ)..π / 2, (1 - sin θ) / √(ellD p θ)) (𝓝[>] 0) (𝓝 (log 2)) := by
  have e : ∫ θ in (0 : ℝ)..π / 2, cos θ / (1 + sin θ) = log 2 := by
    have hpos : ∀ θ ∈ Set.uIcc (0:ℝ) (π / 2), 0 < 1 + sin θ := by
      intro θ hθ
      rw [Set.uIcc_of_le (by positivity)] at hθ
      have := sin_nonneg_of_nonneg_of_le_pi hθ.1 (by linarith [pi_pos, hθ.2])
      linarith
    have hder : ∀ θ ∈ Set.uIcc (0:ℝ) (π / 2), HasDerivAt (fun θ => log (1 + sin θ)) (cos θ / (1 + sin θ)) θ := by
      intro θ hθ
      exact ((hasDerivAt_sin θ).const_add 1).log (hpos θ hθ).ne'
    rw [integral_eq_sub_of_hasDerivAt hder]
    · simp; norm_num
    · refine ContinuousOn.intervalIntegrable ?_
      exact ContinuousOn.div (by fun_prop) (by fun_prop) (fun θ hθ => (hpos θ hθ).ne')
  rw [← e]
  refine intervalIntegral.tendsto_integral_filter_of_dominated_convergence (fun _ => 1) ?_ ?_ ?_ ?_
  · filter_upwards [self_mem_nhdsWithin] with p hp
    exact (Continuous.div (by fun_prop) (continuous_sqrt_ellD p) (fun θ => sqrt_ellD_ne hp θ)).aestronglyMeasurable
  · filter_upwards [self_mem_nhdsWithin] with p hp
    refine Filter.Eventually.of_forall (fun θ hθ => ?_)
    rw [Set.uIoc_of_le (by positivity)] at hθ
    have hs := (Real.sqrt_pos.2 (ellD_pos (show 0 < p from hp) θ))
    rw [norm_div, Real.norm_of_nonneg hs.le, Real.norm_of_nonneg (by linarith [sin_le_one θ]), div_le_one hs]
    refine (one_sub_sin_le hθ.1.le hθ.2).trans ?_
    refine Real.le_sqrt_of_sq_le ?_
    unfold ellD
    have hp' : (0:ℝ) < p := hp
    nlinarith [sq_nonneg (sin θ)]
  · exact continuous_const.intervalIntegrable _ _
  · have hne : ∀ᵐ θ : ℝ, θ ≠ π / 2 := by
      refine (measure_eq_zero_iff_ae_notMem (s := {π / 2})).1 ?_
      simp
    filter_upwards [hne] with θ hne hθ
    rw [Set.uIoc_of_le (by positivity)] at hθ
    have hlt : θ < π / 2 := lt_of_le_of_ne hθ.2 hne
    have hc : 0 < cos θ := cos_pos_of_mem_Ioo ⟨by linarith [hθ.1, pi_pos], hlt⟩
    have hs : 0 ≤ sin θ := sin_nonneg_of_nonneg_of_le_pi hθ.1.le (by linarith [pi_pos])
    have e : cos θ / (1 + sin θ) = (1 - sin θ) / √(ellD 0 θ) := by
      unfold ellD
      rw [zero_mul, add_zero, Real.sqrt_sq hc.le, div_eq_div_iff (by linarith) hc.ne']
      nlinarith [sin_sq_add_cos_sq θ]
    rw [e]
    have hD0 : √(ellD 0 θ) ≠ 0 := by
      unfold ellD; rw [zero_mul, add_zero, Real.sqrt_sq hc.le]; exact hc.ne'
    have hcon : Continuous (fun p => √(ellD p θ)) := by unfold ellD; fun_prop
    have := (tendsto_const_nhds (x := 1 - sin θ)).div (hcon.tendsto 0) hD0
    exact this.mono_left nhdsWithin_le_nhds

theorem mul_log_tendsto : Tendsto (fun p : ℝ => p * log (1 / p)) (𝓝[>] 0) (𝓝 0) := by
  have h := tendsto_log_mul_rpow_nhdsGT_zero (r := 1) one_pos
  have h2 := h.neg
  rw [neg_zero] at h2
  refine h2.congr (fun p => ?_)
  rw [Real.rpow_one, one_div, Real.log_inv]
  ring

/-- `K(p) - log(1/p)/2` tends to `log 4`. -/
theorem ellK_tendsto : Tendsto (fun p => ellK p - log (1 / p) / 2) (𝓝[>] 0) (𝓝 (log 4)) := by
  have h1 := integral_one_sub_sin
  have hq : Tendsto (fun p : ℝ => √(1 - p)) (𝓝[>] 0) (𝓝 1) := by
    have : Continuous (fun p : ℝ => √(1 - p)) := by fun_prop
    have h := (this.tendsto 0).mono_left (nhdsWithin_le_nhds (s := Set.Ioi 0))
    simpa using h
  have h2 : Tendsto (fun p : ℝ => log (1 + √(1 - p)) / √(1 - p)) (𝓝[>] 0) (𝓝 (log 2)) := by
    have h := ((tendsto_const_nhds (x := (1:ℝ))).add hq).log (by norm_num)
    have h' := h.div hq one_ne_zero
    rw [div_one] at h'
    rw [show (1:ℝ) + 1 = 2 by norm_num] at h'
    exact h'
  have h3 : Tendsto (fun p : ℝ => log (1 / p) / 2 / √(1 - p) - log (1 / p) / 2) (𝓝[>] 0) (𝓝 0) := by
    have hk : Tendsto (fun p : ℝ => 1 / (√(1 - p) * (1 + √(1 - p)))) (𝓝[>] 0) (𝓝 (1 / 2)) := by
      have h := (tendsto_const_nhds (x := (1:ℝ))).div (hq.mul ((tendsto_const_nhds (x := (1:ℝ))).add hq)) (by norm_num)
      rw [show (1:ℝ) / (1 * (1 + 1)) = 1 / 2 by norm_num] at h
      exact h
    have h := (mul_log_tendsto.mul hk).div_const 2
    rw [zero_mul, zero_div] at h
    refine h.congr' ?_
    filter_upwards [Ioo_mem_nhdsGT (show (0:ℝ) < 1 by norm_num)] with p hp
    have hs : 0 < √(1 - p) := Real.sqrt_pos.2 (by linarith [hp.2])
    have hs2 : √(1 - p) ^ 2 = 1 - p := Real.sq_sqrt (by linarith [hp.2])
    have : p = 1 - √(1 - p) ^ 2 := by rw [hs2]; ring
    set q := √(1 - p) with hqd
    rw [mul_one_div]
    have hp' : p = (1 - q) * (1 + q) := by rw [this]; ring
    have e : p * log (1 / p) / (q * (1 + q)) = (1 - q) / q * log (1 / p) := by
      have h1q : 1 + q ≠ 0 := by positivity
      have : p * log (1 / p) / (q * (1 + q)) = (p / (1 + q)) / q * log (1 / p) := by field_simp
      rw [this]
      congr 2
      rw [div_eq_iff h1q]; exact hp'
    rw [e]
    field_simp
  have hsum := (h1.add h2).add h3
  have e4 : log 2 + log 2 + 0 = log 4 := by
    rw [add_zero, ← Real.log_mul (by norm_num) (by norm_num)]; norm_num
  rw [e4] at hsum
  refine hsum.congr' ?_
  filter_upwards [Ioo_mem_nhdsGT (show (0:ℝ) < 1 by norm_num)] with p hp
  have hc1 : Continuous (fun θ => (1 - sin θ) / √(ellD p θ)) :=
    Continuous.div (by fun_prop) (continuous_sqrt_ellD p) (fun θ => sqrt_ellD_ne hp.1 θ)
  have hc2 : Continuous (fun θ => sin θ / √(ellD p θ)) :=
    Continuous.div continuous_sin (continuous_sqrt_ellD p) (fun θ => sqrt_ellD_ne hp.1 θ)
  have hK : ellK p = (∫ θ in (0 : ℝ)..π / 2, (1 - sin θ) / √(ellD p θ)) + ∫ θ in (0 : ℝ)..π / 2, sin θ / √(ellD p θ) := by
    rw [← integral_add (hc1.intervalIntegrable _ _) (hc2.intervalIntegrable _ _)]
    refine integral_congr (fun θ _ => ?_)
    have hs := sqrt_ellD_ne hp.1 θ
    change 1 / √(ellD p θ) = _
    beta_reduce
    field_simp
    ring
  rw [hK, integral_sin_div hp.1 hp.2]
  ring

end Traceon
