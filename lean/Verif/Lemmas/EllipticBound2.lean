import Verif.Lemmas.EllipticBound

/-!
# The error of the elliptic integrals of elliptic.c: the two bounds
-/
namespace Traceon
open Real Spec Filter Topology Cert

/-- The distance of the number used for `log 4` to `log 4`. -/
noncomputable def c0 : ℝ := log 4 - 138629436111989061883446424 / 10 ^ 26

theorem c0_bound : |c0| ≤ 1 / 10 ^ 20 := by
  have h := log_two_near
  have e : log 4 = 2 * log 2 := by
    rw [show (4:ℝ) = 2 ^ 2 by norm_num, Real.log_pow]; norm_num
  have e2 : c0 = 2 * (log 2 - ln2 / den) := by
    unfold c0 ln2 den; rw [e]; push_cast; ring
  rw [e2, abs_mul, abs_of_pos (by norm_num : (0:ℝ) < 2)]
  linarith

/-- The reference approximation of K. -/
noncomputable def refK (p : ℝ) : ℝ := c0 + (pe starA p + log (1 / p) * pe starB p) / den
/-- `p (1 - p)` times its derivative. -/
noncomputable def refF (p : ℝ) : ℝ := (pe (flux starA) p + (p - 1) * pe starB p + log (1 / p) * pe (flux starB) p) / den
/-- The residual. -/
noncomputable def refR (p : ℝ) : ℝ := ((pe resA p + log (1 / p) * pe resB p) / den - c0) / 4

theorem pe_flux (P : List ℤ) (p : ℝ) : pe (flux P) p = p * (1 - p) * pe (pderiv P) p := by
  unfold flux
  rw [pe_pmul]
  simp only [pe]
  push_cast
  ring

theorem hasDerivAt_logInv {p : ℝ} (hp : 0 < p) : HasDerivAt (fun p : ℝ => log (1 / p)) (-1 / p) p := by
  have h := (hasDerivAt_log hp.ne').neg
  have e : (fun p : ℝ => log (1 / p)) = fun p => -log p := by
    funext x; rw [one_div, Real.log_inv]
  rw [e]
  refine h.congr_deriv ?_
  ring

theorem hasDerivAt_refK {p : ℝ} (hp : 0 < p) (h1 : p ≠ 1) : HasDerivAt refK (refF p / (p * (1 - p))) p := by
  have h := (((hasDerivAt_pe starA p).add ((hasDerivAt_logInv hp).mul (hasDerivAt_pe starB p))).div_const (den : ℝ)).const_add c0
  refine h.congr_deriv ?_
  have hne : 1 - p ≠ 0 := fun h => h1 (by linarith)
  unfold refF
  rw [pe_flux, pe_flux]
  field_simp
  ring

theorem continuousAt_refK {p : ℝ} (hp : 0 < p) : ContinuousAt refK p := by
  have h := (((hasDerivAt_pe starA p).add ((hasDerivAt_logInv hp).mul (hasDerivAt_pe starB p))).div_const (den : ℝ)).const_add c0
  exact h.continuousAt

theorem hasDerivAt_refF {p : ℝ} (hp : 0 < p) : HasDerivAt refF (refK p / 4 + refR p) p := by
  have h := (((hasDerivAt_pe (flux starA) p).add (((hasDerivAt_id p).sub_const 1).mul (hasDerivAt_pe starB p))).add
    ((hasDerivAt_logInv hp).mul (hasDerivAt_pe (flux starB) p))).div_const (den : ℝ)
  refine h.congr_deriv ?_
  unfold refK refR resA resB
  simp only [pe_padd, pe_psmul, pe_pmul]
  rw [pe_flux starB]
  simp only [pe, id]
  have hd : (den : ℝ) ≠ 0 := by unfold den; norm_num
  push_cast
  field_simp
  ring

theorem continuous_pe (P : List ℤ) : Continuous (pe P) :=
  continuous_iff_continuousAt.2 (fun x => (hasDerivAt_pe P x).continuousAt)

theorem pe_tendsto (P : List ℤ) : Tendsto (pe P) (𝓝[>] 0) (𝓝 (pe P 0)) :=
  ((continuous_pe P).tendsto 0).mono_left nhdsWithin_le_nhds

theorem errK_tendsto : Tendsto (fun p => refK p - ellK p) (𝓝[>] 0) (𝓝 0) := by
  have h1 := (pe_tendsto starA).div_const (den : ℝ)
  have h2 := (mul_log_tendsto.mul (pe_tendsto starB.tail)).div_const (den : ℝ)
  have h3 := ((h1.add h2).const_add c0).sub ellK_tendsto
  have e0 : c0 + (pe starA 0 / den + 0 * pe starB.tail 0 / den) - log 4 = 0 := by
    rw [zero_mul, zero_div, add_zero]
    unfold starA c0 den
    simp only [pe, zero_mul, add_zero]
    push_cast
    ring
  rw [e0] at h3
  refine h3.congr' ?_
  filter_upwards [self_mem_nhdsWithin] with p hp
  unfold refK
  have eb : pe starB p = den / 2 + p * pe starB.tail p := by
    unfold starB
    simp only [pe, List.tail]
    unfold den
    push_cast
    ring
  rw [eb]
  have hd : (den : ℝ) ≠ 0 := by unfold den; norm_num
  field_simp
  ring

theorem errF_tendsto : Tendsto (fun p => refF p - -(ellE p - p * ellK p) / 2) (𝓝[>] 0) (𝓝 0) := by
  have h1 := pe_tendsto (flux starA)
  have h2 : Tendsto (fun p => (p - 1) * pe starB p) (𝓝[>] 0) (𝓝 ((0 - 1) * pe starB 0)) := by
    have : Continuous (fun p => (p - 1) * pe starB p) := (by fun_prop : Continuous (fun p : ℝ => p - 1)).mul (continuous_pe _)
    exact (this.tendsto 0).mono_left nhdsWithin_le_nhds
  have h3 : Tendsto (fun p => (1 - p) * pe (pderiv starB) p) (𝓝[>] 0) (𝓝 ((1 - 0) * pe (pderiv starB) 0)) := by
    have : Continuous (fun p => (1 - p) * pe (pderiv starB) p) := (by fun_prop : Continuous (fun p : ℝ => 1 - p)).mul (continuous_pe _)
    exact (this.tendsto 0).mono_left nhdsWithin_le_nhds
  have h4 := (((h1.add h2).add (mul_log_tendsto.mul h3)).div_const (den : ℝ)).sub ((ellE_tendsto.sub mul_ellK_tendsto).neg.div_const 2)
  have e0 : (pe (flux starA) 0 + (0 - 1) * pe starB 0 + 0 * ((1 - 0) * pe (pderiv starB) 0)) / den - -(1 - 0) / 2 = 0 := by
    rw [pe_flux]
    unfold starB den
    simp only [pe, zero_mul, add_zero]
    push_cast
    norm_num
  rw [e0] at h4
  refine h4.congr (fun p => ?_)
  unfold refF
  rw [pe_flux starB]
  congr 2
  ring

theorem refR_bound {p : ℝ} (hp : 0 < p) (h1 : p ≤ 1) : |refR p| ≤ 1 / 10 ^ 14 / 2 := by
  have h := boundR hp h1
  have hc := c0_bound
  have hd : (0:ℝ) < den := by unfold den; norm_num
  have h2 : |(pe resA p + log (1 / p) * pe resB p) / den| ≤ 1 / 10 ^ 14 := by
    rw [abs_div, abs_of_pos hd, div_le_iff₀ hd]
    refine h.trans (le_of_eq ?_)
    push_cast
    norm_num
  unfold refR
  rw [abs_div, abs_of_pos (by norm_num : (0:ℝ) < 4), div_le_iff₀ (by norm_num)]
  refine (abs_sub _ _).trans ?_
  refine (add_le_add h2 hc).trans ?_
  norm_num

theorem errK_one : |refK 1 - ellK 1| ≤ 2 / 10 ^ 14 := by
  have hc := abs_le.1 c0_bound
  have hpi1 := Real.pi_gt_d20
  have hpi2 := Real.pi_lt_d20
  have e : refK 1 = c0 + 157079632679489661923132168 / 10 ^ 26 := by
    unfold refK starA den
    rw [div_one, Real.log_one, zero_mul, add_zero]
    simp only [pe]
    push_cast
    norm_num
  rw [e, ellK_one, abs_le]
  constructor <;> linarith [hc.1, hc.2]

theorem errK {p : ℝ} (hp : 0 < p) (h1 : p ≤ 1) : |refK p - ellK p| ≤ 2 / 10 ^ 14 := by
  refine maxPrinciple (e := fun p => refK p - ellK p) (g := fun p => refF p - -(ellE p - p * ellK p) / 2) (ρ := refR)
    (δ := 1 / 10 ^ 14 / 2) (M := 2 / 10 ^ 14) (by norm_num) (by norm_num) ?_ ?_ ?_ errK_tendsto ?_ errK_one p hp h1
  · intro p hp h1
    refine ((hasDerivAt_refK hp h1.ne).sub (hasDerivAt_ellK hp h1.ne)).congr_deriv ?_
    have : 1 - p ≠ 0 := by linarith
    field_simp
  · intro p hp h1
    refine ((hasDerivAt_refF hp).sub (hasDerivAt_fluxK hp h1.ne)).congr_deriv ?_
    ring
  · intro p hp h1
    exact refR_bound hp h1.le
  · exact (continuousAt_refK one_pos).sub (hasDerivAt_ellK' one_pos).continuousAt

theorem errF {p : ℝ} (hp : 0 < p) (h1 : p < 1) : |refF p - -(ellE p - p * ellK p) / 2| ≤ 1 / 10 ^ 14 := by
  have h := flux_bound (g := fun p => refF p - -(ellE p - p * ellK p) / 2) (g' := fun p => (refK p - ellK p) / 4 + refR p)
    (C := 1 / 10 ^ 14) ?_ ?_ errF_tendsto p hp h1
  · refine h.trans ?_
    nlinarith
  · intro p hp h1
    refine ((hasDerivAt_refF hp).sub (hasDerivAt_fluxK hp h1.ne)).congr_deriv ?_
    ring
  · intro p hp h1
    have a := errK hp h1.le
    have b := refR_bound hp h1.le
    rw [abs_le] at *
    constructor <;> linarith [a.1, a.2, b.1, b.2]

theorem ellipkm1_eq (p : ℝ) : ellipkm1 p = c0 + (pe codeKA p + log (1 / p) * pe codeKB p) / den := by
  unfold ellipkm1 chebSum codeKA codeKB den c0
  simp only [pe, List.length_cons, List.length_nil, List.range_succ_eq_map, List.range_zero, List.map_cons, List.map_nil,
    List.zip_cons_cons, List.zip_nil_left, List.foldl_cons, List.foldl_nil]
  push_cast
  ring

theorem ellipem1_eq (p : ℝ) : ellipem1 p = (pe codeEA p + log (1 / p) * pe codeEB p) / den := by
  unfold ellipem1 chebSum codeEA codeEB den
  simp only [pe, List.length_cons, List.length_nil, List.range_succ_eq_map, List.range_zero, List.map_cons, List.map_nil,
    List.zip_cons_cons, List.zip_nil_left, List.foldl_cons, List.foldl_nil]
  push_cast
  ring

/-- `ellipkm1` is within `6·10⁻¹³` of the elliptic integral. -/
theorem ellipkm1_accurate {p : ℝ} (hp : 0 < p) (h1 : p ≤ 1) : |ellipkm1 p - ellK p| ≤ 6 / 10 ^ 13 := by
  have h := boundK hp h1
  have hK := errK hp h1
  have hd : (0:ℝ) < den := by unfold den; norm_num
  have e : ellipkm1 p - ellK p = (pe difA p + log (1 / p) * pe difB p) / den + (refK p - ellK p) := by
    rw [ellipkm1_eq]
    unfold refK difA difB
    simp only [pe_padd, pe_psmul]
    push_cast
    field_simp
    ring
  have h2 : |(pe difA p + log (1 / p) * pe difB p) / den| ≤ 5 / 10 ^ 13 := by
    rw [abs_div, abs_of_pos hd, div_le_iff₀ hd]
    refine h.trans (le_of_eq ?_)
    push_cast
    norm_num
  rw [e]
  refine (abs_add_le _ _).trans ?_
  linarith

/-- `ellipem1` is within `6·10⁻¹³` of the elliptic integral. -/
theorem ellipem1_accurate {p : ℝ} (hp : 0 < p) (h1 : p ≤ 1) : |ellipem1 p - ellE p| ≤ 6 / 10 ^ 13 := by
  have h := boundE hp h1
  have hd : (0:ℝ) < den := by unfold den; norm_num
  have h2 : |(pe difEA p + log (1 / p) * pe difEB p) / den| ≤ 5 / 10 ^ 13 := by
    rw [abs_div, abs_of_pos hd, div_le_iff₀ hd]
    refine h.trans (le_of_eq ?_)
    push_cast
    norm_num
  rcases eq_or_lt_of_le h1 with rfl | hlt
  · have hpi1 := Real.pi_gt_d20
    have hpi2 := Real.pi_lt_d20
    rw [ellipem1_eq, ellE_one, div_one, Real.log_one, zero_mul, add_zero, abs_le]
    unfold codeEA den
    simp only [pe]
    push_cast
    constructor <;> norm_num <;> linarith
  have hK := errK hp h1
  have hF := errF hp hlt
  have hc := c0_bound
  have e : ellipem1 p - ellE p = (pe difEA p + log (1 / p) * pe difEB p) / den - p * c0 + p * (refK p - ellK p)
      - 2 * (refF p - -(ellE p - p * ellK p) / 2) := by
    rw [ellipem1_eq]
    unfold refK refF difEA difEB
    simp only [pe_padd, pe_psmul, pe_pmul, pe]
    push_cast
    field_simp
    ring
  have hpc : |p * c0| ≤ 1 / 10 ^ 20 := by
    rw [abs_mul, abs_of_pos hp]
    nlinarith [abs_nonneg c0]
  have hpk : |p * (refK p - ellK p)| ≤ 2 / 10 ^ 14 := by
    rw [abs_mul, abs_of_pos hp]
    nlinarith [abs_nonneg (refK p - ellK p)]
  rw [e]
  rw [abs_le] at *
  constructor <;> linarith [h2.1, h2.2, hpc.1, hpc.2, hpk.1, hpk.2, hF.1, hF.2]

end Traceon
