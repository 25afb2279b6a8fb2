import Verif.Lemmas.Elliptic2
import Verif.Lemmas.EllipticCertK
import Verif.Lemmas.EllipticCertE
import Verif.Lemmas.EllipticCertR
import Verif.Model.Charges
import Mathlib.Analysis.Real.Pi.Bounds

/-!
# The error of the elliptic integrals of elliptic.c

The differential equation `(p (1 - p) K')' = K / 4` has a maximum principle. It turns the bound for the
residual of the reference approximation into a bound for its distance to K.
-/
namespace Traceon
open Real Spec Filter Topology

/-- One side of the maximum principle. -/
theorem maxPrinciple_le {e g ρ : ℝ → ℝ} {δ M : ℝ} (hδ : 4 * δ ≤ M) (hM : 0 ≤ M)
    (he : ∀ p, 0 < p → p < 1 → HasDerivAt e (g p / (p * (1 - p))) p)
    (hg : ∀ p, 0 < p → p < 1 → HasDerivAt g (e p / 4 + ρ p) p)
    (hρ : ∀ p, 0 < p → p < 1 → -δ ≤ ρ p)
    (h0 : Tendsto e (𝓝[>] 0) (𝓝 0)) (h1 : ContinuousAt e 1) (hm : e 1 ≤ M) :
    ∀ p, 0 < p → p ≤ 1 → e p ≤ M := by
  intro p0 hp0 hp01
  by_contra hcon
  push Not at hcon
  have hcont : ContinuousOn (Function.update e 0 0) (Set.Icc 0 1) := by
    intro x hx
    rcases eq_or_lt_of_le hx.1 with h | h
    · subst h
      rw [continuousWithinAt_update_same]
      refine h0.mono_left (nhdsWithin_mono _ ?_)
      intro y hy
      exact lt_of_le_of_ne hy.1.1 (fun h => hy.2 h.symm)
    · rw [continuousWithinAt_update_of_ne h.ne']
      rcases eq_or_lt_of_le hx.2 with h2 | h2
      · rw [h2]; exact h1.continuousWithinAt
      · exact (he x h h2).continuousAt.continuousWithinAt
  obtain ⟨q, hq, hmax⟩ := isCompact_Icc.exists_isMaxOn (Set.nonempty_Icc.2 zero_le_one) hcont
  have hup : ∀ x, 0 < x → Function.update e 0 0 x = e x := fun x hx => Function.update_of_ne hx.ne' _ _
  have hqM : M < Function.update e 0 0 q := by
    have := hmax ⟨hp0.le, hp01⟩
    rw [Set.mem_ofPred_eq, hup _ hp0] at this
    linarith
  have hq0 : 0 < q := by
    rcases eq_or_lt_of_le hq.1 with h | h
    · rw [← h, Function.update_self] at hqM; linarith
    · exact h
  rw [hup _ hq0] at hqM
  have hq1 : q < 1 := by
    rcases eq_or_lt_of_le hq.2 with h | h
    · rw [h] at hqM; linarith
    · exact h
  have hmax' : ∀ x, 0 < x → x ≤ 1 → e x ≤ e q := by
    intro x hx hx1
    have := hmax ⟨hx.le, hx1⟩
    rwa [Set.mem_ofPred_eq, hup _ hx, hup _ hq0] at this
  have hloc : IsLocalMax e q := by
    filter_upwards [Ioo_mem_nhds hq0 hq1] with x hx using hmax' x hx.1 hx.2.le
  have hgq : g q = 0 := by
    have := hloc.hasDerivAt_eq_zero (he q hq0 hq1)
    have hne : q * (1 - q) ≠ 0 := mul_ne_zero hq0.ne' (by linarith)
    rcases div_eq_zero_iff.1 this with h | h
    · exact h
    · exact absurd h hne
  have hev : ∀ᶠ x in 𝓝 q, M < e x := (he q hq0 hq1).continuousAt.eventually (lt_mem_nhds hqM)
  obtain ⟨η, hη, hball⟩ := Metric.eventually_nhds_iff.1 hev
  set r := min (q + η / 2) ((q + 1) / 2) with hr
  have hqr : q < r := lt_min (by linarith) (by linarith)
  have hr1 : r < 1 := lt_of_le_of_lt (min_le_right _ _) (by linarith)
  have hin : ∀ x ∈ Set.Icc q r, M < e x := by
    intro x hx
    apply hball
    rw [Real.dist_eq, abs_lt]
    have := min_le_left (q + η / 2) ((q + 1) / 2)
    constructor <;> linarith [hx.1, hx.2]
  have hgm : StrictMonoOn g (Set.Icc q r) := by
    apply strictMonoOn_of_deriv_pos (convex_Icc _ _)
    · intro x hx
      exact (hg x (by linarith [hx.1]) (by linarith [hx.2])).continuousAt.continuousWithinAt
    · intro x hx
      rw [interior_Icc] at hx
      have hx0 : 0 < x := by linarith [hx.1]
      have hx1 : x < 1 := by linarith [hx.2]
      rw [(hg x hx0 hx1).deriv]
      have := hin x ⟨hx.1.le, hx.2.le⟩
      have := hρ x hx0 hx1
      linarith
  have hem : StrictMonoOn e (Set.Icc q r) := by
    apply strictMonoOn_of_deriv_pos (convex_Icc _ _)
    · intro x hx
      exact (he x (by linarith [hx.1]) (by linarith [hx.2])).continuousAt.continuousWithinAt
    · intro x hx
      rw [interior_Icc] at hx
      have hx0 : 0 < x := by linarith [hx.1]
      have hx1 : x < 1 := by linarith [hx.2]
      rw [(he x hx0 hx1).deriv]
      have := hgm ⟨le_rfl, hqr.le⟩ ⟨hx.1.le, hx.2.le⟩ hx.1
      rw [hgq] at this
      exact div_pos this (mul_pos hx0 (by linarith))
  have h1 := hem ⟨le_rfl, hqr.le⟩ ⟨hqr.le, le_rfl⟩ hqr
  have h2 := hmax' r (by linarith) hr1.le
  linarith

/-- The maximum principle with both sides, and the bound for the flux. -/
theorem maxPrinciple {e g ρ : ℝ → ℝ} {δ M : ℝ} (hδ : 4 * δ ≤ M) (hM : 0 ≤ M)
    (he : ∀ p, 0 < p → p < 1 → HasDerivAt e (g p / (p * (1 - p))) p)
    (hg : ∀ p, 0 < p → p < 1 → HasDerivAt g (e p / 4 + ρ p) p)
    (hρ : ∀ p, 0 < p → p < 1 → |ρ p| ≤ δ)
    (h0 : Tendsto e (𝓝[>] 0) (𝓝 0)) (h1 : ContinuousAt e 1) (hm : |e 1| ≤ M) :
    ∀ p, 0 < p → p ≤ 1 → |e p| ≤ M := by
  intro p hp hp1
  rw [abs_le]
  constructor
  · have := maxPrinciple_le (e := fun p => -e p) (g := fun p => -g p) (ρ := fun p => -ρ p) hδ hM
      (fun p hp hp1 => ((he p hp hp1).neg).congr_deriv (by ring))
      (fun p hp hp1 => ((hg p hp hp1).neg).congr_deriv (by ring))
      (fun p hp hp1 => by have := (abs_le.1 (hρ p hp hp1)).2; linarith)
      (by simpa using h0.neg) h1.neg (by have := (abs_le.1 hm).1; linarith) p hp hp1
    linarith
  · exact maxPrinciple_le hδ hM he hg (fun p hp hp1 => (abs_le.1 (hρ p hp hp1)).1) h0 h1 (abs_le.1 hm).2 p hp hp1

theorem flux_bound {g g' : ℝ → ℝ} {C : ℝ} (hg : ∀ p, 0 < p → p < 1 → HasDerivAt g (g' p) p)
    (hb : ∀ p, 0 < p → p < 1 → |g' p| ≤ C) (h0 : Tendsto g (𝓝[>] 0) (𝓝 0)) :
    ∀ p, 0 < p → p < 1 → |g p| ≤ C * p := by
  intro p hp hp1
  have h : ∀ s ∈ Set.Ioo 0 p, |g p - g s| ≤ C * (p - s) := by
    intro s hs
    have := (convex_Icc s p).norm_image_sub_le_of_norm_hasDerivWithin_le (f := g) (f' := g') (C := C) (x := s) (y := p)
      (fun x hx => (hg x (by linarith [hx.1, hs.1]) (by linarith [hx.2])).hasDerivWithinAt)
      (fun x hx => by rw [Real.norm_eq_abs]; exact hb x (by linarith [hx.1, hs.1]) (by linarith [hx.2]))
      ⟨le_rfl, hs.2.le⟩ ⟨hs.2.le, le_rfl⟩
    rwa [Real.norm_eq_abs, Real.norm_eq_abs, abs_of_pos (show 0 < p - s by linarith [hs.2])] at this
  have hl : Tendsto (fun s => |g p - g s|) (𝓝[>] 0) (𝓝 |g p - 0|) := (tendsto_const_nhds.sub h0).abs
  have hr : Tendsto (fun s => C * (p - s)) (𝓝[>] 0) (𝓝 (C * (p - 0))) := by
    have : Continuous (fun s => C * (p - s)) := by fun_prop
    exact (this.tendsto 0).mono_left nhdsWithin_le_nhds
  have := le_of_tendsto_of_tendsto hl hr (by
    filter_upwards [Ioo_mem_nhdsGT hp] with s hs using h s hs)
  simpa using this

end Traceon
