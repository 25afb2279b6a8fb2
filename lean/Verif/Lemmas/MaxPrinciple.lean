import Verif.Spec.Region
import Verif.Props.Vacuum
import Verif.Lemmas.Gradient
import Mathlib.Analysis.Calculus.DerivativeTest

/-!
# The maximum principle for solutions of Laplace's equation
-/
namespace Traceon
open Spec V3 Filter Topology

/-- The second derivative at a maximum. -/
theorem second_le {g g' : ℝ → ℝ} {ε L : ℝ} (hε : 0 < ε) (h1 : ∀ t, |t| < ε → HasDerivAt g (g' t) t) (h2 : HasDerivAt g' L 0) (hm : IsLocalMax g 0) : L ≤ 0 := by
  by_contra hL
  push Not at hL
  have hev : ∀ᶠ t in 𝓝 (0 : ℝ), HasDerivAt g (g' t) t := by
    filter_upwards [Metric.ball_mem_nhds (0 : ℝ) hε] with t ht
    exact h1 t (by simpa using ht)
  have hd : deriv g =ᶠ[𝓝 0] g' := hev.mono fun t ht => ht.deriv
  have hdd : deriv (deriv g) 0 = L := by rw [hd.deriv_eq]; exact h2.deriv
  have h0 : deriv g 0 = 0 := hm.deriv_eq_zero
  have hc : ContinuousAt g 0 := (h1 0 (by simpa using hε)).continuousAt
  have hmin := isLocalMin_of_deriv_deriv_pos (by rw [hdd]; exact hL) h0 hc
  have hconst : g =ᶠ[𝓝 0] fun _ => g 0 := by
    filter_upwards [hm, hmin] with t a b
    exact le_antisymm a b
  have : deriv (deriv g) 0 = 0 := by
    have e : deriv g =ᶠ[𝓝 0] fun _ => 0 := by
      have := hconst.deriv
      simpa using this
    rw [e.deriv_eq]; simp
  linarith

theorem Spec.IsGradient.alongZero {f : V3 → ℝ} {g p : V3} (h : IsGradient f g p) (n : V3) :
    HasDerivAt (fun t : ℝ => f (p + t * n)) (dot g n) 0 := by
  rw [isGradient_iff] at h
  have hl : HasDerivAt (fun t : ℝ => ((p.x + t * n.x, p.y + t * n.y, p.z + t * n.z) : ℝ × ℝ × ℝ)) (n.x, n.y, n.z) 0 := by
    have key : ∀ a b : ℝ, HasDerivAt (fun t : ℝ => a + t * b) b 0 := fun a b => by
      simpa using ((hasDerivAt_id (0 : ℝ)).mul_const b).const_add a
    exact (key _ _).prodMk ((key _ _).prodMk (key _ _))
  have h' : HasFDerivAt (fun v : ℝ × ℝ × ℝ => f ⟨v.1, v.2.1, v.2.2⟩) (gradMap g) (p.x + 0 * n.x, p.y + 0 * n.y, p.z + 0 * n.z) := by simpa using h
  have := h'.comp_hasDerivAt (0 : ℝ) hl
  refine (this.congr_deriv ?_).congr_of_eventuallyEq ?_
  · simp [gradMap_apply, dot]
  · refine Filter.Eventually.of_forall fun t => ?_
    simp only [Function.comp]
    congr 1

theorem Spec.IsGradient.alongAt {f : V3 → ℝ} {g p n : V3} {t : ℝ} (h : IsGradient f g (p + t * n)) :
    HasDerivAt (fun t : ℝ => f (p + t * n)) (dot g n) t := by
  have := h.alongZero n
  have h2 : HasDerivAt (fun s : ℝ => f (p + t * n + s * n)) (dot g n) (t - t) := by simpa using this
  have h4 : HasDerivAt (fun s : ℝ => s - t) 1 t := (hasDerivAt_id t).sub_const t
  have h3 := HasDerivAt.comp (h := fun s : ℝ => s - t) t h2 h4
  rw [mul_one] at h3
  refine h3.congr_of_eventuallyEq (Filter.Eventually.of_forall fun s => ?_)
  simp only [Function.comp, id]
  congr 1
  ext <;> simp <;> ring

theorem Spec.IsGradient.continuousAt {f : V3 → ℝ} {g : V3} {v : ℝ × ℝ × ℝ} (h : IsGradient f g (pt v)) : ContinuousAt (fun w => f (pt w)) v := by
  rw [isGradient_iff] at h
  exact h.continuousAt

theorem Spec.Harmonic.continuousAt {f : V3 → ℝ} {v : ℝ × ℝ × ℝ} (h : Harmonic f (pt v)) : ContinuousAt (fun w => f (pt w)) v := by
  obtain ⟨G, ε, gx, gy, gz, hε, hG, -⟩ := h
  exact (hG (pt v) (by rw [show pt v - pt v = 0 by ext <;> simp]; simpa [V3.norm, dot] using hε)).continuousAt

theorem Spec.Harmonic.add {f g : V3 → ℝ} {p : V3} (h : Harmonic f p) (h' : Harmonic g p) : Harmonic (fun q => f q + g q) p := by
  obtain ⟨G, ε, gx, gy, gz, hε, hG, h1, h2, h3, h4⟩ := h
  obtain ⟨K, δ, kx, ky, kz, hδ, hK, k1, k2, k3, k4⟩ := h'
  exact ⟨fun q => G q + K q, min ε δ, gx + kx, gy + ky, gz + kz, lt_min hε hδ, fun q hq => (hG q (lt_of_lt_of_le hq (min_le_left _ _))).add (hK q (lt_of_lt_of_le hq (min_le_right _ _))),
    h1.add k1, h2.add k2, h3.add k3, by simp only [V3.add_x, V3.add_y, V3.add_z]; linarith⟩

theorem Spec.Harmonic.smul {f : V3 → ℝ} {p : V3} (h : Harmonic f p) (k : ℝ) : Harmonic (fun q => k * f q) p := by
  obtain ⟨G, ε, gx, gy, gz, hε, hG, h1, h2, h3, h4⟩ := h
  exact ⟨fun q => k * G q, ε, k * gx, k * gy, k * gz, hε, fun q hq => (hG q hq).smul k,
    h1.smul k, h2.smul k, h3.smul k, by simp only [V3.smul_x, V3.smul_y, V3.smul_z]; linear_combination k * h4⟩

theorem Spec.Harmonic.const (k : ℝ) (p : V3) : Harmonic (fun _ => k) p :=
  ⟨fun _ => 0, 1, 0, 0, 0, one_pos, fun q _ => IsGradient.const k q, IsGradient.const _ p, IsGradient.const _ p, IsGradient.const _ p, by simp⟩

/-- The strict form: a function whose Laplacian is positive has no interior maximum. -/
theorem no_interior_max {φ : V3 → ℝ} {v : ℝ × ℝ × ℝ} (h : Harmonic φ (pt v)) {k : ℝ} (hk : 0 < k)
    (hm : IsLocalMax (fun w : ℝ × ℝ × ℝ => φ (pt w) + k * (w.1 ^ 2 + w.2.1 ^ 2 + w.2.2 ^ 2)) v) : False := by
  obtain ⟨G, ε, gx, gy, gz, hε, hG, h1, h2, h3, h4⟩ := h
  have key : ∀ n : V3, dot n n = 1 → ∀ L, HasDerivAt (fun t : ℝ => dot (G (pt v + t * n)) n) L 0 → L + 2 * k ≤ 0 := by
    intro n hn L hL
    have hnn : V3.norm n = 1 := by unfold V3.norm; rw [hn, Real.sqrt_one]
    set g : ℝ → ℝ := fun t => φ (pt v + t * n) + k * dot (pt v + t * n) (pt v + t * n) with hg
    have hdot : ∀ t : ℝ, dot (pt v + t * n) (pt v + t * n) = dot (pt v) (pt v) + 2 * t * dot (pt v) n + t ^ 2 := by
      intro t
      have : dot (pt v + t * n) (pt v + t * n) = dot (pt v) (pt v) + 2 * t * dot (pt v) n + t ^ 2 * dot n n := by
        simp only [dot, V3.add_x, V3.add_y, V3.add_z, V3.smul_x, V3.smul_y, V3.smul_z]; ring
      rw [this, hn, mul_one]
    refine second_le (g := g) (g' := fun t => dot (G (pt v + t * n)) n + k * (2 * dot (pt v) n + 2 * t)) hε ?_ ?_ ?_
    · intro t ht
      have hn2 : V3.norm (pt v + t * n - pt v) < ε := by
        have : pt v + t * n - pt v = t * n := by ext <;> simp
        rw [this]
        have e : V3.norm (t * n) = |t| := by
          unfold V3.norm
          rw [show dot (t * n) (t * n) = t ^ 2 * dot n n by simp only [dot, V3.smul_x, V3.smul_y, V3.smul_z]; ring, hn, mul_one, Real.sqrt_sq_eq_abs]
        rw [e]; exact ht
      have d1 := (hG _ hn2).alongAt
      have d2 : HasDerivAt (fun t : ℝ => k * dot (pt v + t * n) (pt v + t * n)) (k * (2 * dot (pt v) n + 2 * t)) t := by
        simp only [hdot]
        refine HasDerivAt.const_mul k ?_
        have a1 := ((hasDerivAt_id t).const_mul 2).mul_const (dot (pt v) n)
        have a2 := (hasDerivAt_pow 2 t)
        have := (a1.const_add (dot (pt v) (pt v))).add a2
        refine (this.congr_deriv ?_)
        simp
      exact d1.add d2
    · have d2 : HasDerivAt (fun t : ℝ => k * (2 * dot (pt v) n + 2 * t)) (k * 2) 0 := by
        refine HasDerivAt.const_mul k ?_
        simpa using ((hasDerivAt_id (0 : ℝ)).const_mul 2).const_add (2 * dot (pt v) n)
      exact (hL.add d2).congr_deriv (by ring)
    · have hc : ContinuousAt (fun t : ℝ => ((v.1 + t * n.x, v.2.1 + t * n.y, v.2.2 + t * n.z) : ℝ × ℝ × ℝ)) 0 := by fun_prop
      have ht : Tendsto (fun t : ℝ => ((v.1 + t * n.x, v.2.1 + t * n.y, v.2.2 + t * n.z) : ℝ × ℝ × ℝ)) (𝓝 0) (𝓝 v) := by
        simpa using hc.tendsto
      have := ht.eventually hm
      refine this.mono fun t h => ?_
      have e : ∀ t, g t = φ (pt (v.1 + t * n.x, v.2.1 + t * n.y, v.2.2 + t * n.z)) + k * ((v.1 + t * n.x) ^ 2 + (v.2.1 + t * n.y) ^ 2 + (v.2.2 + t * n.z) ^ 2) := by
        intro t
        rw [hg]
        simp only [dot, pt, V3.add_x, V3.add_y, V3.add_z, V3.smul_x, V3.smul_y, V3.smul_z]
        congr 1
        ring
      rw [e t, e 0]
      simpa using h
  have c1 := key ⟨1, 0, 0⟩ (by simp [dot]) gx.x (by simpa [dot] using h1.alongZero ⟨1, 0, 0⟩)
  have c2 := key ⟨0, 1, 0⟩ (by simp [dot]) gy.y (by simpa [dot] using h2.alongZero ⟨0, 1, 0⟩)
  have c3 := key ⟨0, 0, 1⟩ (by simp [dot]) gz.z (by simpa [dot] using h3.alongZero ⟨0, 0, 1⟩)
  linarith

/-- The maximum principle. -/
theorem max_principle {φ : V3 → ℝ} {K : Set (ℝ × ℝ × ℝ)} (hK : IsCompact K) (hc : ContinuousOn (fun w => φ (pt w)) K) (hh : ∀ v ∈ interior K, Harmonic φ (pt v))
    {v : ℝ × ℝ × ℝ} (hv : v ∈ K) : ∃ w ∈ frontier K, φ (pt v) ≤ φ (pt w) := by
  by_contra hcon
  push Not at hcon
  have hfc : IsCompact (frontier K) := hK.of_isClosed_subset isClosed_frontier hK.isClosed.frontier_subset
  -- a small multiple of the square of the distance keeps the maximum away from the boundary
  obtain ⟨R, hR⟩ : ∃ R, ∀ w ∈ K, w.1 ^ 2 + w.2.1 ^ 2 + w.2.2 ^ 2 ≤ R := by
    obtain ⟨R, hR⟩ := hK.exists_bound_of_continuousOn (f := fun w : ℝ × ℝ × ℝ => w.1 ^ 2 + w.2.1 ^ 2 + w.2.2 ^ 2) (by fun_prop)
    exact ⟨R, fun w hw => (le_abs_self _).trans (hR w hw)⟩
  have hR0 : 0 ≤ R := le_trans (by positivity) (hR v hv)
  obtain ⟨k, hk, hlt⟩ : ∃ k > 0, ∀ w ∈ frontier K, φ (pt w) + k * (w.1 ^ 2 + w.2.1 ^ 2 + w.2.2 ^ 2) < φ (pt v) := by
    rcases (frontier K).eq_empty_or_nonempty with he | hne
    · exact ⟨1, one_pos, fun w hw => by rw [he] at hw; exact absurd hw (Set.notMem_empty w)⟩
    · obtain ⟨m, hm, hmax⟩ := hfc.exists_isMaxOn hne (hc.mono hK.isClosed.frontier_subset)
      have hd := hcon m hm
      refine ⟨(φ (pt v) - φ (pt m)) / (2 * (R + 1)), by apply div_pos <;> linarith, fun w hw => ?_⟩
      have h1 : φ (pt w) ≤ φ (pt m) := hmax hw
      have h2 := hR w (hK.isClosed.frontier_subset hw)
      have h3 : (φ (pt v) - φ (pt m)) / (2 * (R + 1)) * (w.1 ^ 2 + w.2.1 ^ 2 + w.2.2 ^ 2) ≤ (φ (pt v) - φ (pt m)) / (2 * (R + 1)) * R :=
        mul_le_mul_of_nonneg_left h2 (by apply div_nonneg <;> linarith)
      have h4 : (φ (pt v) - φ (pt m)) / (2 * (R + 1)) * R ≤ (φ (pt v) - φ (pt m)) / 2 := by
        rw [div_mul_eq_mul_div, div_le_div_iff₀ (by linarith) (by norm_num)]
        nlinarith
      linarith
  have hc' : ContinuousOn (fun w : ℝ × ℝ × ℝ => φ (pt w) + k * (w.1 ^ 2 + w.2.1 ^ 2 + w.2.2 ^ 2)) K := hc.add (by fun_prop)
  obtain ⟨m, hm, hmax⟩ := hK.exists_isMaxOn ⟨v, hv⟩ hc'
  have hmi : m ∈ interior K := by
    by_contra hni
    have hmf : m ∈ frontier K := by rw [hK.isClosed.frontier_eq]; exact ⟨hm, hni⟩
    have a1 := hlt m hmf
    have a2 : φ (pt v) + k * (v.1 ^ 2 + v.2.1 ^ 2 + v.2.2 ^ 2) ≤ φ (pt m) + k * (m.1 ^ 2 + m.2.1 ^ 2 + m.2.2 ^ 2) := hmax hv
    have a3 : 0 ≤ k * (v.1 ^ 2 + v.2.1 ^ 2 + v.2.2 ^ 2) := by positivity
    linarith
  exact no_interior_max (hh m hmi) hk (hmax.isLocalMax (mem_interior_iff_mem_nhds.1 hmi))

theorem extremes_of_harmonic {φ : V3 → ℝ} {K : Set (ℝ × ℝ × ℝ)} (hK : IsCompact K) (hc : ContinuousOn (fun w => φ (pt w)) K) (hh : ∀ v ∈ interior K, Harmonic φ (pt v)) :
    ExtremesOnBoundary K φ := by
  intro v hv
  obtain ⟨b, hb, h1⟩ := max_principle hK hc hh hv
  obtain ⟨a, ha, h2⟩ := max_principle (φ := fun q => -1 * φ q) hK (continuousOn_const.mul hc) (fun w hw => (hh w hw).smul (-1)) hv
  exact ⟨a, ha, b, hb, by linarith, h1⟩

end Traceon
