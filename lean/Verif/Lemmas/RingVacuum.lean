import Verif.Props.GaussRadial

/-!
# Differentiation of the fields of charged and of current rings under the integral sign
-/
namespace Traceon
open Spec V3 Real MeasureTheory

namespace RV

/-- A function of the position, integrated over a parameter. -/
theorem isGradient_integral {p : V3} {ε : ℝ} (hε : 0 < ε) {f : V3 → ℝ → ℝ} {g : V3 → ℝ → V3} {a b : ℝ}
    (hfc : ∀ v ∈ Metric.ball (p.x, p.y, p.z) ε, Continuous (f ⟨v.1, v.2.1, v.2.2⟩))
    (hd : ∀ v ∈ Metric.ball (p.x, p.y, p.z) ε, ∀ φ, IsGradient (fun q => f q φ) (g ⟨v.1, v.2.1, v.2.2⟩ φ) ⟨v.1, v.2.1, v.2.2⟩)
    (cx : ContinuousOn (fun w : (ℝ × ℝ × ℝ) × ℝ => (g ⟨w.1.1, w.1.2.1, w.1.2.2⟩ w.2).x) (Metric.ball (p.x, p.y, p.z) ε ×ˢ Set.univ))
    (cy : ContinuousOn (fun w : (ℝ × ℝ × ℝ) × ℝ => (g ⟨w.1.1, w.1.2.1, w.1.2.2⟩ w.2).y) (Metric.ball (p.x, p.y, p.z) ε ×ˢ Set.univ))
    (cz : ContinuousOn (fun w : (ℝ × ℝ × ℝ) × ℝ => (g ⟨w.1.1, w.1.2.1, w.1.2.2⟩ w.2).z) (Metric.ball (p.x, p.y, p.z) ε ×ˢ Set.univ)) :
    IsGradient (fun q => ∫ φ in a..b, f q φ) ⟨∫ φ in a..b, (g p φ).x, ∫ φ in a..b, (g p φ).y, ∫ φ in a..b, (g p φ).z⟩ p := by
  set s := Metric.ball (p.x, p.y, p.z) (ε / 2) with hs
  have hsub : Metric.closedBall (p.x, p.y, p.z) (ε / 2) ⊆ Metric.ball (p.x, p.y, p.z) ε := Metric.closedBall_subset_ball (by linarith)
  let F : ℝ × ℝ × ℝ → ℝ → ℝ := fun v φ => f ⟨v.1, v.2.1, v.2.2⟩ φ
  let G : ℝ × ℝ × ℝ → ℝ → V3 := fun v φ => g ⟨v.1, v.2.1, v.2.2⟩ φ
  have hgc : ContinuousOn (fun w : (ℝ × ℝ × ℝ) × ℝ => gradMap (G w.1 w.2)) (Metric.ball (p.x, p.y, p.z) ε ×ˢ Set.univ) :=
    ((cx.smul continuousOn_const).add (cy.smul continuousOn_const)).add (cz.smul continuousOn_const)
  have hcompact : IsCompact (Metric.closedBall (p.x, p.y, p.z) (ε / 2) ×ˢ Set.uIcc a b) := (isCompact_closedBall _ _).prod isCompact_uIcc
  obtain ⟨C, hC⟩ := hcompact.exists_bound_of_continuousOn (hgc.mono (Set.prod_mono hsub (Set.subset_univ _)))
  have hgc' : Continuous (fun φ => gradMap (G (p.x, p.y, p.z) φ)) := by
    rw [← continuousOn_univ]
    exact hgc.comp (f := fun φ : ℝ => ((p.x, p.y, p.z), φ)) (by fun_prop) (fun φ _ => ⟨Metric.mem_ball_self hε, trivial⟩)
  have main := intervalIntegral.hasFDerivAt_integral_of_dominated_of_fderiv_le (𝕜 := ℝ) (μ := volume) (a := a) (b := b) (F := F) (F' := fun v φ => gradMap (G v φ))
    (x₀ := (p.x, p.y, p.z)) (s := s) (bound := fun _ => C) (Metric.ball_mem_nhds _ (by linarith)) ?_ ?_ ?_ ?_ ?_ ?_
  · have hval : ∫ φ in a..b, gradMap (G (p.x, p.y, p.z) φ) = gradMap ⟨∫ φ in a..b, (g p φ).x, ∫ φ in a..b, (g p φ).y, ∫ φ in a..b, (g p φ).z⟩ := by
      apply ContinuousLinearMap.ext
      intro w
      rw [ContinuousLinearMap.intervalIntegral_apply (hgc'.intervalIntegrable _ _)]
      have comp : ∀ e : ℝ × ℝ × ℝ, Continuous (fun φ => gradMap (G (p.x, p.y, p.z) φ) e) := fun e => hgc'.clm_apply continuous_const
      have cx : Continuous (fun φ => (G (p.x, p.y, p.z) φ).x) := by simpa [gradMap_apply] using comp (1, 0, 0)
      have cy : Continuous (fun φ => (G (p.x, p.y, p.z) φ).y) := by simpa [gradMap_apply] using comp (0, 1, 0)
      have cz : Continuous (fun φ => (G (p.x, p.y, p.z) φ).z) := by simpa [gradMap_apply] using comp (0, 0, 1)
      have mx : Continuous (fun φ => (G (p.x, p.y, p.z) φ).x * w.1) := cx.mul continuous_const
      have my : Continuous (fun φ => (G (p.x, p.y, p.z) φ).y * w.2.1) := cy.mul continuous_const
      have mz : Continuous (fun φ => (G (p.x, p.y, p.z) φ).z * w.2.2) := cz.mul continuous_const
      have mxy : Continuous (fun φ => (G (p.x, p.y, p.z) φ).x * w.1 + (G (p.x, p.y, p.z) φ).y * w.2.1) := mx.add my
      simp only [gradMap_apply]
      rw [intervalIntegral.integral_add (mxy.intervalIntegrable _ _) (mz.intervalIntegrable _ _),
        intervalIntegral.integral_add (mx.intervalIntegrable _ _) (my.intervalIntegrable _ _),
        intervalIntegral.integral_mul_const, intervalIntegral.integral_mul_const, intervalIntegral.integral_mul_const]
    rw [hval] at main
    rw [isGradient_iff]
    exact main
  · filter_upwards [Metric.ball_mem_nhds _ hε] with v hv
    exact (hfc v hv).aestronglyMeasurable
  · exact (hfc _ (Metric.mem_ball_self hε)).intervalIntegrable _ _
  · exact hgc'.aestronglyMeasurable
  · refine Filter.Eventually.of_forall (fun φ hφ v hv => ?_)
    exact hC (v, φ) ⟨Metric.ball_subset_closedBall hv, Set.uIoc_subset_uIcc hφ⟩
  · exact continuous_const.intervalIntegrable _ _
  · refine Filter.Eventually.of_forall (fun φ _ v hv => ?_)
    have h1 := hd v (hsub (Metric.ball_subset_closedBall hv)) φ
    rw [isGradient_iff] at h1
    exact h1

/-- The derivatives of the potential of a unit charge at `q`. -/
noncomputable def D (p q : V3) : V3 := ⟨dx1Potential3dPoint p q, dy1Potential3dPoint p q, dz1Potential3dPoint p q⟩

/-- The matrix of second derivatives applied to `w`. -/
noncomputable def H (p q w : V3) : V3 := (3 * dot (q - p) w / (4 * π * V3.norm (q - p) ^ 5)) * (q - p) + (-(1 / (4 * π * V3.norm (q - p) ^ 3))) * w

theorem grad_dir (q p w : V3) (h : q ≠ p) : IsGradient (fun p => dot w (D p q)) (H p q w) p := by
  refine ((((Vac.grad_x q p h).smul w.x).add ((Vac.grad_y q p h).smul w.y)).add ((Vac.grad_z q p h).smul w.z)).eq ?_
  unfold H
  ext <;> simp [dot] <;> ring

/-- The matrix is symmetric and has trace zero. -/
theorem H_sym (p q : V3) : (H p q ⟨1, 0, 0⟩).y = (H p q ⟨0, 1, 0⟩).x ∧ (H p q ⟨1, 0, 0⟩).z = (H p q ⟨0, 0, 1⟩).x ∧ (H p q ⟨0, 1, 0⟩).z = (H p q ⟨0, 0, 1⟩).y := by
  refine ⟨?_, ?_, ?_⟩ <;> simp [H, dot] <;> ring

theorem H_lin (p q w : V3) : H p q w = w.x * H p q ⟨1, 0, 0⟩ + w.y * H p q ⟨0, 1, 0⟩ + w.z * H p q ⟨0, 0, 1⟩ := by
  ext <;> simp [H, dot] <;> ring

theorem H_trace (p q : V3) (h : q ≠ p) : (H p q ⟨1, 0, 0⟩).x + (H p q ⟨0, 1, 0⟩).y + (H p q ⟨0, 0, 1⟩).z = 0 := by
  have hd : q - p ≠ 0 := fun h' => h (V3.sub_eq_zero.1 h')
  have hn := V3.norm_pos hd
  have hs : V3.norm (q - p) ^ 2 = (q.x - p.x) ^ 2 + (q.y - p.y) ^ 2 + (q.z - p.z) ^ 2 := by
    unfold V3.norm
    rw [Real.sq_sqrt (V3.dot_self_nonneg _)]
    simp [dot]; ring
  have hpi := Real.pi_pos
  simp only [H, dot, V3.add_x, V3.add_y, V3.add_z, V3.smul_x, V3.smul_y, V3.smul_z, V3.sub_x, V3.sub_y, V3.sub_z]
  generalize V3.norm (q - p) = N at hn hs
  field_simp
  linear_combination (-3) * hs

/-- Around a point off a ring. -/
theorem off_ball {p : V3} {r z : ℝ} (hr : 0 ≤ r) (hoff : OffRing p r z) : ∃ ε > 0, ∀ v ∈ Metric.ball (p.x, p.y, p.z) ε, OffRing ⟨v.1, v.2.1, v.2.2⟩ r z := by
  have hopen : IsOpen {v : ℝ × ℝ × ℝ | 0 < nearSq (norm2d v.1 v.2.1) v.2.2 r z} := by
    apply isOpen_lt continuous_const
    unfold nearSq norm2d
    fun_prop
  have hmem : (p.x, p.y, p.z) ∈ {v : ℝ × ℝ × ℝ | 0 < nearSq (norm2d v.1 v.2.1) v.2.2 r z} := (offRing_iff hr).1 hoff
  obtain ⟨ε, hε, hball⟩ := Metric.isOpen_iff.1 hopen _ hmem
  exact ⟨ε, hε, fun v hv => (offRing_iff hr).2 (hball hv)⟩

section
variable {r z : ℝ}

theorem norm_cont : Continuous (fun w : (ℝ × ℝ × ℝ) × ℝ => V3.norm (ringPoint r z w.2 - ⟨w.1.1, w.1.2.1, w.1.2.2⟩)) := by
  unfold V3.norm dot ringPoint
  simp only [sub_x, sub_y, sub_z]
  fun_prop

theorem H_cont {U : Set (ℝ × ℝ × ℝ)} (hU : ∀ v ∈ U, OffRing ⟨v.1, v.2.1, v.2.2⟩ r z) {t : ℝ → V3} (tx : Continuous fun φ => (t φ).x) (ty : Continuous fun φ => (t φ).y) (tz : Continuous fun φ => (t φ).z)
    {c : V3 → ℝ} (hc : ∀ (k : ℝ) (u v : V3) (l : ℝ), c (k * u + l * v) = k * c u + l * c v) (c1 : Continuous fun φ => c (t φ))
    (c2 : Continuous fun w : (ℝ × ℝ × ℝ) × ℝ => c (ringPoint r z w.2 - ⟨w.1.1, w.1.2.1, w.1.2.2⟩)) :
    ContinuousOn (fun w : (ℝ × ℝ × ℝ) × ℝ => c (H ⟨w.1.1, w.1.2.1, w.1.2.2⟩ (ringPoint r z w.2) (t w.2))) (U ×ˢ Set.univ) := by
  have hn : ∀ w ∈ U ×ˢ (Set.univ : Set ℝ), 0 < V3.norm (ringPoint r z w.2 - ⟨w.1.1, w.1.2.1, w.1.2.2⟩) := fun w hw =>
    V3.norm_pos fun h => hU w.1 hw.1 w.2 (V3.sub_eq_zero.1 h)
  have hpi := Real.pi_pos
  have hd : Continuous fun w : (ℝ × ℝ × ℝ) × ℝ => 3 * dot (ringPoint r z w.2 - ⟨w.1.1, w.1.2.1, w.1.2.2⟩) (t w.2) := by
    unfold dot ringPoint
    simp only [sub_x, sub_y, sub_z]
    have a1 : Continuous fun w : (ℝ × ℝ × ℝ) × ℝ => r * cos w.2 - w.1.1 := by fun_prop
    have a2 : Continuous fun w : (ℝ × ℝ × ℝ) × ℝ => r * sin w.2 - w.1.2.1 := by fun_prop
    have a3 : Continuous fun w : (ℝ × ℝ × ℝ) × ℝ => z - w.1.2.2 := by fun_prop
    exact continuous_const.mul (((a1.mul (tx.comp continuous_snd)).add (a2.mul (ty.comp continuous_snd))).add (a3.mul (tz.comp continuous_snd)))
  have d5 : Continuous fun w : (ℝ × ℝ × ℝ) × ℝ => 4 * π * V3.norm (ringPoint r z w.2 - ⟨w.1.1, w.1.2.1, w.1.2.2⟩) ^ 5 := continuous_const.mul (norm_cont.pow 5)
  have d3 : Continuous fun w : (ℝ × ℝ × ℝ) × ℝ => 4 * π * V3.norm (ringPoint r z w.2 - ⟨w.1.1, w.1.2.1, w.1.2.2⟩) ^ 3 := continuous_const.mul (norm_cont.pow 3)
  unfold H
  simp only [hc]
  have ct : Continuous fun w : (ℝ × ℝ × ℝ) × ℝ => c (t w.2) := c1.comp continuous_snd
  refine ContinuousOn.add (ContinuousOn.mul (ContinuousOn.div hd.continuousOn d5.continuousOn fun w hw => ?_) c2.continuousOn)
    (ContinuousOn.mul (ContinuousOn.neg (ContinuousOn.div continuousOn_const d3.continuousOn fun w hw => ?_)) ct.continuousOn)
  · have := hn w hw; positivity
  · have := hn w hw; positivity

/-- The integral over the ring of a combination of the derivatives of the potentials of its points. -/
theorem weighted {p : V3} (hr : 0 ≤ r) (hoff : OffRing p r z) {t : ℝ → V3} (tx : Continuous fun φ => (t φ).x) (ty : Continuous fun φ => (t φ).y) (tz : Continuous fun φ => (t φ).z) :
    IsGradient (fun q => ∫ φ in (0 : ℝ)..2 * π, dot (t φ) (D q (ringPoint r z φ)))
      ⟨∫ φ in (0 : ℝ)..2 * π, (H p (ringPoint r z φ) (t φ)).x, ∫ φ in (0 : ℝ)..2 * π, (H p (ringPoint r z φ) (t φ)).y, ∫ φ in (0 : ℝ)..2 * π, (H p (ringPoint r z φ) (t φ)).z⟩ p := by
  obtain ⟨ε, hε, hU⟩ := off_ball hr hoff
  refine isGradient_integral hε (f := fun q φ => dot (t φ) (D q (ringPoint r z φ))) (g := fun q φ => H q (ringPoint r z φ) (t φ)) (fun v hv => ?_) (fun v hv φ => grad_dir _ _ _ (hU v hv φ)) ?_ ?_ ?_
  · have hn : ∀ φ, 4 * π * V3.norm (ringPoint r z φ - ⟨v.1, v.2.1, v.2.2⟩) ^ 3 ≠ 0 := fun φ => by
      have := V3.norm_pos fun h => hU v hv φ (V3.sub_eq_zero.1 h)
      have := Real.pi_pos
      positivity
    have hc : Continuous fun φ => 4 * π * V3.norm (ringPoint r z φ - ⟨v.1, v.2.1, v.2.2⟩) ^ 3 :=
      continuous_const.mul ((norm_cont.comp (Continuous.prodMk (continuous_const (y := v)) continuous_id)).pow 3)
    unfold dot D dx1Potential3dPoint dy1Potential3dPoint dz1Potential3dPoint
    refine ((tx.mul (Continuous.div ?_ hc hn)).add (ty.mul (Continuous.div ?_ hc hn))).add (tz.mul (Continuous.div ?_ hc hn))
    all_goals unfold ringPoint; fun_prop
  · exact H_cont hU tx ty tz (c := V3.x) (fun k u v l => by simp) tx (by unfold ringPoint; simp only [sub_x]; fun_prop)
  · exact H_cont hU tx ty tz (c := V3.y) (fun k u v l => by simp) ty (by unfold ringPoint; simp only [sub_y]; fun_prop)
  · exact H_cont hU tx ty tz (c := V3.z) (fun k u v l => by simp) tz (by unfold ringPoint; simp only [sub_z]; fun_prop)

/-- The integrals of `H` can be combined. -/
theorem H_int {p : V3} (hoff : OffRing p r z) {t : ℝ → V3} (tx : Continuous fun φ => (t φ).x) (ty : Continuous fun φ => (t φ).y) (tz : Continuous fun φ => (t φ).z) :
    (Continuous fun φ => (H p (ringPoint r z φ) (t φ)).x) ∧ (Continuous fun φ => (H p (ringPoint r z φ) (t φ)).y) ∧ (Continuous fun φ => (H p (ringPoint r z φ) (t φ)).z) := by
  have hU : ∀ v ∈ ({(p.x, p.y, p.z)} : Set (ℝ × ℝ × ℝ)), OffRing ⟨v.1, v.2.1, v.2.2⟩ r z := fun v hv => by rw [Set.mem_singleton_iff.1 hv]; exact hoff
  have key : ∀ c : V3 → ℝ, ContinuousOn (fun w : (ℝ × ℝ × ℝ) × ℝ => c (H ⟨w.1.1, w.1.2.1, w.1.2.2⟩ (ringPoint r z w.2) (t w.2))) ({(p.x, p.y, p.z)} ×ˢ Set.univ) →
      Continuous fun φ => c (H p (ringPoint r z φ) (t φ)) := by
    intro c h
    rw [← continuousOn_univ]
    exact h.comp (f := fun φ : ℝ => ((p.x, p.y, p.z), φ)) (by fun_prop) (fun φ _ => ⟨rfl, trivial⟩)
  exact ⟨key _ (H_cont hU tx ty tz (c := V3.x) (fun k u v l => by simp) tx (by unfold ringPoint; simp only [sub_x]; fun_prop)),
    key _ (H_cont hU tx ty tz (c := V3.y) (fun k u v l => by simp) ty (by unfold ringPoint; simp only [sub_y]; fun_prop)),
    key _ (H_cont hU tx ty tz (c := V3.z) (fun k u v l => by simp) tz (by unfold ringPoint; simp only [sub_z]; fun_prop))⟩

end

/-- How the derivatives of the potential of a point of the ring change along the ring. -/
theorem D_along {p : V3} {r z : ℝ} (hoff : OffRing p r z) (w : V3) (φ : ℝ) :
    HasDerivAt (fun φ => dot w (D p (ringPoint r z φ))) (-dot (H p (ringPoint r z φ) w) ⟨-r * sin φ, r * cos φ, 0⟩) φ := by
  have e1 : ∀ q, D p q = D (p - q) 0 := fun q => by
    have hn : V3.norm (0 - (p - q)) = V3.norm (q - p) := by congr 1; ext <;> simp
    unfold D dx1Potential3dPoint dy1Potential3dPoint dz1Potential3dPoint
    rw [hn]; ext <;> simp
  have e2 : ∀ q, H (p - q) 0 w = H p q w := fun q => by
    have hn : (0 - (p - q) : V3) = q - p := by ext <;> simp
    unfold H; rw [hn]
  have hne : (0 : V3) ≠ p - ringPoint r z φ := fun h => hoff φ (V3.sub_eq_zero.1 h.symm).symm
  have hg := grad_dir 0 (p - ringPoint r z φ) w hne
  rw [isGradient_iff, e2] at hg
  have hl : HasDerivAt (fun φ : ℝ => ((p.x - r * cos φ, p.y - r * sin φ, p.z - z) : ℝ × ℝ × ℝ)) (r * sin φ, -(r * cos φ), 0) φ := by
    refine HasDerivAt.prodMk ?_ (HasDerivAt.prodMk ?_ (hasDerivAt_const φ _))
    · exact (((hasDerivAt_cos φ).const_mul r).const_sub p.x).congr_deriv (by ring)
    · exact ((hasDerivAt_sin φ).const_mul r).const_sub p.y
  have hg' : HasFDerivAt (fun v : ℝ × ℝ × ℝ => dot w (D ⟨v.1, v.2.1, v.2.2⟩ 0)) (gradMap (H p (ringPoint r z φ) w)) (p.x - r * cos φ, p.y - r * sin φ, p.z - z) := hg
  have := hg'.comp_hasDerivAt φ hl
  refine (this.congr_deriv ?_).congr_of_eventuallyEq (Filter.Eventually.of_forall fun s => ?_)
  · simp [gradMap_apply, dot]
    ring
  · simp only [Function.comp]
    rw [e1]
    rfl

theorem int3 {f g h : ℝ → ℝ} {a b : ℝ} (cf : Continuous f) (cg : Continuous g) (ch : Continuous h) (e : ∀ φ, f φ + g φ + h φ = 0) :
    (∫ φ in a..b, f φ) + (∫ φ in a..b, g φ) + ∫ φ in a..b, h φ = 0 := by
  have cfg : Continuous fun φ => f φ + g φ := cf.add cg
  rw [← intervalIntegral.integral_add (cf.intervalIntegrable _ _) (cg.intervalIntegrable _ _), ← intervalIntegral.integral_add (cfg.intervalIntegrable _ _) (ch.intervalIntegrable _ _)]
  simp [e]

theorem int2 {f g k : ℝ → ℝ} {a b : ℝ} (cf : Continuous f) (cg : Continuous g) (e : ∀ φ, f φ - g φ = k φ) :
    (∫ φ in a..b, f φ) - (∫ φ in a..b, g φ) = ∫ φ in a..b, k φ := by
  rw [← intervalIntegral.integral_sub (cf.intervalIntegrable _ _) (cg.intervalIntegrable _ _)]
  simp [e]

end RV

open RV

/-- The field of a charged ring satisfies the equations of a field in vacuum, also on the axis. -/
theorem coulombRing_vacuum {p : V3} {r z : ℝ} (hr : 0 ≤ r) (hoff : OffRing p r z) : VacuumField (coulombRing r z) p := by
  have k := fun v : V3 => H_int (t := fun _ => v) hoff continuous_const continuous_const continuous_const
  have w := fun v : V3 => weighted (t := fun _ => v) hr hoff continuous_const continuous_const continuous_const
  have e : coulombRing r z = fun q => ⟨∫ φ in (0 : ℝ)..2 * π, dot ⟨-r, 0, 0⟩ (D q (ringPoint r z φ)), ∫ φ in (0 : ℝ)..2 * π, dot ⟨0, -r, 0⟩ (D q (ringPoint r z φ)),
      ∫ φ in (0 : ℝ)..2 * π, dot ⟨0, 0, -r⟩ (D q (ringPoint r z φ))⟩ := by
    funext q
    rw [BoxFlux.coulombRing_unit]
    simp [BoxFlux.unit, dot, D]
  rw [e]
  refine ⟨_, _, _, w _, w _, w _, ?_, ?_, ?_, ?_⟩
  · refine int3 (k _).1 (k _).2.1 (k _).2.2 fun φ => ?_
    have h1 := H_trace p (ringPoint r z φ) (hoff φ)
    simp only [H_lin p _ ⟨-r, 0, 0⟩, H_lin p _ ⟨0, -r, 0⟩, H_lin p _ ⟨0, 0, -r⟩, V3.add_x, V3.add_y, V3.add_z, V3.smul_x, V3.smul_y, V3.smul_z]
    linear_combination (-r) * h1
  · refine (int2 (k := fun _ => 0) (k _).2.1 (k _).2.2 fun φ => ?_).trans (by simp)
    have h1 := (H_sym p (ringPoint r z φ)).2.2
    simp only [H_lin p _ ⟨0, -r, 0⟩, H_lin p _ ⟨0, 0, -r⟩, V3.add_x, V3.add_y, V3.add_z, V3.smul_x, V3.smul_y, V3.smul_z]
    linear_combination r * h1
  · refine (int2 (k := fun _ => 0) (k _).2.2 (k _).1 fun φ => ?_).trans (by simp)
    have h1 := (H_sym p (ringPoint r z φ)).2.1
    simp only [H_lin p _ ⟨-r, 0, 0⟩, H_lin p _ ⟨0, 0, -r⟩, V3.add_x, V3.add_y, V3.add_z, V3.smul_x, V3.smul_y, V3.smul_z]
    linear_combination (-r) * h1
  · refine (int2 (k := fun _ => 0) (k _).1 (k _).2.1 fun φ => ?_).trans (by simp)
    have h1 := (H_sym p (ringPoint r z φ)).1
    simp only [H_lin p _ ⟨-r, 0, 0⟩, H_lin p _ ⟨0, -r, 0⟩, V3.add_x, V3.add_y, V3.add_z, V3.smul_x, V3.smul_y, V3.smul_z]
    linear_combination r * h1

/-- The field of a current ring satisfies the equations of a field in vacuum, also on the axis. -/
theorem ringField_vacuum {p : V3} {r z : ℝ} (hr : 0 ≤ r) (hoff : OffRing p r z) : VacuumField (ringField r z) p := by
  have cs : Continuous fun φ : ℝ => -r * sin φ := by fun_prop
  have cc : Continuous fun φ : ℝ => r * cos φ := by fun_prop
  have cs' : Continuous fun φ : ℝ => r * sin φ := by fun_prop
  have cc' : Continuous fun φ : ℝ => -(r * cos φ) := by fun_prop
  have c0 : Continuous fun _ : ℝ => (0 : ℝ) := continuous_const
  have wx := weighted (t := fun φ => ⟨0, 0, -(r * cos φ)⟩) hr hoff c0 c0 cc'
  have wy := weighted (t := fun φ => ⟨0, 0, -r * sin φ⟩) hr hoff c0 c0 cs
  have wz := weighted (t := fun φ => ⟨r * cos φ, r * sin φ, 0⟩) hr hoff cc cs' c0
  have ix := H_int (t := fun φ => ⟨0, 0, -(r * cos φ)⟩) hoff c0 c0 cc'
  have iy := H_int (t := fun φ => ⟨0, 0, -r * sin φ⟩) hoff c0 c0 cs
  have iz := H_int (t := fun φ => ⟨r * cos φ, r * sin φ, 0⟩) hoff cc cs' c0
  have it := H_int (t := fun φ => ⟨-r * sin φ, r * cos φ, 0⟩) hoff cs cc c0
  have e : ringField r z = fun q => ⟨∫ φ in (0 : ℝ)..2 * π, dot ⟨0, 0, -(r * cos φ)⟩ (D q (ringPoint r z φ)), ∫ φ in (0 : ℝ)..2 * π, dot ⟨0, 0, -r * sin φ⟩ (D q (ringPoint r z φ)),
      ∫ φ in (0 : ℝ)..2 * π, dot ⟨r * cos φ, r * sin φ, 0⟩ (D q (ringPoint r z φ))⟩ := by
    funext q
    unfold ringField biotSavart
    have hn : ∀ φ, V3.norm (q - ringPoint r z φ) = V3.norm (ringPoint r z φ - q) := fun φ => by
      unfold V3.norm dot; congr 1; simp only [V3.sub_x, V3.sub_y, V3.sub_z]; ring
    ext
    all_goals
      refine intervalIntegral.integral_congr fun φ _ => ?_
      simp only [hn, dot, D, dx1Potential3dPoint, dy1Potential3dPoint, dz1Potential3dPoint, V3.cross, V3.smul_x, V3.smul_y, V3.smul_z, V3.sub_x, V3.sub_y, V3.sub_z]
      ring
  -- the derivative along the ring integrates to zero
  have hclosed : ∀ w : V3, ∫ φ in (0 : ℝ)..2 * π, dot (H p (ringPoint r z φ) w) ⟨-r * sin φ, r * cos φ, 0⟩ = 0 := by
    intro w
    have kw := H_int (t := fun _ => w) hoff continuous_const continuous_const continuous_const
    have hcont : Continuous fun φ => dot (H p (ringPoint r z φ) w) ⟨-r * sin φ, r * cos φ, 0⟩ := by
      unfold dot
      exact ((kw.1.mul cs).add (kw.2.1.mul cc)).add (kw.2.2.mul c0)
    have h1 := intervalIntegral.integral_eq_sub_of_hasDerivAt (a := 0) (b := 2 * π) (fun φ _ => D_along hoff w φ) (hcont.neg.intervalIntegrable _ _)
    rw [intervalIntegral.integral_neg] at h1
    have h2 : ringPoint r z (2 * π) = ringPoint r z 0 := by simp [ringPoint]
    rw [h2, sub_self] at h1
    linarith
  have hx := hclosed ⟨1, 0, 0⟩
  have hy := hclosed ⟨0, 1, 0⟩
  have hz := hclosed ⟨0, 0, 1⟩
  rw [e]
  refine ⟨_, _, _, wx, wy, wz, ?_, ?_, ?_, ?_⟩
  · refine int3 ix.1 iy.2.1 iz.2.2 fun φ => ?_
    obtain ⟨h1, h2, h3⟩ := H_sym p (ringPoint r z φ)
    simp only [H_lin p _ ⟨0, 0, -(r * cos φ)⟩, H_lin p _ ⟨0, 0, -r * sin φ⟩, H_lin p _ ⟨r * cos φ, r * sin φ, 0⟩, V3.add_x, V3.add_y, V3.add_z, V3.smul_x, V3.smul_y, V3.smul_z]
    linear_combination r * cos φ * h2 + r * sin φ * h3
  · refine (int2 iz.2.1 iy.2.2 fun φ => ?_).trans hx
    obtain ⟨h1, h2, h3⟩ := H_sym p (ringPoint r z φ)
    have h4 := H_trace p (ringPoint r z φ) (hoff φ)
    simp only [H_lin p _ ⟨0, 0, -r * sin φ⟩, H_lin p _ ⟨r * cos φ, r * sin φ, 0⟩, dot, V3.add_x, V3.add_y, V3.add_z, V3.smul_x, V3.smul_y, V3.smul_z]
    linear_combination r * sin φ * h4
  · refine (int2 ix.2.2 iz.1 fun φ => ?_).trans hy
    obtain ⟨h1, h2, h3⟩ := H_sym p (ringPoint r z φ)
    have h4 := H_trace p (ringPoint r z φ) (hoff φ)
    simp only [H_lin p _ ⟨0, 0, -(r * cos φ)⟩, H_lin p _ ⟨r * cos φ, r * sin φ, 0⟩, dot, V3.add_x, V3.add_y, V3.add_z, V3.smul_x, V3.smul_y, V3.smul_z]
    linear_combination (-(r * cos φ)) * h4
  · refine (int2 iy.1 ix.2.1 fun φ => ?_).trans hz
    obtain ⟨h1, h2, h3⟩ := H_sym p (ringPoint r z φ)
    simp only [H_lin p _ ⟨0, 0, -(r * cos φ)⟩, H_lin p _ ⟨0, 0, -r * sin φ⟩, dot, V3.add_x, V3.add_y, V3.add_z, V3.smul_x, V3.smul_y, V3.smul_z]
    ring

end Traceon
