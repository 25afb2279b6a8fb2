import Verif.Props.Busch

/-!
# The flux function of charged rings
-/
namespace Traceon
open Spec V3 Real MeasureTheory RV

namespace Busch

section
variable {r z : ℝ}

/-- The gradient of a combination of the components of the field of a ring. -/
noncomputable def G (r z : ℝ) (w p : V3) : V3 :=
  ⟨∫ φ in (0 : ℝ)..2 * π, (H p (ringPoint r z φ) w).x, ∫ φ in (0 : ℝ)..2 * π, (H p (ringPoint r z φ) w).y, ∫ φ in (0 : ℝ)..2 * π, (H p (ringPoint r z φ) w).z⟩

theorem coulombRing_eq (r z : ℝ) : coulombRing r z = fun q => ⟨∫ φ in (0 : ℝ)..2 * π, dot ⟨-r, 0, 0⟩ (D q (ringPoint r z φ)), ∫ φ in (0 : ℝ)..2 * π, dot ⟨0, -r, 0⟩ (D q (ringPoint r z φ)),
    ∫ φ in (0 : ℝ)..2 * π, dot ⟨0, 0, -r⟩ (D q (ringPoint r z φ))⟩ := by
  funext q
  rw [BoxFlux.coulombRing_unit]
  simp [BoxFlux.unit, dot, D]

theorem grads {p : V3} (hr : 0 ≤ r) (hoff : OffRing p r z) :
    IsGradient (fun q => (coulombRing r z q).x) (G r z ⟨-r, 0, 0⟩ p) p ∧ IsGradient (fun q => (coulombRing r z q).y) (G r z ⟨0, -r, 0⟩ p) p ∧ IsGradient (fun q => (coulombRing r z q).z) (G r z ⟨0, 0, -r⟩ p) p := by
  have w := fun v : V3 => weighted (t := fun _ => v) hr hoff continuous_const continuous_const continuous_const
  rw [coulombRing_eq]
  exact ⟨w _, w _, w _⟩

theorem trace {p : V3} (hr : 0 ≤ r) (hoff : OffRing p r z) : (G r z ⟨-r, 0, 0⟩ p).x + (G r z ⟨0, -r, 0⟩ p).y + (G r z ⟨0, 0, -r⟩ p).z = 0 := by
  obtain ⟨gx, gy, gz, h1, h2, h3, h4, -⟩ := coulombRing_vacuum hr hoff
  obtain ⟨k1, k2, k3⟩ := grads hr hoff
  rw [← gradient_unique h1 k1, ← gradient_unique h2 k2, ← gradient_unique h3 k3]
  exact h4

/-- Rotation around the axis. -/
theorem rot {p : V3} (hoff : OffRing p r z) (w : V3) : p.x * (G r z w p).y - p.y * (G r z w p).x = ∫ φ in (0 : ℝ)..2 * π, (w.y * (D p (ringPoint r z φ)).x - w.x * (D p (ringPoint r z φ)).y) := by
  have cs : Continuous fun φ : ℝ => -r * sin φ := by fun_prop
  have cc : Continuous fun φ : ℝ => r * cos φ := by fun_prop
  have kw := H_int (t := fun _ => w) hoff continuous_const continuous_const continuous_const
  have hcont : Continuous fun φ => dot (H p (ringPoint r z φ) w) ⟨-r * sin φ, r * cos φ, 0⟩ := by
    unfold dot
    exact ((kw.1.mul cs).add (kw.2.1.mul cc)).add (kw.2.2.mul continuous_const)
  have h1 := intervalIntegral.integral_eq_sub_of_hasDerivAt (a := 0) (b := 2 * π) (fun φ _ => D_along hoff w φ) (hcont.neg.intervalIntegrable _ _)
  have h2 : ringPoint r z (2 * π) = ringPoint r z 0 := by simp [ringPoint]
  rw [h2, sub_self] at h1
  have e : ∀ φ, w.y * (D p (ringPoint r z φ)).x - w.x * (D p (ringPoint r z φ)).y = p.x * (H p (ringPoint r z φ) w).y - p.y * (H p (ringPoint r z φ) w).x + -dot (H p (ringPoint r z φ) w) ⟨-r * sin φ, r * cos φ, 0⟩ := fun φ => by
    simp only [H, D, dx1Potential3dPoint, dy1Potential3dPoint, dot, ringPoint, V3.add_x, V3.add_y, V3.add_z, V3.smul_x, V3.smul_y, V3.smul_z, V3.sub_x, V3.sub_y, V3.sub_z]
    ring
  simp only [e]
  have hneg : Continuous fun φ => -dot (H p (ringPoint r z φ) w) ⟨-r * sin φ, r * cos φ, 0⟩ := hcont.neg
  have c1 : Continuous fun φ => p.x * (H p (ringPoint r z φ) w).y := continuous_const.mul kw.2.1
  have c2 : Continuous fun φ => p.y * (H p (ringPoint r z φ) w).x := continuous_const.mul kw.1
  have c12 : Continuous fun φ => p.x * (H p (ringPoint r z φ) w).y - p.y * (H p (ringPoint r z φ) w).x := c1.sub c2
  rw [intervalIntegral.integral_add (c12.intervalIntegrable _ _) (hneg.intervalIntegrable _ _), h1, add_zero, intervalIntegral.integral_sub (c1.intervalIntegrable _ _) (c2.intervalIntegrable _ _),
    intervalIntegral.integral_const_mul, intervalIntegral.integral_const_mul]
  rfl

theorem rots {p : V3} (hoff : OffRing p r z) :
    p.x * (G r z ⟨-r, 0, 0⟩ p).y - p.y * (G r z ⟨-r, 0, 0⟩ p).x = -(coulombRing r z p).y ∧ p.x * (G r z ⟨0, -r, 0⟩ p).y - p.y * (G r z ⟨0, -r, 0⟩ p).x = (coulombRing r z p).x ∧
    p.x * (G r z ⟨0, 0, -r⟩ p).y - p.y * (G r z ⟨0, 0, -r⟩ p).x = 0 := by
  rw [rot hoff, rot hoff, rot hoff, coulombRing_eq]
  refine ⟨?_, ?_, ?_⟩
  · rw [← intervalIntegral.integral_neg]
    refine intervalIntegral.integral_congr fun φ _ => ?_
    simp [dot]
  · refine intervalIntegral.integral_congr fun φ _ => ?_
    simp [dot]
  · simp

/-- An integral over a parameter of a continuous function is continuous. -/
theorem continuousAt_integral {p : ℝ × ℝ × ℝ} {ε : ℝ} (hε : 0 < ε) {f : ℝ × ℝ × ℝ → ℝ → ℝ} {a b : ℝ} (h : ContinuousOn (fun w : (ℝ × ℝ × ℝ) × ℝ => f w.1 w.2) (Metric.ball p ε ×ˢ Set.univ)) :
    ContinuousAt (fun v => ∫ φ in a..b, f v φ) p := by
  have hsub : Metric.closedBall p (ε / 2) ⊆ Metric.ball p ε := Metric.closedBall_subset_ball (by linarith)
  have hcompact : IsCompact (Metric.closedBall p (ε / 2) ×ˢ Set.uIcc a b) := (isCompact_closedBall _ _).prod isCompact_uIcc
  obtain ⟨C, hC⟩ := hcompact.exists_bound_of_continuousOn (h.mono (Set.prod_mono hsub (Set.subset_univ _)))
  refine intervalIntegral.continuousAt_of_dominated_interval (bound := fun _ => C) ?_ ?_ (continuous_const.intervalIntegrable _ _) ?_
  · filter_upwards [Metric.ball_mem_nhds _ hε] with v hv
    refine Continuous.aestronglyMeasurable ?_
    rw [← continuousOn_univ]
    exact h.comp (f := fun φ : ℝ => (v, φ)) (by fun_prop) (fun φ _ => ⟨hv, trivial⟩)
  · filter_upwards [Metric.ball_mem_nhds _ (by linarith : 0 < ε / 2)] with v hv
    exact Filter.Eventually.of_forall fun φ hφ => hC (v, φ) ⟨Metric.ball_subset_closedBall hv, Set.uIoc_subset_uIcc hφ⟩
  · refine Filter.Eventually.of_forall fun φ _ => ?_
    have : ContinuousOn (fun v => f v φ) (Metric.ball p ε) := h.comp (f := fun v : ℝ × ℝ × ℝ => (v, φ)) (by fun_prop) (fun v hv => ⟨hv, trivial⟩)
    exact this.continuousAt (Metric.ball_mem_nhds _ hε)

theorem G_cont {p : V3} (hr : 0 ≤ r) (hoff : OffRing p r z) (w : V3) :
    ContinuousAt (fun v : ℝ × ℝ × ℝ => (G r z w ⟨v.1, v.2.1, v.2.2⟩).x) (p.x, p.y, p.z) ∧ ContinuousAt (fun v : ℝ × ℝ × ℝ => (G r z w ⟨v.1, v.2.1, v.2.2⟩).y) (p.x, p.y, p.z) ∧
    ContinuousAt (fun v : ℝ × ℝ × ℝ => (G r z w ⟨v.1, v.2.1, v.2.2⟩).z) (p.x, p.y, p.z) := by
  obtain ⟨ε, hε, hU⟩ := off_ball hr hoff
  have key : ∀ c : V3 → ℝ, ContinuousOn (fun v : (ℝ × ℝ × ℝ) × ℝ => c (H ⟨v.1.1, v.1.2.1, v.1.2.2⟩ (ringPoint r z v.2) w)) (Metric.ball (p.x, p.y, p.z) ε ×ˢ Set.univ) →
      ContinuousAt (fun v : ℝ × ℝ × ℝ => ∫ φ in (0 : ℝ)..2 * π, c (H ⟨v.1, v.2.1, v.2.2⟩ (ringPoint r z φ) w)) (p.x, p.y, p.z) := fun c h => continuousAt_integral hε h
  exact ⟨key V3.x (H_cont hU (t := fun _ => w) continuous_const continuous_const continuous_const (c := V3.x) (fun k u v l => by simp) continuous_const (by unfold ringPoint; simp only [sub_x]; fun_prop)),
    key V3.y (H_cont hU (t := fun _ => w) continuous_const continuous_const continuous_const (c := V3.y) (fun k u v l => by simp) continuous_const (by unfold ringPoint; simp only [sub_y]; fun_prop)),
    key V3.z (H_cont hU (t := fun _ => w) continuous_const continuous_const continuous_const (c := V3.z) (fun k u v l => by simp) continuous_const (by unfold ringPoint; simp only [sub_z]; fun_prop))⟩

/-- The part of the line from the axis. -/
noncomputable def clamp (u : ℝ) : ℝ := max 0 (min 1 u)

theorem clamp_cont : Continuous clamp := by unfold clamp; fun_prop
theorem clamp_range (u : ℝ) : 0 ≤ clamp u ∧ clamp u ≤ 1 := ⟨le_max_left .., max_le zero_le_one (min_le_left ..)⟩
theorem clamp_eq {u : ℝ} (h : u ∈ Set.uIcc (0 : ℝ) 1) : clamp u = u := by
  rw [Set.uIcc_of_le zero_le_one] at h
  unfold clamp
  rw [min_eq_right h.2, max_eq_right h.1]

theorem norm2d_scale {k x y : ℝ} (hk : 0 ≤ k) : norm2d (k * x) (k * y) = k * norm2d x y := by
  unfold norm2d
  rw [show k * x * (k * x) + k * y * (k * y) = k ^ 2 * (x * x + y * y) by ring, Real.sqrt_mul (sq_nonneg k), Real.sqrt_sq hk]

/-- The points of the line are off the ring. -/
theorem line_off {x y z' : ℝ} (hr : 0 ≤ r) (h : z ≠ z' ∨ norm2d x y < r) {k : ℝ} (h0 : 0 ≤ k) (h1 : k ≤ 1) : OffRing ⟨k * x, k * y, z'⟩ r z := by
  rw [offRing_iff hr]
  have hn : norm2d (k * x) (k * y) ≤ norm2d x y := by
    rw [norm2d_scale h0]
    have : 0 ≤ norm2d x y := Real.sqrt_nonneg _
    nlinarith
  unfold nearSq
  rcases h with h | h
  · have : 0 < (z - z') ^ 2 := by have := sub_ne_zero.2 h; positivity
    have := sq_nonneg (r - norm2d (k * x) (k * y))
    simp only
    linarith
  · have : 0 < r - norm2d (k * x) (k * y) := by linarith
    have : 0 < (r - norm2d (k * x) (k * y)) ^ 2 := by positivity
    have := sq_nonneg (z - z')
    simp only
    linarith

theorem line_ball {p : V3} (h : z ≠ p.z ∨ norm2d p.x p.y < r) : ∃ ε > 0, ∀ v ∈ Metric.ball (p.x, p.y, p.z) ε, z ≠ v.2.2 ∨ norm2d v.1 v.2.1 < r := by
  have hopen : IsOpen ({v : ℝ × ℝ × ℝ | z ≠ v.2.2} ∪ {v : ℝ × ℝ × ℝ | norm2d v.1 v.2.1 < r}) := by
    refine IsOpen.union (isOpen_ne_fun continuous_const (by fun_prop)) (isOpen_lt ?_ continuous_const)
    unfold norm2d
    fun_prop
  obtain ⟨ε, hε, hball⟩ := Metric.isOpen_iff.1 hopen (p.x, p.y, p.z) h
  exact ⟨ε, hε, fun v hv => hball hv⟩

/-- The gradient of a function of the point at a fraction of the distance to the axis. -/
theorem scaled {f : V3 → ℝ} {g p : V3} {k : ℝ} (h : IsGradient f g ⟨k * p.x, k * p.y, p.z⟩) : IsGradient (fun q => f ⟨k * q.x, k * q.y, q.z⟩) ⟨k * g.x, k * g.y, g.z⟩ p := by
  rw [isGradient_iff] at *
  have hl : HasFDerivAt (fun v : ℝ × ℝ × ℝ => ((k * v.1, k * v.2.1, v.2.2) : ℝ × ℝ × ℝ)) ((k • ContinuousLinearMap.fst ℝ ℝ (ℝ × ℝ)).prod
      ((k • (ContinuousLinearMap.fst ℝ ℝ ℝ).comp (ContinuousLinearMap.snd ℝ ℝ (ℝ × ℝ))).prod ((ContinuousLinearMap.snd ℝ ℝ ℝ).comp (ContinuousLinearMap.snd ℝ ℝ (ℝ × ℝ))))) (p.x, p.y, p.z) :=
    ContinuousLinearMap.hasFDerivAt ((k • ContinuousLinearMap.fst ℝ ℝ (ℝ × ℝ)).prod
      ((k • (ContinuousLinearMap.fst ℝ ℝ ℝ).comp (ContinuousLinearMap.snd ℝ ℝ (ℝ × ℝ))).prod ((ContinuousLinearMap.snd ℝ ℝ ℝ).comp (ContinuousLinearMap.snd ℝ ℝ (ℝ × ℝ)))))
  have := HasFDerivAt.comp (p.x, p.y, p.z) (f := fun v : ℝ × ℝ × ℝ => ((k * v.1, k * v.2.1, v.2.2) : ℝ × ℝ × ℝ)) h hl
  refine this.congr_fderiv ?_
  ext <;> simp [gradMap_apply, mul_comm]

/-- The flux function of a charged ring. -/
theorem disk_gradient {p : V3} (hr : 0 < r) (hd : z ≠ p.z ∨ norm2d p.x p.y < r) :
    IsGradient (fun p => ∫ u in (0 : ℝ)..1, u * (p.x ^ 2 + p.y ^ 2) * (coulombRing r z ⟨u * p.x, u * p.y, p.z⟩).z)
      ⟨p.x * (coulombRing r z p).z, p.y * (coulombRing r z p).z, -(p.x * (coulombRing r z p).x + p.y * (coulombRing r z p).y)⟩ p := by
  obtain ⟨ε, hε, hU⟩ := line_ball hd
  have off : ∀ v ∈ Metric.ball (p.x, p.y, p.z) ε, ∀ u, OffRing ⟨clamp u * v.1, clamp u * v.2.1, v.2.2⟩ r z := fun v hv u => line_off hr.le (hU v hv) (clamp_range u).1 (clamp_range u).2
  have line : Continuous fun w : (ℝ × ℝ × ℝ) × ℝ => ((clamp w.2 * w.1.1, clamp w.2 * w.1.2.1, w.1.2.2) : ℝ × ℝ × ℝ) := by have := clamp_cont; fun_prop
  have along : ∀ f : ℝ × ℝ × ℝ → ℝ, (∀ q : V3, OffRing q r z → ContinuousAt f (q.x, q.y, q.z)) →
      ContinuousOn (fun w : (ℝ × ℝ × ℝ) × ℝ => f (clamp w.2 * w.1.1, clamp w.2 * w.1.2.1, w.1.2.2)) (Metric.ball (p.x, p.y, p.z) ε ×ˢ Set.univ) := fun f hf w hw => by
    have := hf _ (off w.1 hw.1 w.2)
    exact (ContinuousAt.comp (f := fun w : (ℝ × ℝ × ℝ) × ℝ => ((clamp w.2 * w.1.1, clamp w.2 * w.1.2.1, w.1.2.2) : ℝ × ℝ × ℝ)) (x := w) this line.continuousAt).continuousWithinAt
  have ch := along (fun v => (coulombRing r z ⟨v.1, v.2.1, v.2.2⟩).z) fun q hq => (grads hr.le hq).2.2.continuousAt
  have cG1 := along (fun v => (G r z ⟨0, 0, -r⟩ ⟨v.1, v.2.1, v.2.2⟩).x) fun q hq => (G_cont hr.le hq _).1
  have cG2 := along (fun v => (G r z ⟨0, 0, -r⟩ ⟨v.1, v.2.1, v.2.2⟩).y) fun q hq => (G_cont hr.le hq _).2.1
  have cG3 := along (fun v => (G r z ⟨0, 0, -r⟩ ⟨v.1, v.2.1, v.2.2⟩).z) fun q hq => (G_cont hr.le hq _).2.2
  have cc : Continuous fun w : (ℝ × ℝ × ℝ) × ℝ => clamp w.2 := clamp_cont.comp continuous_snd
  have main := isGradient_integral (p := p) hε (a := 0) (b := 1) (f := fun q u => clamp u * (q.x ^ 2 + q.y ^ 2) * (coulombRing r z ⟨clamp u * q.x, clamp u * q.y, q.z⟩).z)
    (g := fun q u => clamp u * (⟨2 * q.x * (coulombRing r z ⟨clamp u * q.x, clamp u * q.y, q.z⟩).z + (q.x ^ 2 + q.y ^ 2) * (clamp u * (G r z ⟨0, 0, -r⟩ ⟨clamp u * q.x, clamp u * q.y, q.z⟩).x),
      2 * q.y * (coulombRing r z ⟨clamp u * q.x, clamp u * q.y, q.z⟩).z + (q.x ^ 2 + q.y ^ 2) * (clamp u * (G r z ⟨0, 0, -r⟩ ⟨clamp u * q.x, clamp u * q.y, q.z⟩).y),
      (q.x ^ 2 + q.y ^ 2) * (G r z ⟨0, 0, -r⟩ ⟨clamp u * q.x, clamp u * q.y, q.z⟩).z⟩ : V3)) ?_ ?_ ?_ ?_ ?_
  rotate_left
  · intro v hv
    rw [← continuousOn_univ]
    have h1 : ContinuousOn (fun u : ℝ => (coulombRing r z ⟨clamp u * v.1, clamp u * v.2.1, v.2.2⟩).z) Set.univ := ch.comp (f := fun u : ℝ => (v, u)) (by fun_prop) (fun u _ => ⟨hv, trivial⟩)
    have h2 : Continuous fun u => clamp u * (v.1 ^ 2 + v.2.1 ^ 2) := clamp_cont.mul continuous_const
    exact h2.continuousOn.mul h1
  · intro v hv u
    have h1 := scaled (p := ⟨v.1, v.2.1, v.2.2⟩) (k := clamp u) (grads hr.le (off v hv u)).2.2
    have h2 := ((IsGradient.x ⟨v.1, v.2.1, v.2.2⟩).mul (IsGradient.x _)).add ((IsGradient.y ⟨v.1, v.2.1, v.2.2⟩).mul (IsGradient.y _))
    refine (((h2.mul h1).smul (clamp u)).congr fun q => by ring).eq ?_
    ext <;> simp only [V3.add_x, V3.add_y, V3.add_z, V3.smul_x, V3.smul_y, V3.smul_z] <;> ring
  · simp only [V3.smul_x]
    have k1 : Continuous fun w : (ℝ × ℝ × ℝ) × ℝ => 2 * w.1.1 := by fun_prop
    have k2 : Continuous fun w : (ℝ × ℝ × ℝ) × ℝ => w.1.1 ^ 2 + w.1.2.1 ^ 2 := by fun_prop
    exact cc.continuousOn.mul ((k1.continuousOn.mul ch).add (k2.continuousOn.mul (cc.continuousOn.mul cG1)))
  · simp only [V3.smul_y]
    have k1 : Continuous fun w : (ℝ × ℝ × ℝ) × ℝ => 2 * w.1.2.1 := by fun_prop
    have k2 : Continuous fun w : (ℝ × ℝ × ℝ) × ℝ => w.1.1 ^ 2 + w.1.2.1 ^ 2 := by fun_prop
    exact cc.continuousOn.mul ((k1.continuousOn.mul ch).add (k2.continuousOn.mul (cc.continuousOn.mul cG2)))
  · simp only [V3.smul_z]
    have k2 : Continuous fun w : (ℝ × ℝ × ℝ) × ℝ => w.1.1 ^ 2 + w.1.2.1 ^ 2 := by fun_prop
    exact cc.continuousOn.mul (k2.continuousOn.mul cG3)
  have e : (fun q : V3 => ∫ u in (0 : ℝ)..1, clamp u * (q.x ^ 2 + q.y ^ 2) * (coulombRing r z ⟨clamp u * q.x, clamp u * q.y, q.z⟩).z) =
      fun q : V3 => ∫ u in (0 : ℝ)..1, u * (q.x ^ 2 + q.y ^ 2) * (coulombRing r z ⟨u * q.x, u * q.y, q.z⟩).z := by
    funext q
    refine intervalIntegral.integral_congr fun u hu => ?_
    simp only [clamp_eq hu]
  rw [e] at main
  refine main.eq ?_
  -- the integrals, by the fundamental theorem
  have hp : (p.x, p.y, p.z) ∈ Metric.ball (p.x, p.y, p.z) ε := Metric.mem_ball_self hε
  have offu : ∀ u ∈ Set.uIcc (0 : ℝ) 1, OffRing ⟨u * p.x, u * p.y, p.z⟩ r z := fun u hu => by have := off _ hp u; rwa [clamp_eq hu] at this
  have hl : ∀ u : ℝ, HasDerivAt (fun u : ℝ => ((u * p.x, u * p.y, p.z) : ℝ × ℝ × ℝ)) (p.x, p.y, 0) u := fun u =>
    HasDerivAt.prodMk (((hasDerivAt_id u).mul_const _).congr_deriv (one_mul _)) (HasDerivAt.prodMk (((hasDerivAt_id u).mul_const _).congr_deriv (one_mul _)) (hasDerivAt_const u _))
  have der : ∀ (f : V3 → ℝ) (g : V3) (u : ℝ), IsGradient f g ⟨u * p.x, u * p.y, p.z⟩ → HasDerivAt (fun u => f ⟨u * p.x, u * p.y, p.z⟩) (g.x * p.x + g.y * p.y) u := fun f g u hg => by
    rw [isGradient_iff] at hg
    refine (HasFDerivAt.comp_hasDerivAt u (f := fun u : ℝ => ((u * p.x, u * p.y, p.z) : ℝ × ℝ × ℝ)) hg (hl u)).congr_deriv ?_
    simp only [gradMap_apply]
    ring
  have sect : ∀ F : (ℝ × ℝ × ℝ) × ℝ → ℝ, ContinuousOn F (Metric.ball (p.x, p.y, p.z) ε ×ˢ Set.univ) → Continuous fun u => F ((p.x, p.y, p.z), u) := fun F hF => by
    rw [← continuousOn_univ]
    exact hF.comp (f := fun u : ℝ => ((p.x, p.y, p.z), u)) (by fun_prop) (fun u _ => ⟨hp, trivial⟩)
  have sh := sect _ ch
  have s1 := sect _ cG1
  have s2 := sect _ cG2
  have s3 := sect _ cG3
  have part : ∀ (F f : ℝ → ℝ), Continuous f → (∀ u ∈ Set.uIcc (0 : ℝ) 1, HasDerivAt F (f u) u) → ∫ u in (0 : ℝ)..1, f u = F 1 - F 0 := fun F f hf hF =>
    intervalIntegral.integral_eq_sub_of_hasDerivAt hF (hf.intervalIntegrable _ _)
  have sc := clamp_cont
  ext
  · refine (part (fun u => u ^ 2 * p.x * (coulombRing r z ⟨u * p.x, u * p.y, p.z⟩).z) _ ?_ fun u hu => ?_).trans ?_
    · simp only [V3.smul_x]
      exact sc.mul ((continuous_const.mul sh).add (continuous_const.mul (sc.mul s1)))
    · have h1 := der _ _ u (grads hr.le (offu u hu)).2.2
      have h2 := (rots (offu u hu)).2.2
      refine (((((hasDerivAt_id u).pow 2).mul_const p.x).mul h1)).congr_deriv ?_
      simp only [V3.smul_x, clamp_eq hu, id, Pi.pow_apply] at h2 ⊢
      push_cast
      linear_combination u * p.y * h2
    · simp
  · refine (part (fun u => u ^ 2 * p.y * (coulombRing r z ⟨u * p.x, u * p.y, p.z⟩).z) _ ?_ fun u hu => ?_).trans ?_
    · simp only [V3.smul_y]
      exact sc.mul ((continuous_const.mul sh).add (continuous_const.mul (sc.mul s2)))
    · have h1 := der _ _ u (grads hr.le (offu u hu)).2.2
      have h2 := (rots (offu u hu)).2.2
      refine (((((hasDerivAt_id u).pow 2).mul_const p.y).mul h1)).congr_deriv ?_
      simp only [V3.smul_y, clamp_eq hu, id, Pi.pow_apply] at h2 ⊢
      push_cast
      linear_combination (-u * p.x) * h2
    · simp
  · refine (part (fun u => -(u * (p.x * (coulombRing r z ⟨u * p.x, u * p.y, p.z⟩).x + p.y * (coulombRing r z ⟨u * p.x, u * p.y, p.z⟩).y))) _ ?_ fun u hu => ?_).trans ?_
    · simp only [V3.smul_z]
      exact sc.mul (continuous_const.mul s3)
    · have hx := der _ _ u (grads hr.le (offu u hu)).1
      have hy := der _ _ u (grads hr.le (offu u hu)).2.1
      obtain ⟨r1, r2, -⟩ := rots (offu u hu)
      have ht := trace hr.le (offu u hu)
      refine ((hasDerivAt_id u).mul ((hx.const_mul p.x).add (hy.const_mul p.y))).neg.congr_deriv ?_
      simp only [V3.smul_z, clamp_eq hu, id, Pi.add_apply] at r1 r2 ⊢
      linear_combination (-p.y) * r1 + p.x * r2 - u * (p.x ^ 2 + p.y ^ 2) * ht
    · simp

end

theorem norm2d_axis (p : V3) : norm2d p.x p.y = axisDist p := axisDist_eq p

/-- The flux function of the charged rings. -/
theorem rings_gradient (e : EffCharges (ℝ × ℝ)) {p : V3} (h : ClearDisk e p) :
    IsGradient (diskFunction e) ⟨p.x * (coulombRings e p).z, p.y * (coulombRings e p).z, -(p.x * (coulombRings e p).x + p.y * (coulombRings e p).y)⟩ p := by
  have := IsGradient.loop e (fun p q => ∫ u in (0 : ℝ)..1, u * (p.x ^ 2 + p.y ^ 2) * (coulombRing q.1 q.2 ⟨u * p.x, u * p.y, p.z⟩).z)
    (fun q => ⟨p.x * (coulombRing q.1 q.2 p).z, p.y * (coulombRing q.1 q.2 p).z, -(p.x * (coulombRing q.1 q.2 p).x + p.y * (coulombRing q.1 q.2 p).y)⟩) p
    fun row hr q hq => disk_gradient (h row hr q hq).1 (by rw [norm2d_axis]; exact (h row hr q hq).2)
  refine (this.congr fun q => by unfold diskFunction; rw [EffCharges.loop_eq]).eq ?_
  unfold coulombRings
  simp only [← EffCharges.loop_eq]
  ext
  · exact loop_mul_left e p.x fun q => (coulombRing q.1 q.2 p).z
  · exact loop_mul_left e p.y fun q => (coulombRing q.1 q.2 p).z
  · dsimp only
    rw [show (fun q : ℝ × ℝ => -(p.x * (coulombRing q.1 q.2 p).x + p.y * (coulombRing q.1 q.2 p).y)) = fun q => (-p.x) * (coulombRing q.1 q.2 p).x + (-p.y) * (coulombRing q.1 q.2 p).y by funext q; ring, loop_lin]
    ring

theorem clear_of_disk {e : EffCharges (ℝ × ℝ)} {p : V3} (h : ClearDisk e p) : ClearOfRings e p := fun row hr q hq => by
  obtain ⟨h1, h2⟩ := h row hr q hq
  refine ⟨h1, ?_⟩
  have := line_off (r := q.1) (z := q.2) (x := p.x) (y := p.y) (z' := p.z) h1.le (by rw [norm2d_axis]; exact h2) zero_le_one le_rfl
  rwa [one_mul, one_mul] at this

theorem clearDisk_open (e : EffCharges (ℝ × ℝ)) {p : V3} (h : ClearDisk e p) : ∀ᶠ v : ℝ × ℝ × ℝ in nhds (p.x, p.y, p.z), ClearDisk e ⟨v.1, v.2.1, v.2.2⟩ := by
  have one : ∀ q : ℝ × ℝ, 0 < q.1 ∧ (q.2 ≠ p.z ∨ axisDist p < q.1) → ∀ᶠ v : ℝ × ℝ × ℝ in nhds (p.x, p.y, p.z), 0 < q.1 ∧ (q.2 ≠ v.2.2 ∨ axisDist ⟨v.1, v.2.1, v.2.2⟩ < q.1) := fun q hq => by
    obtain ⟨ε, hε, hb⟩ := line_ball (r := q.1) (z := q.2) (p := p) (by rw [norm2d_axis]; exact hq.2)
    filter_upwards [Metric.ball_mem_nhds _ hε] with v hv
    refine ⟨hq.1, ?_⟩
    rw [← norm2d_axis]
    exact hb v hv
  have fin : ∀ l : List (ℝ × ℝ), (∀ q ∈ l, 0 < q.1 ∧ (q.2 ≠ p.z ∨ axisDist p < q.1)) → ∀ᶠ v : ℝ × ℝ × ℝ in nhds (p.x, p.y, p.z), ∀ q ∈ l, 0 < q.1 ∧ (q.2 ≠ v.2.2 ∨ axisDist ⟨v.1, v.2.1, v.2.2⟩ < q.1) := by
    intro l
    induction l with
    | nil => exact fun _ => Filter.Eventually.of_forall fun v q hq => by cases hq
    | cons a l ih =>
      intro hl
      filter_upwards [one a (hl a List.mem_cons_self), ih fun q hq => hl q (List.mem_cons_of_mem _ hq)] with v h1 h2 q hq
      rcases List.mem_cons.1 hq with rfl | hq
      · exact h1
      · exact h2 q hq
  have rows : ∀ l : List (List (ℝ × ℝ)), (∀ row ∈ l, ∀ q ∈ row, 0 < q.1 ∧ (q.2 ≠ p.z ∨ axisDist p < q.1)) →
      ∀ᶠ v : ℝ × ℝ × ℝ in nhds (p.x, p.y, p.z), ∀ row ∈ l, ∀ q ∈ row, 0 < q.1 ∧ (q.2 ≠ v.2.2 ∨ axisDist ⟨v.1, v.2.1, v.2.2⟩ < q.1) := by
    intro l
    induction l with
    | nil => exact fun _ => Filter.Eventually.of_forall fun v q hq => by cases hq
    | cons a l ih =>
      intro hl
      filter_upwards [fin a (hl a List.mem_cons_self), ih fun q hq => hl q (List.mem_cons_of_mem _ hq)] with v h1 h2 q hq
      rcases List.mem_cons.1 hq with rfl | hq
      · exact h1
      · exact h2 q hq
  exact rows e.positions h

theorem contDiffAt_diskFunction (e : EffCharges (ℝ × ℝ)) {p : V3} (h : ClearDisk e p) :
    ContDiffAt ℝ 1 (fun v : ℝ × ℝ × ℝ => diskFunction e ⟨v.1, v.2.1, v.2.2⟩) (p.x, p.y, p.z) := by
  rw [contDiffAt_one_iff]
  refine ⟨fun v => (v.1 * (coulombRings e ⟨v.1, v.2.1, v.2.2⟩).z) • ContinuousLinearMap.fst ℝ ℝ (ℝ × ℝ) +
    (v.2.1 * (coulombRings e ⟨v.1, v.2.1, v.2.2⟩).z) • (ContinuousLinearMap.fst ℝ ℝ ℝ).comp (ContinuousLinearMap.snd ℝ ℝ (ℝ × ℝ)) +
      (-(v.1 * (coulombRings e ⟨v.1, v.2.1, v.2.2⟩).x + v.2.1 * (coulombRings e ⟨v.1, v.2.1, v.2.2⟩).y)) • (ContinuousLinearMap.snd ℝ ℝ ℝ).comp (ContinuousLinearMap.snd ℝ ℝ (ℝ × ℝ)), _, clearDisk_open e h, ?_, ?_⟩
  · intro v hv
    obtain ⟨gx, gy, gz, h1, h2, h3, -⟩ := (C109_rings_everywhere e _ (clear_of_disk hv)).1
    refine ContinuousAt.continuousWithinAt ?_
    have k1 : ContinuousAt (fun v : ℝ × ℝ × ℝ => v.1) v := continuousAt_fst
    have k2 : ContinuousAt (fun v : ℝ × ℝ × ℝ => v.2.1) v := by fun_prop
    exact (((k1.mul h3.continuousAt).smul continuousAt_const).add ((k2.mul h3.continuousAt).smul continuousAt_const)).add
      (((k1.mul h1.continuousAt).add (k2.mul h2.continuousAt)).neg.smul continuousAt_const)
  · intro v hv
    exact rings_gradient e hv

theorem axisDist_polar {u θ z : ℝ} (hu : 0 ≤ u) : axisDist ⟨u * cos θ, u * sin θ, z⟩ = u := by rw [← norm2d_axis]; exact norm2d_polar hu

theorem rings_turn (e : EffCharges (ℝ × ℝ)) {s z : ℝ} (hclear : ∀ θ : ℝ, ClearDisk e ⟨s * cos θ, s * sin θ, z⟩) (θ : ℝ) : diskFunction e ⟨s * cos θ, s * sin θ, z⟩ = diskFunction e ⟨s, 0, z⟩ := by
  have hd : ∀ θ : ℝ, HasDerivAt (fun θ => diskFunction e ⟨s * cos θ, s * sin θ, z⟩) 0 θ := fun θ => by
    have hg := rings_gradient e (hclear θ)
    rw [isGradient_iff] at hg
    have hl : HasDerivAt (fun θ : ℝ => ((s * cos θ, s * sin θ, z) : ℝ × ℝ × ℝ)) (s * -sin θ, s * cos θ, 0) θ :=
      HasDerivAt.prodMk ((hasDerivAt_cos θ).const_mul s) (HasDerivAt.prodMk ((hasDerivAt_sin θ).const_mul s) (hasDerivAt_const θ _))
    refine (HasFDerivAt.comp_hasDerivAt θ (f := fun θ : ℝ => ((s * cos θ, s * sin θ, z) : ℝ × ℝ × ℝ)) hg hl).congr_deriv ?_
    simp only [gradMap_apply]
    ring
  have := is_const_of_deriv_eq_zero (fun θ => (hd θ).differentiableAt) (fun θ => (hd θ).deriv) θ 0
  simpa using this

theorem rings_ray (e : EffCharges (ℝ × ℝ)) {s z : ℝ} (hs : 0 ≤ s) (hclear : ∀ row ∈ e.positions, ∀ q ∈ row, 0 < q.1 ∧ (q.2 ≠ z ∨ s < q.1)) (θ : ℝ) :
    ∫ u in (0 : ℝ)..s, u * (coulombRings e ⟨u * cos θ, u * sin θ, z⟩).z = diskFunction e ⟨s * cos θ, s * sin θ, z⟩ := by
  have hc : ∀ u ∈ Set.Icc 0 s, ClearDisk e ⟨u * cos θ, u * sin θ, z⟩ := fun u hu row hr q hq => by
    rw [axisDist_polar hu.1]
    exact ⟨(hclear row hr q hq).1, (hclear row hr q hq).2.imp id fun h => lt_of_le_of_lt hu.2 h⟩
  have hl : ∀ u : ℝ, HasDerivAt (fun u : ℝ => ((u * cos θ, u * sin θ, z) : ℝ × ℝ × ℝ)) (cos θ, sin θ, 0) u := fun u =>
    HasDerivAt.prodMk (((hasDerivAt_id u).mul_const _).congr_deriv (one_mul _)) (HasDerivAt.prodMk (((hasDerivAt_id u).mul_const _).congr_deriv (one_mul _)) (hasDerivAt_const u _))
  have hd : ∀ u ∈ Set.uIcc 0 s, HasDerivAt (fun u => diskFunction e ⟨u * cos θ, u * sin θ, z⟩) (u * (coulombRings e ⟨u * cos θ, u * sin θ, z⟩).z) u := fun u hu => by
    rw [Set.uIcc_of_le hs] at hu
    have hg := rings_gradient e (hc u hu)
    rw [isGradient_iff] at hg
    have := HasFDerivAt.comp_hasDerivAt u (f := fun u : ℝ => ((u * cos θ, u * sin θ, z) : ℝ × ℝ × ℝ)) hg (hl u)
    refine this.congr_deriv ?_
    simp only [gradMap_apply]
    linear_combination u * (coulombRings e ⟨u * cos θ, u * sin θ, z⟩).z * Real.sin_sq_add_cos_sq θ
  have hi : ContinuousOn (fun u : ℝ => u * (coulombRings e ⟨u * cos θ, u * sin θ, z⟩).z) (Set.uIcc 0 s) := by
    intro u hu
    rw [Set.uIcc_of_le hs] at hu
    obtain ⟨gx, gy, gz, h1, h2, h3, -⟩ := (C109_rings_everywhere e _ (clear_of_disk (hc u hu))).1
    rw [isGradient_iff] at h3
    have := (HasFDerivAt.comp_hasDerivAt u (f := fun u : ℝ => ((u * cos θ, u * sin θ, z) : ℝ × ℝ × ℝ)) h3 (hl u)).continuousAt
    exact (continuousAt_id.mul this).continuousWithinAt
  have h0 : diskFunction e ⟨0, 0, z⟩ = 0 := by
    unfold diskFunction
    rw [← EffCharges.loop_eq]
    have : (fun q : ℝ × ℝ => ∫ u in (0 : ℝ)..1, u * ((0 : ℝ) ^ 2 + (0 : ℝ) ^ 2) * (coulombRing q.1 q.2 ⟨u * 0, u * 0, z⟩).z) = fun _ => 0 := by funext q; simp
    rw [this]
    exact loop_nought e
  rw [intervalIntegral.integral_eq_sub_of_hasDerivAt hd hi.intervalIntegrable]
  simp only [zero_mul]
  rw [h0, sub_zero]

end Busch
end Traceon
