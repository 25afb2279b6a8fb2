import Verif.Spec.Busch
import Verif.Props.VacuumAxis
import Verif.Props.LoopFlux

/-!
# The flux function of current loops
-/
namespace Traceon
open Spec V3 Real MeasureTheory RV

namespace Busch

section
variable {r z : ℝ}

theorem grad_pot (q p : V3) (h : q ≠ p) : IsGradient (fun p => potential3dPoint p q) (D p q) p := isGradient_potential3dPoint q p h

theorem pot_cont {p : V3} (hoff : OffRing p r z) : Continuous fun φ => potential3dPoint p (ringPoint r z φ) := by
  have hn : ∀ φ, 4 * π * V3.norm (ringPoint r z φ - p) ≠ 0 := fun φ => by
    have := V3.norm_pos fun h => hoff φ (V3.sub_eq_zero.1 h)
    have := Real.pi_pos
    positivity
  have hc : Continuous fun φ => 4 * π * V3.norm (ringPoint r z φ - p) := by
    unfold V3.norm dot ringPoint
    simp only [sub_x, sub_y, sub_z]
    fun_prop
  have hq : Continuous fun φ => 1 / (4 * π * V3.norm (ringPoint r z φ - p)) := Continuous.div continuous_const hc hn
  exact hq

theorem D_contOn {U : Set (ℝ × ℝ × ℝ)} (hU : ∀ v ∈ U, OffRing ⟨v.1, v.2.1, v.2.2⟩ r z) {w : ℝ → ℝ} (hw : Continuous w) :
    ContinuousOn (fun v : (ℝ × ℝ × ℝ) × ℝ => w v.2 * (D ⟨v.1.1, v.1.2.1, v.1.2.2⟩ (ringPoint r z v.2)).x) (U ×ˢ Set.univ) ∧
    ContinuousOn (fun v : (ℝ × ℝ × ℝ) × ℝ => w v.2 * (D ⟨v.1.1, v.1.2.1, v.1.2.2⟩ (ringPoint r z v.2)).y) (U ×ˢ Set.univ) ∧
    ContinuousOn (fun v : (ℝ × ℝ × ℝ) × ℝ => w v.2 * (D ⟨v.1.1, v.1.2.1, v.1.2.2⟩ (ringPoint r z v.2)).z) (U ×ˢ Set.univ) := by
  have hn : ∀ w ∈ U ×ˢ (Set.univ : Set ℝ), 4 * π * V3.norm (ringPoint r z w.2 - ⟨w.1.1, w.1.2.1, w.1.2.2⟩) ^ 3 ≠ 0 := fun w hw => by
    have := V3.norm_pos fun h => hU w.1 hw.1 w.2 (V3.sub_eq_zero.1 h)
    have := Real.pi_pos
    positivity
  have d3 : Continuous fun w : (ℝ × ℝ × ℝ) × ℝ => 4 * π * V3.norm (ringPoint r z w.2 - ⟨w.1.1, w.1.2.1, w.1.2.2⟩) ^ 3 := continuous_const.mul (norm_cont.pow 3)
  have cw : Continuous fun v : (ℝ × ℝ × ℝ) × ℝ => w v.2 := hw.comp continuous_snd
  unfold D dx1Potential3dPoint dy1Potential3dPoint dz1Potential3dPoint
  refine ⟨cw.continuousOn.mul (ContinuousOn.div ?_ d3.continuousOn hn), cw.continuousOn.mul (ContinuousOn.div ?_ d3.continuousOn hn), cw.continuousOn.mul (ContinuousOn.div ?_ d3.continuousOn hn)⟩
  all_goals
    refine Continuous.continuousOn ?_
    unfold ringPoint
    fun_prop

theorem D_cont {p : V3} (hoff : OffRing p r z) {w : ℝ → ℝ} (hw : Continuous w) :
    (Continuous fun φ => w φ * (D p (ringPoint r z φ)).x) ∧ (Continuous fun φ => w φ * (D p (ringPoint r z φ)).y) ∧ (Continuous fun φ => w φ * (D p (ringPoint r z φ)).z) := by
  have hU : ∀ v ∈ ({(p.x, p.y, p.z)} : Set (ℝ × ℝ × ℝ)), OffRing ⟨v.1, v.2.1, v.2.2⟩ r z := fun v hv => by rw [Set.mem_singleton_iff.1 hv]; exact hoff
  obtain ⟨h1, h2, h3⟩ := D_contOn hU hw
  refine ⟨?_, ?_, ?_⟩
  all_goals rw [← continuousOn_univ]
  · exact h1.comp (f := fun φ : ℝ => ((p.x, p.y, p.z), φ)) (by fun_prop) (fun φ _ => ⟨rfl, trivial⟩)
  · exact h2.comp (f := fun φ : ℝ => ((p.x, p.y, p.z), φ)) (by fun_prop) (fun φ _ => ⟨rfl, trivial⟩)
  · exact h3.comp (f := fun φ : ℝ => ((p.x, p.y, p.z), φ)) (by fun_prop) (fun φ _ => ⟨rfl, trivial⟩)

/-- The integral over the ring of the potentials of its points with weights. -/
theorem weighted_pot {p : V3} (hr : 0 ≤ r) (hoff : OffRing p r z) {w : ℝ → ℝ} (hw : Continuous w) :
    IsGradient (fun q => ∫ φ in (0 : ℝ)..2 * π, w φ * potential3dPoint q (ringPoint r z φ))
      ⟨∫ φ in (0 : ℝ)..2 * π, w φ * (D p (ringPoint r z φ)).x, ∫ φ in (0 : ℝ)..2 * π, w φ * (D p (ringPoint r z φ)).y, ∫ φ in (0 : ℝ)..2 * π, w φ * (D p (ringPoint r z φ)).z⟩ p := by
  obtain ⟨ε, hε, hU⟩ := off_ball hr hoff
  obtain ⟨h1, h2, h3⟩ := D_contOn hU hw
  refine isGradient_integral hε (f := fun q φ => w φ * potential3dPoint q (ringPoint r z φ)) (g := fun q φ => w φ * D q (ringPoint r z φ)) (fun v hv => hw.mul (pot_cont (hU v hv)))
    (fun v hv φ => (grad_pot _ _ (hU v hv φ)).smul _) h1 h2 h3

/-- How the potential of a point of the ring changes along the ring. -/
theorem pot_along {p : V3} (hoff : OffRing p r z) (φ : ℝ) :
    HasDerivAt (fun φ => potential3dPoint p (ringPoint r z φ)) (p.y * (D p (ringPoint r z φ)).x - p.x * (D p (ringPoint r z φ)).y) φ := by
  have e1 : ∀ q, potential3dPoint p q = potential3dPoint (p - q) 0 := fun q => by
    have hn : V3.norm (0 - (p - q)) = V3.norm (q - p) := by congr 1; ext <;> simp
    unfold potential3dPoint
    rw [hn]
  have e2 : ∀ q, D (p - q) 0 = D p q := fun q => by
    have hn : V3.norm (0 - (p - q)) = V3.norm (q - p) := by congr 1; ext <;> simp
    unfold D dx1Potential3dPoint dy1Potential3dPoint dz1Potential3dPoint
    rw [hn]; ext <;> simp
  have hne : (0 : V3) ≠ p - ringPoint r z φ := fun h => hoff φ (V3.sub_eq_zero.1 h.symm).symm
  have hg := grad_pot 0 (p - ringPoint r z φ) hne
  rw [isGradient_iff, e2] at hg
  have hl : HasDerivAt (fun φ : ℝ => ((p.x - r * cos φ, p.y - r * sin φ, p.z - z) : ℝ × ℝ × ℝ)) (r * sin φ, -(r * cos φ), 0) φ := by
    refine HasDerivAt.prodMk ?_ (HasDerivAt.prodMk ?_ (hasDerivAt_const φ _))
    · exact (((hasDerivAt_cos φ).const_mul r).const_sub p.x).congr_deriv (by ring)
    · exact ((hasDerivAt_sin φ).const_mul r).const_sub p.y
  have hg' : HasFDerivAt (fun v : ℝ × ℝ × ℝ => potential3dPoint ⟨v.1, v.2.1, v.2.2⟩ 0) (gradMap (D p (ringPoint r z φ))) (p.x - r * cos φ, p.y - r * sin φ, p.z - z) := hg
  have := hg'.comp_hasDerivAt φ hl
  refine (this.congr_deriv ?_).congr_of_eventuallyEq (Filter.Eventually.of_forall fun s => ?_)
  · simp only [gradMap_apply, D, dx1Potential3dPoint, dy1Potential3dPoint, ringPoint]
    ring
  · simp only [Function.comp]
    rw [e1]
    rfl

theorem ringVector_eq (r z : ℝ) (p : V3) : ringVector r z p = ⟨∫ φ in (0 : ℝ)..2 * π, -r * sin φ * potential3dPoint p (ringPoint r z φ), ∫ φ in (0 : ℝ)..2 * π, r * cos φ * potential3dPoint p (ringPoint r z φ), 0⟩ := by
  have hn : ∀ φ, V3.norm (p - ringPoint r z φ) = V3.norm (ringPoint r z φ - p) := fun φ => by
    unfold V3.norm dot; congr 1; simp only [V3.sub_x, V3.sub_y, V3.sub_z]; ring
  unfold ringVector potential3dPoint
  simp only [hn]

theorem ringField_eq (r z : ℝ) (p : V3) : ringField r z p = ⟨∫ φ in (0 : ℝ)..2 * π, -(r * cos φ) * (D p (ringPoint r z φ)).z, ∫ φ in (0 : ℝ)..2 * π, -r * sin φ * (D p (ringPoint r z φ)).z,
    ∫ φ in (0 : ℝ)..2 * π, (r * cos φ * (D p (ringPoint r z φ)).x + r * sin φ * (D p (ringPoint r z φ)).y)⟩ := by
  unfold ringField biotSavart
  have hn : ∀ φ, V3.norm (p - ringPoint r z φ) = V3.norm (ringPoint r z φ - p) := fun φ => by
    unfold V3.norm dot; congr 1; simp only [V3.sub_x, V3.sub_y, V3.sub_z]; ring
  ext
  all_goals
    refine intervalIntegral.integral_congr fun φ _ => ?_
    simp only [hn, D, dx1Potential3dPoint, dy1Potential3dPoint, dz1Potential3dPoint, V3.cross, V3.smul_x, V3.smul_y, V3.smul_z, V3.sub_x, V3.sub_y, V3.sub_z]
    ring

/-- The flux function of one ring. -/
theorem ring_gradient {p : V3} (hr : 0 ≤ r) (hoff : OffRing p r z) : IsGradient (fun p => p.x * (ringVector r z p).y - p.y * (ringVector r z p).x)
    ⟨p.x * (ringField r z p).z, p.y * (ringField r z p).z, -(p.x * (ringField r z p).x + p.y * (ringField r z p).y)⟩ p := by
  have cs : Continuous fun φ : ℝ => r * sin φ := by fun_prop
  have cs' : Continuous fun φ : ℝ => -r * sin φ := by fun_prop
  have cc : Continuous fun φ : ℝ => r * cos φ := by fun_prop
  have gx := weighted_pot hr hoff cs'
  have gy := weighted_pot hr hoff cc
  have hP := pot_cont hoff
  obtain ⟨s1, s2, s3⟩ := D_cont hoff cs
  obtain ⟨c1, c2, c3⟩ := D_cont hoff cc
  have h0 : ringPoint r z (2 * π) = ringPoint r z 0 := by simp [ringPoint]
  -- integration by parts along the ring
  have a1 : (∫ φ in (0 : ℝ)..2 * π, r * cos φ * potential3dPoint p (ringPoint r z φ)) + p.y * (∫ φ in (0 : ℝ)..2 * π, r * sin φ * (D p (ringPoint r z φ)).x) -
      p.x * (∫ φ in (0 : ℝ)..2 * π, r * sin φ * (D p (ringPoint r z φ)).y) = 0 := by
    have hd : ∀ φ, HasDerivAt (fun φ => r * sin φ * potential3dPoint p (ringPoint r z φ))
        (r * cos φ * potential3dPoint p (ringPoint r z φ) + p.y * (r * sin φ * (D p (ringPoint r z φ)).x) - p.x * (r * sin φ * (D p (ringPoint r z φ)).y)) φ := fun φ =>
      (((hasDerivAt_sin φ).const_mul r).mul (pot_along hoff φ)).congr_deriv (by ring)
    have k1 : Continuous fun φ => r * cos φ * potential3dPoint p (ringPoint r z φ) := cc.mul hP
    have k2 : Continuous fun φ => p.y * (r * sin φ * (D p (ringPoint r z φ)).x) := continuous_const.mul s1
    have k3 : Continuous fun φ => p.x * (r * sin φ * (D p (ringPoint r z φ)).y) := continuous_const.mul s2
    have k12 : Continuous fun φ => r * cos φ * potential3dPoint p (ringPoint r z φ) + p.y * (r * sin φ * (D p (ringPoint r z φ)).x) := k1.add k2
    have k123 : Continuous fun φ => r * cos φ * potential3dPoint p (ringPoint r z φ) + p.y * (r * sin φ * (D p (ringPoint r z φ)).x) - p.x * (r * sin φ * (D p (ringPoint r z φ)).y) := k12.sub k3
    have h1 := intervalIntegral.integral_eq_sub_of_hasDerivAt (a := 0) (b := 2 * π) (fun φ _ => hd φ) (k123.intervalIntegrable _ _)
    rw [intervalIntegral.integral_sub (k12.intervalIntegrable _ _) (k3.intervalIntegrable _ _), intervalIntegral.integral_add (k1.intervalIntegrable _ _) (k2.intervalIntegrable _ _),
      intervalIntegral.integral_const_mul, intervalIntegral.integral_const_mul] at h1
    rw [h1]
    simp
  have a2 : (∫ φ in (0 : ℝ)..2 * π, r * sin φ * potential3dPoint p (ringPoint r z φ)) + p.x * (∫ φ in (0 : ℝ)..2 * π, r * cos φ * (D p (ringPoint r z φ)).y) -
      p.y * (∫ φ in (0 : ℝ)..2 * π, r * cos φ * (D p (ringPoint r z φ)).x) = 0 := by
    have hd : ∀ φ, HasDerivAt (fun φ => -(r * cos φ * potential3dPoint p (ringPoint r z φ)))
        (r * sin φ * potential3dPoint p (ringPoint r z φ) + p.x * (r * cos φ * (D p (ringPoint r z φ)).y) - p.y * (r * cos φ * (D p (ringPoint r z φ)).x)) φ := fun φ =>
      (((hasDerivAt_cos φ).const_mul r).mul (pot_along hoff φ)).neg.congr_deriv (by ring)
    have k1 : Continuous fun φ => r * sin φ * potential3dPoint p (ringPoint r z φ) := cs.mul hP
    have k2 : Continuous fun φ => p.x * (r * cos φ * (D p (ringPoint r z φ)).y) := continuous_const.mul c2
    have k3 : Continuous fun φ => p.y * (r * cos φ * (D p (ringPoint r z φ)).x) := continuous_const.mul c1
    have k12 : Continuous fun φ => r * sin φ * potential3dPoint p (ringPoint r z φ) + p.x * (r * cos φ * (D p (ringPoint r z φ)).y) := k1.add k2
    have k123 : Continuous fun φ => r * sin φ * potential3dPoint p (ringPoint r z φ) + p.x * (r * cos φ * (D p (ringPoint r z φ)).y) - p.y * (r * cos φ * (D p (ringPoint r z φ)).x) := k12.sub k3
    have h1 := intervalIntegral.integral_eq_sub_of_hasDerivAt (a := 0) (b := 2 * π) (fun φ _ => hd φ) (k123.intervalIntegrable _ _)
    rw [intervalIntegral.integral_sub (k12.intervalIntegrable _ _) (k3.intervalIntegrable _ _), intervalIntegral.integral_add (k1.intervalIntegrable _ _) (k2.intervalIntegrable _ _),
      intervalIntegral.integral_const_mul, intervalIntegral.integral_const_mul] at h1
    rw [h1, h0]
    simp
  have b : ∀ f : ℝ → ℝ, ∫ φ in (0 : ℝ)..2 * π, -r * sin φ * f φ = -∫ φ in (0 : ℝ)..2 * π, r * sin φ * f φ := fun f => by
    rw [← intervalIntegral.integral_neg]
    exact intervalIntegral.integral_congr fun φ _ => by ring
  have b' : ∀ f : ℝ → ℝ, ∫ φ in (0 : ℝ)..2 * π, -(r * cos φ) * f φ = -∫ φ in (0 : ℝ)..2 * π, r * cos φ * f φ := fun f => by
    rw [← intervalIntegral.integral_neg]
    exact intervalIntegral.integral_congr fun φ _ => by ring
  have e : (fun p : V3 => p.x * (ringVector r z p).y - p.y * (ringVector r z p).x) = fun p : V3 => p.x * (∫ φ in (0 : ℝ)..2 * π, r * cos φ * potential3dPoint p (ringPoint r z φ)) +
      -1 * (p.y * ∫ φ in (0 : ℝ)..2 * π, -r * sin φ * potential3dPoint p (ringPoint r z φ)) := by
    funext p
    rw [ringVector_eq]
    ring
  rw [e]
  refine (((IsGradient.x p).mul gy).add (((IsGradient.y p).mul gx).smul (-1))).eq ?_
  rw [ringField_eq, intervalIntegral.integral_add (c1.intervalIntegrable _ _) (s2.intervalIntegrable _ _)]
  simp only [b, b']
  ext <;> simp only [V3.add_x, V3.add_y, V3.add_z, V3.smul_x, V3.smul_y, V3.smul_z]
  · linear_combination a1
  · linear_combination a2
  · ring

end

/-- The flux function of the loops. -/
theorem gradient (e : EffCharges V3) {p : V3} (h : ∀ row ∈ e.positions, ∀ q ∈ row, 0 ≤ q.x ∧ OffRing p q.x q.z) :
    IsGradient (circleFlux e) ⟨p.x * (loopsField e p).z, p.y * (loopsField e p).z, -(p.x * (loopsField e p).x + p.y * (loopsField e p).y)⟩ p := by
  have := IsGradient.loop e (fun p q => p.x * (ringVector q.x q.z p).y - p.y * (ringVector q.x q.z p).x)
    (fun q => ⟨p.x * (ringField q.x q.z p).z, p.y * (ringField q.x q.z p).z, -(p.x * (ringField q.x q.z p).x + p.y * (ringField q.x q.z p).y)⟩) p
    fun row hr q hq => ring_gradient (h row hr q hq).1 (h row hr q hq).2
  refine (this.congr fun q => by unfold circleFlux; rw [EffCharges.loop_eq]).eq ?_
  unfold loopsField
  simp only [← EffCharges.loop_eq]
  ext
  · exact loop_mul_left e p.x fun q => (ringField q.x q.z p).z
  · exact loop_mul_left e p.y fun q => (ringField q.x q.z p).z
  · dsimp only
    rw [show (fun q : V3 => -(p.x * (ringField q.x q.z p).x + p.y * (ringField q.x q.z p).y)) = fun q => (-p.x) * (ringField q.x q.z p).x + (-p.y) * (ringField q.x q.z p).y by funext q; ring, loop_lin']
    ring

end Busch
end Traceon
