import Verif.Lemmas.Circle
import Verif.Props.Interface
import Mathlib.MeasureTheory.Integral.IntervalIntegral.Basic

/-!
# C68: the potential and the field of a charged ring; C69: the field of a current ring

The routines of radial_ring.c use approximations (elliptic.c) for the complete elliptic integrals. Apart from that they are exact: with the complete elliptic
integrals themselves, the potential is the integral of the potential of a point charge over the ring, the field is minus its gradient, and the field of
a current ring is the one of the law of Biot and Savart.
-/
namespace Traceon
open Real Spec V3 MeasureTheory

/-! ## Specification -/
namespace Spec

/-- The point of a ring (radius `r`, height `z`) at angle `φ`. -/
noncomputable def ringPoint (r z φ : ℝ) : V3 := ⟨r * cos φ, r * sin φ, z⟩

/-- The point `p` is not on the ring. -/
def OffRing (p : V3) (r z : ℝ) : Prop := ∀ φ, ringPoint r z φ ≠ p

/-- The potential of a ring with unit line charge: the integral over the ring (length element `r dφ`) of the potential of a point charge. -/
noncomputable def ringPotential (r z : ℝ) (p : V3) : ℝ := ∫ φ in (0 : ℝ)..2 * π, r * (1 / (4 * π * V3.norm (p - ringPoint r z φ)))

/-- The law of Biot and Savart: the contribution of the line element at `φ` to the magnetic field strength at `p`, for a unit current. -/
noncomputable def biotSavart (r z φ : ℝ) (p : V3) : V3 :=
  (1 / (4 * π * V3.norm (p - ringPoint r z φ) ^ 3)) * cross ⟨-r * sin φ, r * cos φ, 0⟩ (p - ringPoint r z φ)

/-- The magnetic field strength of a ring with unit current. -/
noncomputable def ringField (r z : ℝ) (p : V3) : V3 :=
  ⟨∫ φ in (0 : ℝ)..2 * π, (biotSavart r z φ p).x, ∫ φ in (0 : ℝ)..2 * π, (biotSavart r z φ p).y, ∫ φ in (0 : ℝ)..2 * π, (biotSavart r z φ p).z⟩

end Spec

/-! ## Distances -/

/-- The square of the largest distance between a point and the points of the ring. -/
noncomputable def farSq (u v r z : ℝ) : ℝ := (z - v) ^ 2 + (r + u) ^ 2
/-- The square of the smallest distance between a point and the points of the ring. -/
noncomputable def nearSq (u v r z : ℝ) : ℝ := (z - v) ^ 2 + (r - u) ^ 2

theorem polar_dist2 (u v r z α φ : ℝ) :
    dot ((⟨u * cos α, u * sin α, v⟩ : V3) - ringPoint r z φ) ((⟨u * cos α, u * sin α, v⟩ : V3) - ringPoint r z φ) =
      u ^ 2 + r ^ 2 + (z - v) ^ 2 - 2 * r * u * cos (φ - α) := by
  unfold dot ringPoint
  simp only [sub_x, sub_y, sub_z, Real.cos_sub]
  have h1 := sin_sq_add_cos_sq α
  have h2 := sin_sq_add_cos_sq φ
  linear_combination u ^ 2 * h1 + r ^ 2 * h2

theorem nearSq_pos {p : V3} {r z : ℝ} (hoff : OffRing p r z) : 0 < nearSq (norm2d p.x p.y) p.z r z := by
  unfold nearSq
  by_contra h
  have h1 := sq_nonneg (z - p.z)
  have h2 := sq_nonneg (r - norm2d p.x p.y)
  have hz : z - p.z = 0 := by
    have : (z - p.z) ^ 2 = 0 := by linarith
    exact pow_eq_zero_iff two_ne_zero |>.1 this
  have hr : r - norm2d p.x p.y = 0 := by
    have : (r - norm2d p.x p.y) ^ 2 = 0 := by linarith
    exact pow_eq_zero_iff two_ne_zero |>.1 this
  obtain ⟨α, hx, hy⟩ := exists_polar2d p.x p.y
  apply hoff α
  have hr' : r = √(p.x * p.x + p.y * p.y) := by unfold norm2d at hr; linarith
  unfold ringPoint
  ext
  · simp only; rw [hr']; exact hx.symm
  · simp only; rw [hr']; exact hy.symm
  · simp only; linarith

theorem norm2d_nonneg (x y : ℝ) : 0 ≤ norm2d x y := Real.sqrt_nonneg _

theorem near_le_far {u v r z : ℝ} (hu : 0 ≤ u) (hr : 0 ≤ r) : nearSq u v r z ≤ farSq u v r z := by
  unfold nearSq farSq; nlinarith [mul_nonneg hu hr]

/-- The squared distance, on a quarter of the circle. -/
theorem dist2_quarter {u v r z : ℝ} (h : farSq u v r z ≠ 0) (θ : ℝ) :
    u ^ 2 + r ^ 2 + (z - v) ^ 2 - 2 * r * u * (2 * sin θ ^ 2 - 1) = farSq u v r z * ellD (nearSq u v r z / farSq u v r z) θ := by
  unfold ellD
  have h2 : cos θ ^ 2 = 1 - sin θ ^ 2 := by have := sin_sq_add_cos_sq θ; linarith
  rw [h2]
  field_simp
  unfold nearSq farSq
  ring

theorem dist2_pos {u v r z : ℝ} (hu : 0 ≤ u) (hr : 0 ≤ r) (h : 0 < nearSq u v r z) {c : ℝ} (hc : c ≤ 1) :
    0 < u ^ 2 + r ^ 2 + (z - v) ^ 2 - 2 * r * u * c := by
  have : nearSq u v r z ≤ u ^ 2 + r ^ 2 + (z - v) ^ 2 - 2 * r * u * c := by
    unfold nearSq
    nlinarith [mul_nonneg (mul_nonneg hu hr) (sub_nonneg.2 hc)]
  linarith

/-! ## The potential -/

/-- **C68** (potential). With exact elliptic integrals, `potential_radial_ring` is the potential of a uniformly charged ring, at every point not on the ring. -/
theorem C68_ring_potential (p : V3) (r z : ℝ) (hr : 0 < r) (hoff : OffRing p r z) :
    potentialRingWith ellK (norm2d p.x p.y) p.z r z = ringPotential r z p := by
  obtain ⟨α, hx, hy⟩ := exists_polar2d p.x p.y
  have hn := nearSq_pos hoff
  have hu := norm2d_nonneg p.x p.y
  have hp : p = ⟨norm2d p.x p.y * cos α, norm2d p.x p.y * sin α, p.z⟩ := by
    ext
    · exact hx
    · exact hy
    · rfl
  set u := norm2d p.x p.y with hudef
  set v := p.z with hvdef
  have hf : 0 < farSq u v r z := lt_of_lt_of_le hn (near_le_far hu hr.le)
  have hq : 0 < nearSq u v r z / farSq u v r z := div_pos hn hf
  unfold ringPotential V3.norm
  rw [hp]
  simp only [polar_dist2]
  set g : ℝ → ℝ := fun c => r * (1 / (4 * π * √(u ^ 2 + r ^ 2 + (z - v) ^ 2 - 2 * r * u * c))) with hg
  have hcont : Continuous (fun φ => g (cos φ)) := by
    apply Continuous.mul continuous_const
    apply Continuous.div continuous_const (by fun_prop)
    intro φ
    have := Real.sqrt_pos.2 (dist2_pos hu hr.le hn (Real.cos_le_one φ))
    positivity
  have h1 := circle_shift (fun φ => g (cos φ)) (fun φ => by simp only [Real.cos_add_two_pi]) α
  rw [show (∫ φ in (0 : ℝ)..2 * π, r * (1 / (4 * π * √(u ^ 2 + r ^ 2 + (z - v) ^ 2 - 2 * r * u * cos (φ - α))))) =
    ∫ φ in (0 : ℝ)..2 * π, g (cos (φ - α)) from rfl, h1, circle_quarter g hcont]
  have h2 : ∀ θ, g (2 * sin θ ^ 2 - 1) = r / (4 * π * √(farSq u v r z)) * (1 / √(ellD (nearSq u v r z / farSq u v r z) θ)) := by
    intro θ
    have hs := sqrt_ellD_ne hq θ
    have hs2 := (Real.sqrt_pos.2 hf).ne'
    have := Real.pi_pos.ne'
    simp only [hg]
    rw [dist2_quarter hf.ne', Real.sqrt_mul hf.le]
    field_simp
  simp only [h2]
  rw [intervalIntegral.integral_const_mul]
  change _ = 4 * (r / (4 * π * √(farSq u v r z)) * ellK (nearSq u v r z / farSq u v r z))
  unfold potentialRingWith
  simp only
  have e1 : ((z - v) ^ 2 + (r - u) ^ 2) / ((z - v) ^ 2 + (r - u) ^ 2 + 4 * u * (r - u) + 4 * u ^ 2) = nearSq u v r z / farSq u v r z := by
    unfold nearSq farSq; congr 1; ring
  have e2 : (z - v) ^ 2 + (r - u + 2 * u) ^ 2 = farSq u v r z := by unfold farSq; ring
  rw [e1, e2]
  have := Real.pi_pos.ne'
  have hs2 := (Real.sqrt_pos.2 hf).ne'
  field_simp
  ring


/-! ## The field -/

/-- A function that has the derivative of the complete elliptic integral of the first kind. -/
def IsEllipticPair (K E : ℝ → ℝ) : Prop := ∀ p, 0 < p → p < 1 → HasDerivAt K (-(E p - p * K p) / (2 * p * (1 - p))) p

theorem isEllipticPair : IsEllipticPair ellK ellE := fun _ h0 h1 => hasDerivAt_ellK h0 h1.ne

theorem isGradient_norm2d (p : V3) (h : 0 < norm2d p.x p.y) :
    IsGradient (fun p => norm2d p.x p.y) ⟨p.x / norm2d p.x p.y, p.y / norm2d p.x p.y, 0⟩ p := by
  have h1 := ((IsGradient.x p).mul (IsGradient.x p)).add ((IsGradient.y p).mul (IsGradient.y p))
  have h2 : HasDerivAt Real.sqrt (1 / (2 * √(p.x * p.x + p.y * p.y))) (p.x * p.x + p.y * p.y) :=
    Real.hasDerivAt_sqrt (Real.sqrt_pos.1 h).ne'
  refine (IsGradient.comp (f := fun q => q.x * q.x + q.y * q.y) h2 h1).eq ?_
  unfold norm2d at h ⊢
  ext <;> simp <;> field_simp <;> ring

/-- The gradient of the potential of a ring. -/
theorem isGradient_ring {K E : ℝ → ℝ} (hK : IsEllipticPair K E) (p : V3) (r z : ℝ) (hr : 0 < r) (hoff : OffRing p r z) (hax : minDistanceAxis ≤ norm2d p.x p.y) :
    IsGradient (fun q => potentialRingWith K (norm2d q.x q.y) q.z r z)
      (fromRadial p (dr1RingWith K E (norm2d p.x p.y) p.z r z) (dz1RingWith E (norm2d p.x p.y) p.z r z)) p := by
  have hu : 0 < norm2d p.x p.y := lt_of_lt_of_le (by unfold minDistanceAxis; norm_num) hax
  have hn := nearSq_pos hoff
  have hgu := isGradient_norm2d p hu
  have hgdz : IsGradient (fun q => z - q.z) ⟨0, 0, -1⟩ p := ((IsGradient.const z p).add ((IsGradient.z p).smul (-1))).congr (fun q => by ring) |>.eq (by ext <;> simp)
  have hgdr : IsGradient (fun q => r - norm2d q.x q.y) ⟨-(p.x / norm2d p.x p.y), -(p.y / norm2d p.x p.y), 0⟩ p :=
    ((IsGradient.const r p).add (hgu.smul (-1))).congr (fun q => by ring) |>.eq (by ext <;> simp)
  have hgsr : IsGradient (fun q => r + norm2d q.x q.y) ⟨p.x / norm2d p.x p.y, p.y / norm2d p.x p.y, 0⟩ p :=
    ((IsGradient.const r p).add hgu).eq (by ext <;> simp)
  have hA := ((hgdz.mul hgdz).add (hgdr.mul hgdr)).congr (f' := fun q => nearSq (norm2d q.x q.y) q.z r z) (fun q => by unfold nearSq; ring)
  have hD := ((hgdz.mul hgdz).add (hgsr.mul hgsr)).congr (f' := fun q => farSq (norm2d q.x q.y) q.z r z) (fun q => by unfold farSq; ring)
  set u := norm2d p.x p.y with hudef
  have hf : 0 < farSq u p.z r z := lt_of_lt_of_le hn (near_le_far hu.le hr.le)
  have hlt : nearSq u p.z r z / farSq u p.z r z < 1 := by
    rw [div_lt_one hf]; unfold nearSq farSq; nlinarith [mul_pos hu hr]
  -- t = A / D
  have hinv := IsGradient.comp (f := fun q => farSq (norm2d q.x q.y) q.z r z) (hasDerivAt_inv hf.ne') hD
  have ht := (hA.mul hinv).congr (f' := fun q => nearSq (norm2d q.x q.y) q.z r z / farSq (norm2d q.x q.y) q.z r z) (fun q => by rw [div_eq_mul_inv])
  have hKt := IsGradient.comp (f := fun q => nearSq (norm2d q.x q.y) q.z r z / farSq (norm2d q.x q.y) q.z r z) (hK _ (div_pos hn hf) hlt) ht
  have hsq : HasDerivAt (fun x => (√x)⁻¹) (-(1 / (2 * √(farSq u p.z r z))) / √(farSq u p.z r z) ^ 2) (farSq u p.z r z) :=
    (Real.hasDerivAt_sqrt hf.ne').inv (Real.sqrt_pos.2 hf).ne'
  have hS := IsGradient.comp (f := fun q => farSq (norm2d q.x q.y) q.z r z) hsq hD
  refine ((hKt.mul hS).smul (1 / π * r)).congr (fun q => ?_) |>.eq ?_
  · unfold potentialRingWith
    simp only
    have e1 : ((z - q.z) ^ 2 + (r - norm2d q.x q.y) ^ 2) / ((z - q.z) ^ 2 + (r - norm2d q.x q.y) ^ 2 + 4 * norm2d q.x q.y * (r - norm2d q.x q.y) + 4 * norm2d q.x q.y ^ 2) =
        nearSq (norm2d q.x q.y) q.z r z / farSq (norm2d q.x q.y) q.z r z := by unfold nearSq farSq; congr 1; ring
    have e2 : (z - q.z) ^ 2 + (r - norm2d q.x q.y + 2 * norm2d q.x q.y) ^ 2 = farSq (norm2d q.x q.y) q.z r z := by unfold farSq; ring
    rw [e1, e2]; ring
  · unfold fromRadial dr1RingWith dz1RingWith
    rw [← hudef, if_pos hax, if_neg (not_lt.2 hax)]
    simp only
    have e1 : ((z - p.z) * (z - p.z) + (r - u) * (r - u)) / (4 * r * r - 4 * (r - u) * r + (z - p.z) * (z - p.z) + (r - u) * (r - u)) = nearSq u p.z r z / farSq u p.z r z := by
      unfold nearSq farSq; congr 1 <;> ring
    have e2 : 4 * r * r - 4 * (r - u) * r + (z - p.z) * (z - p.z) + (r - u) * (r - u) = farSq u p.z r z := by unfold farSq; ring
    have e3 : ((z - p.z) * (z - p.z) + (r - u) * (r - u)) / (4 * u * u + 4 * (r - u) * u + (z - p.z) * (z - p.z) + (r - u) * (r - u)) = nearSq u p.z r z / farSq u p.z r z := by
      unfold nearSq farSq; congr 1 <;> ring
    have e4 : 4 * u * u + 4 * (r - u) * u + (z - p.z) * (z - p.z) + (r - u) * (r - u) = farSq u p.z r z := by unfold farSq; ring
    have e5 : (z - p.z) * (z - p.z) + (r - u) * (r - u) = nearSq u p.z r z := by unfold nearSq; ring
    have e6 : -2 * (r - u) * (r - u) * r + (z - p.z) * (z - p.z) * (2 * (r - u) - 2 * r) + 2 * (r - u) * (r - u) * (r - u) = -(2 * u * nearSq u p.z r z) := by unfold nearSq; ring
    rw [e1, e2, e3, e4, e5, e6]
    have hs := Real.sqrt_pos.2 hf
    have hs2 : √(farSq u p.z r z) ^ 2 = farSq u p.z r z := Real.sq_sqrt hf.le
    have e7 : 1 - nearSq u p.z r z / farSq u p.z r z = 4 * u * r / farSq u p.z r z := by
      rw [eq_div_iff hf.ne', sub_mul, div_mul_cancel₀ _ hf.ne']; unfold nearSq farSq; ring
    have hpi := Real.pi_pos
    have hA2 : nearSq u p.z r z = (z - p.z) ^ 2 + (r - u) ^ 2 := rfl
    have hD2 : farSq u p.z r z = (z - p.z) ^ 2 + (r + u) ^ 2 := rfl
    generalize K (nearSq u p.z r z / farSq u p.z r z) = k at *
    generalize E (nearSq u p.z r z / farSq u p.z r z) = e at *
    rw [e7]
    generalize nearSq u p.z r z = A at *
    generalize √(farSq u p.z r z) = s at *
    generalize farSq u p.z r z = D at *
    subst hs2
    ext
    · simp
      field_simp
      simp only [hA2, hD2]
      ring
    · simp
      field_simp
      simp only [hA2, hD2]
      ring
    · simp
      field_simp
      simp only [hA2, hD2]
      ring


/-! ## The field on the axis -/

theorem offRing_iff {p : V3} {r z : ℝ} (hr : 0 ≤ r) : OffRing p r z ↔ 0 < nearSq (norm2d p.x p.y) p.z r z := by
  refine ⟨nearSq_pos, fun h φ hq => ?_⟩
  rw [← hq] at h
  have : norm2d (ringPoint r z φ).x (ringPoint r z φ).y = r := by
    unfold norm2d ringPoint
    simp only
    rw [show r * cos φ * (r * cos φ) + r * sin φ * (r * sin φ) = r ^ 2 by linear_combination r ^ 2 * sin_sq_add_cos_sq φ]
    exact Real.sqrt_sq hr
  rw [this] at h
  simp [nearSq, ringPoint] at h

/-- The gradient under the integral sign. -/
theorem isGradient_ringPotential (p : V3) (r z : ℝ) (hr : 0 < r) (hoff : OffRing p r z) :
    IsGradient (ringPotential r z) ⟨∫ φ in (0 : ℝ)..2 * π, r * dx1Potential3dPoint p (ringPoint r z φ), ∫ φ in (0 : ℝ)..2 * π, r * dy1Potential3dPoint p (ringPoint r z φ),
      ∫ φ in (0 : ℝ)..2 * π, r * dz1Potential3dPoint p (ringPoint r z φ)⟩ p := by
  -- the points off the ring form an open set
  have hopen : IsOpen {v : ℝ × ℝ × ℝ | 0 < nearSq (norm2d v.1 v.2.1) v.2.2 r z} := by
    apply isOpen_lt continuous_const
    unfold nearSq norm2d
    fun_prop
  have hmem : (p.x, p.y, p.z) ∈ {v : ℝ × ℝ × ℝ | 0 < nearSq (norm2d v.1 v.2.1) v.2.2 r z} := (offRing_iff hr.le).1 hoff
  obtain ⟨ε, hε, hball⟩ := Metric.isOpen_iff.1 hopen _ hmem
  have hoff' : ∀ v ∈ Metric.ball (p.x, p.y, p.z) ε, OffRing ⟨v.1, v.2.1, v.2.2⟩ r z := fun v hv => (offRing_iff hr.le).2 (hball hv)
  set s := Metric.ball (p.x, p.y, p.z) (ε / 2) with hs
  have hsub : Metric.closedBall (p.x, p.y, p.z) (ε / 2) ⊆ Metric.ball (p.x, p.y, p.z) ε := Metric.closedBall_subset_ball (by linarith)
  let F : ℝ × ℝ × ℝ → ℝ → ℝ := fun v φ => r * potential3dPoint ⟨v.1, v.2.1, v.2.2⟩ (ringPoint r z φ)
  let g : ℝ × ℝ × ℝ → ℝ → V3 := fun v φ => r * (⟨dx1Potential3dPoint ⟨v.1, v.2.1, v.2.2⟩ (ringPoint r z φ), dy1Potential3dPoint ⟨v.1, v.2.1, v.2.2⟩ (ringPoint r z φ),
    dz1Potential3dPoint ⟨v.1, v.2.1, v.2.2⟩ (ringPoint r z φ)⟩ : V3)
  have hnormpos : ∀ v ∈ Metric.ball (p.x, p.y, p.z) ε, ∀ φ, 0 < V3.norm (ringPoint r z φ - ⟨v.1, v.2.1, v.2.2⟩) := by
    intro v hv φ
    apply V3.norm_pos
    intro h
    exact hoff' v hv φ (V3.sub_eq_zero.1 h)
  have hpi := Real.pi_pos
  have hnc : Continuous (fun w : (ℝ × ℝ × ℝ) × ℝ => V3.norm (ringPoint r z w.2 - ⟨w.1.1, w.1.2.1, w.1.2.2⟩)) := by
    unfold V3.norm dot ringPoint
    simp only [sub_x, sub_y, sub_z]
    fun_prop
  have hFc : ∀ v ∈ Metric.ball (p.x, p.y, p.z) ε, Continuous (F v) := by
    intro v hv
    have hnv : Continuous (fun φ : ℝ => 4 * π * V3.norm (ringPoint r z φ - ⟨v.1, v.2.1, v.2.2⟩)) := by
      unfold V3.norm dot ringPoint
      simp only [sub_x, sub_y, sub_z]
      fun_prop
    have hne : ∀ φ : ℝ, 4 * π * V3.norm (ringPoint r z φ - ⟨v.1, v.2.1, v.2.2⟩) ≠ 0 := by
      intro φ; have := hnormpos v hv φ; positivity
    have hq : Continuous (fun φ : ℝ => 1 / (4 * π * V3.norm (ringPoint r z φ - ⟨v.1, v.2.1, v.2.2⟩))) := Continuous.div continuous_const hnv hne
    exact continuous_const.mul hq
  have hgc : ContinuousOn (fun w : (ℝ × ℝ × ℝ) × ℝ => gradMap (g w.1 w.2)) (Metric.ball (p.x, p.y, p.z) ε ×ˢ Set.univ) := by
    have hcomp : ∀ f : (ℝ × ℝ × ℝ) × ℝ → ℝ, Continuous f → ContinuousOn (fun w : (ℝ × ℝ × ℝ) × ℝ => r * (f w /
        (4 * π * V3.norm (ringPoint r z w.2 - ⟨w.1.1, w.1.2.1, w.1.2.2⟩) ^ 3))) (Metric.ball (p.x, p.y, p.z) ε ×ˢ Set.univ) := by
      intro f hf
      have hden : Continuous (fun w : (ℝ × ℝ × ℝ) × ℝ => 4 * π * V3.norm (ringPoint r z w.2 - ⟨w.1.1, w.1.2.1, w.1.2.2⟩) ^ 3) := continuous_const.mul (hnc.pow 3)
      have hne : ∀ w ∈ Metric.ball (p.x, p.y, p.z) ε ×ˢ Set.univ, 4 * π * V3.norm (ringPoint r z w.2 - ⟨w.1.1, w.1.2.1, w.1.2.2⟩) ^ 3 ≠ 0 := by
        intro w hw
        have := hnormpos w.1 hw.1 w.2
        positivity
      have hq := ContinuousOn.div hf.continuousOn hden.continuousOn hne
      exact continuousOn_const.mul hq
    have c1 := hcomp (fun w => (ringPoint r z w.2).x - w.1.1) (by unfold ringPoint; fun_prop)
    have c2 := hcomp (fun w => (ringPoint r z w.2).y - w.1.2.1) (by unfold ringPoint; fun_prop)
    have c3 := hcomp (fun w => (ringPoint r z w.2).z - w.1.2.2) (by unfold ringPoint; fun_prop)
    exact ((c1.smul continuousOn_const).add (c2.smul continuousOn_const)).add (c3.smul continuousOn_const)
  have hcompact : IsCompact (Metric.closedBall (p.x, p.y, p.z) (ε / 2) ×ˢ Set.uIcc (0 : ℝ) (2 * π)) :=
    (isCompact_closedBall _ _).prod isCompact_uIcc
  obtain ⟨C, hC⟩ := hcompact.exists_bound_of_continuousOn (hgc.mono (Set.prod_mono hsub (Set.subset_univ _)))
  have hgc' : Continuous (fun φ => gradMap (g (p.x, p.y, p.z) φ)) := by
    rw [← continuousOn_univ]
    exact hgc.comp (f := fun φ : ℝ => ((p.x, p.y, p.z), φ)) (by fun_prop) (fun φ _ => ⟨Metric.mem_ball_self hε, trivial⟩)
  have main := intervalIntegral.hasFDerivAt_integral_of_dominated_of_fderiv_le (𝕜 := ℝ) (μ := volume) (a := 0) (b := 2 * π) (F := F) (F' := fun v φ => gradMap (g v φ))
    (x₀ := (p.x, p.y, p.z)) (s := s) (bound := fun _ => C) (Metric.ball_mem_nhds _ (by linarith)) ?_ ?_ ?_ ?_ ?_ ?_
  · have hval : ∫ φ in (0 : ℝ)..2 * π, gradMap (g (p.x, p.y, p.z) φ) = gradMap ⟨∫ φ in (0 : ℝ)..2 * π, r * dx1Potential3dPoint p (ringPoint r z φ),
        ∫ φ in (0 : ℝ)..2 * π, r * dy1Potential3dPoint p (ringPoint r z φ), ∫ φ in (0 : ℝ)..2 * π, r * dz1Potential3dPoint p (ringPoint r z φ)⟩ := by
      apply ContinuousLinearMap.ext
      intro w
      rw [ContinuousLinearMap.intervalIntegral_apply (hgc'.intervalIntegrable _ _)]
      have comp : ∀ e : ℝ × ℝ × ℝ, Continuous (fun φ => gradMap (g (p.x, p.y, p.z) φ) e) := fun e => hgc'.clm_apply continuous_const
      have cx : Continuous (fun φ => (g (p.x, p.y, p.z) φ).x) := by simpa [gradMap_apply] using comp (1, 0, 0)
      have cy : Continuous (fun φ => (g (p.x, p.y, p.z) φ).y) := by simpa [gradMap_apply] using comp (0, 1, 0)
      have cz : Continuous (fun φ => (g (p.x, p.y, p.z) φ).z) := by simpa [gradMap_apply] using comp (0, 0, 1)
      have mx : Continuous (fun φ => (g (p.x, p.y, p.z) φ).x * w.1) := cx.mul continuous_const
      have my : Continuous (fun φ => (g (p.x, p.y, p.z) φ).y * w.2.1) := cy.mul continuous_const
      have mz : Continuous (fun φ => (g (p.x, p.y, p.z) φ).z * w.2.2) := cz.mul continuous_const
      have mxy : Continuous (fun φ => (g (p.x, p.y, p.z) φ).x * w.1 + (g (p.x, p.y, p.z) φ).y * w.2.1) := mx.add my
      simp only [gradMap_apply]
      rw [intervalIntegral.integral_add (mxy.intervalIntegrable _ _) (mz.intervalIntegrable _ _),
        intervalIntegral.integral_add (mx.intervalIntegrable _ _) (my.intervalIntegrable _ _),
        intervalIntegral.integral_mul_const, intervalIntegral.integral_mul_const, intervalIntegral.integral_mul_const]
      rfl
    rw [hval] at main
    rw [isGradient_iff]
    refine main.congr_of_eventuallyEq (Filter.Eventually.of_forall (fun v => ?_))
    unfold ringPotential
    apply intervalIntegral.integral_congr
    intro φ _
    simp only [F, potential3dPoint, V3.norm]
    rw [show dot ((⟨v.1, v.2.1, v.2.2⟩ : V3) - ringPoint r z φ) ((⟨v.1, v.2.1, v.2.2⟩ : V3) - ringPoint r z φ) =
      dot (ringPoint r z φ - ⟨v.1, v.2.1, v.2.2⟩) (ringPoint r z φ - ⟨v.1, v.2.1, v.2.2⟩) by unfold dot; simp only [sub_x, sub_y, sub_z]; ring]
  · filter_upwards [Metric.ball_mem_nhds _ hε] with v hv
    exact (hFc v hv).aestronglyMeasurable
  · exact (hFc _ (Metric.mem_ball_self hε)).intervalIntegrable _ _
  · exact hgc'.aestronglyMeasurable
  · refine Filter.Eventually.of_forall (fun φ hφ v hv => ?_)
    exact hC (v, φ) ⟨Metric.ball_subset_closedBall hv, Set.uIoc_subset_uIcc hφ⟩
  · exact continuous_const.intervalIntegrable _ _
  · refine Filter.Eventually.of_forall (fun φ _ v hv => ?_)
    have h1 := (isGradient_potential3dPoint (ringPoint r z φ) ⟨v.1, v.2.1, v.2.2⟩ (hoff' v (hsub (Metric.ball_subset_closedBall hv)) φ)).smul r
    exact h1


/-- The gradient of the potential of a ring, on the axis. -/
theorem isGradient_ring_axis (p : V3) (r z : ℝ) (hr : 0 < r) (hx : p.x = 0) (hy : p.y = 0) :
    IsGradient (fun q => potentialRingWith ellK (norm2d q.x q.y) q.z r z)
      (fromRadial p (dr1RingWith ellK ellE (norm2d p.x p.y) p.z r z) (dz1RingWith ellE (norm2d p.x p.y) p.z r z)) p := by
  have hu : norm2d p.x p.y = 0 := by simp [norm2d, hx, hy]
  have hoff : OffRing p r z := by
    rw [offRing_iff hr.le, hu]; unfold nearSq; nlinarith [sq_nonneg (z - p.z), mul_pos hr hr]
  have hn := nearSq_pos hoff
  rw [hu] at hn
  have hnorm : ∀ φ, V3.norm (ringPoint r z φ - p) = √(nearSq 0 p.z r z) := by
    intro φ
    unfold V3.norm dot ringPoint nearSq
    simp only [sub_x, sub_y, sub_z, hx, hy]
    congr 1
    linear_combination r ^ 2 * sin_sq_add_cos_sq φ
  have hgrad := isGradient_ringPotential p r z hr hoff
  -- the two functions agree in a neighbourhood
  have hopen : IsOpen {v : ℝ × ℝ × ℝ | 0 < nearSq (norm2d v.1 v.2.1) v.2.2 r z} := by
    apply isOpen_lt continuous_const
    unfold nearSq norm2d
    fun_prop
  have heq : IsGradient (fun q => potentialRingWith ellK (norm2d q.x q.y) q.z r z) ⟨∫ φ in (0 : ℝ)..2 * π, r * dx1Potential3dPoint p (ringPoint r z φ),
      ∫ φ in (0 : ℝ)..2 * π, r * dy1Potential3dPoint p (ringPoint r z φ), ∫ φ in (0 : ℝ)..2 * π, r * dz1Potential3dPoint p (ringPoint r z φ)⟩ p := by
    rw [isGradient_iff] at hgrad ⊢
    refine hgrad.congr_of_eventuallyEq ?_
    filter_upwards [hopen.mem_nhds ((offRing_iff hr.le).1 hoff : (p.x, p.y, p.z) ∈ {v : ℝ × ℝ × ℝ | 0 < nearSq (norm2d v.1 v.2.1) v.2.2 r z})] with v hv
    exact C68_ring_potential ⟨v.1, v.2.1, v.2.2⟩ r z hr ((offRing_iff hr.le).2 hv)
  refine heq.eq ?_
  have hpi := Real.pi_pos
  have hs := Real.sqrt_pos.2 hn
  unfold fromRadial dx1Potential3dPoint dy1Potential3dPoint dz1Potential3dPoint
  rw [hu, if_neg (by unfold minDistanceAxis; norm_num)]
  simp only [hnorm]
  ext
  · simp only [ringPoint, hx, sub_zero]
    rw [intervalIntegral.integral_const_mul, intervalIntegral.integral_div, intervalIntegral.integral_const_mul, integral_cos]
    simp
  · simp only [ringPoint, hy, sub_zero]
    rw [intervalIntegral.integral_const_mul, intervalIntegral.integral_div, intervalIntegral.integral_const_mul, integral_sin]
    simp
  · simp only [ringPoint, intervalIntegral.integral_const, smul_eq_mul, sub_zero]
    unfold dz1RingWith
    simp only
    have e5 : (z - p.z) * (z - p.z) + (r - 0) * (r - 0) = nearSq 0 p.z r z := by unfold nearSq; ring
    rw [show 4 * (0 : ℝ) * 0 + 4 * (r - 0) * 0 + (z - p.z) * (z - p.z) + (r - 0) * (r - 0) = nearSq 0 p.z r z by unfold nearSq; ring, e5, div_self hn.ne', ellE_one]
    have h2 : √(nearSq 0 p.z r z) ^ 2 = nearSq 0 p.z r z := Real.sq_sqrt hn.le
    generalize √(nearSq 0 p.z r z) = s at *
    generalize nearSq 0 p.z r z = A at *
    subst h2
    field_simp
    ring


/-! ## The whole field -/

/-- radial.c:105-121 with other functions in place of the approximations of the elliptic integrals. -/
noncomputable def potentialRadialWith (K : ℝ → ℝ) (p : V3) (e : EffCharges (ℝ × ℝ)) : ℝ :=
  e.loop (fun q => potentialRingWith K (norm2d p.x p.y) p.z q.1 q.2)

/-- radial.c:150-173 with other functions in place of the approximations of the elliptic integrals. -/
noncomputable def fieldRadialWith (K E : ℝ → ℝ) (p : V3) (e : EffCharges (ℝ × ℝ)) : V3 :=
  fromRadial p (e.loopSub (fun q => dr1RingWith K E (norm2d p.x p.y) p.z q.1 q.2)) (e.loopSub (fun q => dz1RingWith E (norm2d p.x p.y) p.z q.1 q.2))

/-- radial.c:55-83 with other functions in place of the approximations of the elliptic integrals. -/
noncomputable def currentFieldWith (K E : ℝ → ℝ) (p : V3) (e : EffCharges V3) : V3 :=
  fromRadial p (e.loop (fun q => (currentFieldRingWith K E (norm2d p.x p.y) p.z q.x q.z).1))
    (e.loop (fun q => (currentFieldRingWith K E (norm2d p.x p.y) p.z q.x q.z).2))

/-- The code is the case of the approximations of elliptic.c. -/
theorem with_approximations (p : V3) (e : EffCharges (ℝ × ℝ)) (c : EffCharges V3) :
    potentialRadial p e = potentialRadialWith ellipkm1 p e ∧ fieldRadial p e = fieldRadialWith ellipkm1 ellipem1 p e ∧ currentField p c = currentFieldWith ellipk ellipe p c :=
  ⟨rfl, rfl, rfl⟩

theorem loop_lin (e : EffCharges (ℝ × ℝ)) (f g : ℝ × ℝ → ℝ) (a b : ℝ) : e.loop (fun q => a * f q + b * g q) = a * e.loop f + b * e.loop g := by
  simp only [EffCharges.loop_eq]
  unfold Spec.superpose
  have inner : ∀ (c : ℝ) (l : List (ℝ × ℝ × ℝ)), (l.map (fun y => c * y.1 * (a * f y.2 + b * g y.2))).sum =
      a * (l.map (fun y => c * y.1 * f y.2)).sum + b * (l.map (fun y => c * y.1 * g y.2)).sum := by
    intro c l
    induction l with
    | nil => simp
    | cons y l ih => simp only [List.map_cons, List.sum_cons, ih]; ring
  simp only [inner]
  induction e.charges.zip (e.jacobians.zip e.positions) with
  | nil => simp
  | cons y l ih => simp only [List.map_cons, List.sum_cons, ih]; ring

theorem loop_zero (e : EffCharges (ℝ × ℝ)) : e.loop (fun _ => 0) = 0 := by
  have := loop_lin e (fun _ => 0) (fun _ => 0) 0 0
  simpa using this

/-- **C68.** With exact elliptic integrals (the code uses approximations of them), for every distribution of charged rings, at every point that is not on one of the rings: the
potential is the superposition of the potentials of uniformly charged rings, and the field is minus its gradient — on the axis and at distances of at least `1e-10`
from the axis (in between, the code sets the radial component to zero). -/
theorem C68_radial_field (e : EffCharges (ℝ × ℝ)) (p : V3) (hoff : ∀ row ∈ e.positions, ∀ q ∈ row, 0 < q.1 ∧ OffRing p q.1 q.2) :
    potentialRadialWith ellK p e = e.loop (fun q => ringPotential q.1 q.2 p) ∧
    ((p.x = 0 ∧ p.y = 0 ∨ 1e-10 ≤ √(p.x ^ 2 + p.y ^ 2)) → IsGradient (fun q => potentialRadialWith ellK q e) (-fieldRadialWith ellK ellE p e) p) := by
  constructor
  · simp only [potentialRadialWith, EffCharges.loop_eq]
    unfold Spec.superpose
    congr 1
    apply List.map_congr_left
    rintro ⟨c, js, ps⟩ hx
    have h1 : ps ∈ e.positions := (List.of_mem_zip (List.of_mem_zip hx).2).2
    congr 1
    apply List.map_congr_left
    rintro ⟨j, q⟩ hy
    have h2 : q ∈ ps := (List.of_mem_zip hy).2
    simp only
    rw [C68_ring_potential p q.1 q.2 (hoff ps h1 q h2).1 (hoff ps h1 q h2).2]
  · intro hax
    have hg : ∀ row ∈ e.positions, ∀ q ∈ row, IsGradient (fun s => potentialRingWith ellK (norm2d s.x s.y) s.z q.1 q.2)
        (fromRadial p (dr1RingWith ellK ellE (norm2d p.x p.y) p.z q.1 q.2) (dz1RingWith ellE (norm2d p.x p.y) p.z q.1 q.2)) p := by
      intro row hr q hq
      obtain ⟨h1, h2⟩ := hoff row hr q hq
      rcases hax with ⟨hx, hy⟩ | hax
      · exact isGradient_ring_axis p q.1 q.2 h1 hx hy
      · refine isGradient_ring isEllipticPair p q.1 q.2 h1 h2 ?_
        unfold minDistanceAxis norm2d
        rwa [← sq, ← sq]
    refine (IsGradient.loop e (fun s q => potentialRingWith ellK (norm2d s.x s.y) s.z q.1 q.2) _ p hg).eq ?_
    unfold fieldRadialWith fromRadial
    simp only [EffCharges.loopSub_loop]
    split
    · ext
      · have := loop_lin e (fun q => dr1RingWith ellK ellE (norm2d p.x p.y) p.z q.1 q.2) (fun _ => 0) (p.x / norm2d p.x p.y) 0
        simp only [mul_zero, add_zero, zero_mul] at this
        simp only [neg_x, this]; ring
      · have := loop_lin e (fun q => dr1RingWith ellK ellE (norm2d p.x p.y) p.z q.1 q.2) (fun _ => 0) (p.y / norm2d p.x p.y) 0
        simp only [mul_zero, add_zero, zero_mul] at this
        simp only [neg_y, this]; ring
      · simp
    · ext
      · simp [loop_zero]
      · simp [loop_zero]
      · simp

/-! ## Current rings -/

/-- The integrals over the ring. -/
theorem ring_integrals {u v r z : ℝ} (hu : 0 ≤ u) (hr : 0 < r) (hn : 0 < nearSq u v r z) (a b : ℝ) :
    farSq u v r z * √(farSq u v r z) * ∫ φ in (0 : ℝ)..2 * π, (a + b * cos φ) / √(u ^ 2 + r ^ 2 + (z - v) ^ 2 - 2 * r * u * cos φ) ^ 3 =
      4 * ((a - b) * (ellE (nearSq u v r z / farSq u v r z) / (nearSq u v r z / farSq u v r z)) +
        2 * b * ∫ θ in (0 : ℝ)..π / 2, sin θ ^ 2 / √(ellD (nearSq u v r z / farSq u v r z) θ) ^ 3) := by
  have hf : 0 < farSq u v r z := lt_of_lt_of_le hn (near_le_far hu hr.le)
  have hq : 0 < nearSq u v r z / farSq u v r z := div_pos hn hf
  set g : ℝ → ℝ := fun c => (a + b * c) / √(u ^ 2 + r ^ 2 + (z - v) ^ 2 - 2 * r * u * c) ^ 3 with hg
  have hcont : Continuous (fun φ => g (cos φ)) := by
    apply Continuous.div (by fun_prop) (by fun_prop)
    intro φ
    have := Real.sqrt_pos.2 (dist2_pos hu hr.le hn (Real.cos_le_one φ))
    positivity
  rw [show (∫ φ in (0 : ℝ)..2 * π, (a + b * cos φ) / √(u ^ 2 + r ^ 2 + (z - v) ^ 2 - 2 * r * u * cos φ) ^ 3) = ∫ φ in (0 : ℝ)..2 * π, g (cos φ) from rfl, circle_quarter g hcont]
  have h2 : ∀ θ, g (2 * sin θ ^ 2 - 1) = (farSq u v r z * √(farSq u v r z))⁻¹ * ((a - b) * (1 / √(ellD (nearSq u v r z / farSq u v r z) θ) ^ 3) +
      2 * b * (sin θ ^ 2 / √(ellD (nearSq u v r z / farSq u v r z) θ) ^ 3)) := by
    intro θ
    have hs := sqrt_ellD_ne hq θ
    have hs2 := (Real.sqrt_pos.2 hf).ne'
    simp only [hg]
    rw [dist2_quarter hf.ne', Real.sqrt_mul hf.le, mul_pow, show √(farSq u v r z) ^ 3 = farSq u v r z * √(farSq u v r z) by rw [pow_succ, Real.sq_sqrt hf.le]]
    field_simp
    ring
  have c1 : Continuous (fun θ => (a - b) * (1 / √(ellD (nearSq u v r z / farSq u v r z) θ) ^ 3)) :=
    continuous_const.mul (Continuous.div continuous_const ((continuous_sqrt_ellD _).pow 3) (fun θ => pow_ne_zero _ (sqrt_ellD_ne hq θ)))
  have c2 : Continuous (fun θ => 2 * b * (sin θ ^ 2 / √(ellD (nearSq u v r z / farSq u v r z) θ) ^ 3)) :=
    continuous_const.mul (Continuous.div (by fun_prop) ((continuous_sqrt_ellD _).pow 3) (fun θ => pow_ne_zero _ (sqrt_ellD_ne hq θ)))
  simp only [h2]
  rw [intervalIntegral.integral_const_mul, intervalIntegral.integral_add (c1.intervalIntegrable _ _) (c2.intervalIntegrable _ _),
    intervalIntegral.integral_const_mul, intervalIntegral.integral_const_mul, integral_inv_cube hq]
  have hs2 := (Real.sqrt_pos.2 hf).ne'
  field_simp


/-- In the code, both functions are evaluated at the complementary parameter. -/
theorem ellipk_complementary {k : ℝ} (h0 : 0 ≤ k) (h1 : k ≤ 1) : ellipk k = ellipkm1 (1 - k) ∧ ellipe k = ellipem1 (1 - k) := by
  unfold ellipk ellipe
  exact ⟨if_pos (by linarith), if_pos ⟨h0, h1⟩⟩

/-- The law of Biot and Savart in cylinder coordinates. -/
theorem ringField_polar {u v r z α : ℝ} (hu : 0 ≤ u) (hr : 0 < r) (hn : 0 < nearSq u v r z) :
    ringField r z ⟨u * cos α, u * sin α, v⟩ =
      ⟨cos α * (r * (v - z) / (4 * π) * ∫ φ in (0 : ℝ)..2 * π, (0 + 1 * cos φ) / √(u ^ 2 + r ^ 2 + (z - v) ^ 2 - 2 * r * u * cos φ) ^ 3),
       sin α * (r * (v - z) / (4 * π) * ∫ φ in (0 : ℝ)..2 * π, (0 + 1 * cos φ) / √(u ^ 2 + r ^ 2 + (z - v) ^ 2 - 2 * r * u * cos φ) ^ 3),
       r / (4 * π) * ∫ φ in (0 : ℝ)..2 * π, (r + (-u) * cos φ) / √(u ^ 2 + r ^ 2 + (z - v) ^ 2 - 2 * r * u * cos φ) ^ 3⟩ := by
  have hN : ∀ c, c ≤ 1 → √(u ^ 2 + r ^ 2 + (z - v) ^ 2 - 2 * r * u * c) ≠ 0 := fun c hc => (Real.sqrt_pos.2 (dist2_pos hu hr.le hn hc)).ne'
  have hpi := Real.pi_pos.ne'
  have hcos : Continuous (fun φ => (0 + 1 * cos φ) / √(u ^ 2 + r ^ 2 + (z - v) ^ 2 - 2 * r * u * cos φ) ^ 3) :=
    Continuous.div (by fun_prop) (by fun_prop) (fun φ => pow_ne_zero _ (hN _ (Real.cos_le_one φ)))
  have hsin : Continuous (fun φ => sin φ * (1 / √(u ^ 2 + r ^ 2 + (z - v) ^ 2 - 2 * r * u * cos φ) ^ 3)) :=
    Continuous.mul (by fun_prop) (Continuous.div (by fun_prop) (by fun_prop) (fun φ => pow_ne_zero _ (hN _ (Real.cos_le_one φ))))
  have hodd := circle_odd (fun c => 1 / √(u ^ 2 + r ^ 2 + (z - v) ^ 2 - 2 * r * u * c) ^ 3)
  have hx : ∀ φ, (biotSavart r z φ ⟨u * cos α, u * sin α, v⟩).x = (fun ψ => cos α * (r * (v - z) / (4 * π)) * ((0 + 1 * cos ψ) / √(u ^ 2 + r ^ 2 + (z - v) ^ 2 - 2 * r * u * cos ψ) ^ 3) +
      (-(sin α * (r * (v - z) / (4 * π)))) * (sin ψ * (1 / √(u ^ 2 + r ^ 2 + (z - v) ^ 2 - 2 * r * u * cos ψ) ^ 3))) (φ - α) := by
    intro φ
    unfold biotSavart V3.norm
    rw [polar_dist2]
    have h := hN (cos (φ - α)) (Real.cos_le_one _)
    simp only [smul_x, cross, sub_z, ringPoint]
    have h2 : cos φ = cos (φ - α) * cos α - sin (φ - α) * sin α := by rw [← Real.cos_add]; ring_nf
    field_simp
    rw [h2]; ring
  have hy : ∀ φ, (biotSavart r z φ ⟨u * cos α, u * sin α, v⟩).y = (fun ψ => sin α * (r * (v - z) / (4 * π)) * ((0 + 1 * cos ψ) / √(u ^ 2 + r ^ 2 + (z - v) ^ 2 - 2 * r * u * cos ψ) ^ 3) +
      (cos α * (r * (v - z) / (4 * π))) * (sin ψ * (1 / √(u ^ 2 + r ^ 2 + (z - v) ^ 2 - 2 * r * u * cos ψ) ^ 3))) (φ - α) := by
    intro φ
    unfold biotSavart V3.norm
    rw [polar_dist2]
    have h := hN (cos (φ - α)) (Real.cos_le_one _)
    simp only [smul_y, cross, sub_z, ringPoint]
    have h2 : sin φ = sin (φ - α) * cos α + cos (φ - α) * sin α := by rw [← Real.sin_add]; ring_nf
    field_simp
    rw [h2]; ring
  have hz : ∀ φ, (biotSavart r z φ ⟨u * cos α, u * sin α, v⟩).z = (fun ψ => r / (4 * π) * ((r + (-u) * cos ψ) / √(u ^ 2 + r ^ 2 + (z - v) ^ 2 - 2 * r * u * cos ψ) ^ 3)) (φ - α) := by
    intro φ
    unfold biotSavart V3.norm
    rw [polar_dist2]
    have h := hN (cos (φ - α)) (Real.cos_le_one _)
    simp only [smul_z, cross, sub_x, sub_y, ringPoint]
    have key : -r * sin φ * (u * sin α - r * sin φ) - r * cos φ * (u * cos α - r * cos φ) = r * (r + -u * cos (φ - α)) := by
      rw [Real.cos_sub]; linear_combination r ^ 2 * sin_sq_add_cos_sq φ
    rw [key]
    field_simp
  unfold ringField
  have shift : ∀ F : ℝ → ℝ, Function.Periodic F (2 * π) → ∫ φ in (0 : ℝ)..2 * π, F (φ - α) = ∫ φ in (0 : ℝ)..2 * π, F φ := fun F hF => circle_shift F hF α
  ext
  · simp only [hx]
    rw [shift (fun ψ => cos α * (r * (v - z) / (4 * π)) * ((0 + 1 * cos ψ) / √(u ^ 2 + r ^ 2 + (z - v) ^ 2 - 2 * r * u * cos ψ) ^ 3) +
      (-(sin α * (r * (v - z) / (4 * π)))) * (sin ψ * (1 / √(u ^ 2 + r ^ 2 + (z - v) ^ 2 - 2 * r * u * cos ψ) ^ 3))) (fun ψ => by simp only [Real.cos_add_two_pi, Real.sin_add_two_pi])]
    have c1 : Continuous (fun ψ => cos α * (r * (v - z) / (4 * π)) * ((0 + 1 * cos ψ) / √(u ^ 2 + r ^ 2 + (z - v) ^ 2 - 2 * r * u * cos ψ) ^ 3)) := continuous_const.mul hcos
    have c2 : Continuous (fun ψ => (-(sin α * (r * (v - z) / (4 * π)))) * (sin ψ * (1 / √(u ^ 2 + r ^ 2 + (z - v) ^ 2 - 2 * r * u * cos ψ) ^ 3))) := continuous_const.mul hsin
    rw [intervalIntegral.integral_add (c1.intervalIntegrable _ _) (c2.intervalIntegrable _ _), intervalIntegral.integral_const_mul, intervalIntegral.integral_const_mul, hodd]
    ring
  · simp only [hy]
    rw [shift (fun ψ => sin α * (r * (v - z) / (4 * π)) * ((0 + 1 * cos ψ) / √(u ^ 2 + r ^ 2 + (z - v) ^ 2 - 2 * r * u * cos ψ) ^ 3) +
      (cos α * (r * (v - z) / (4 * π))) * (sin ψ * (1 / √(u ^ 2 + r ^ 2 + (z - v) ^ 2 - 2 * r * u * cos ψ) ^ 3))) (fun ψ => by simp only [Real.cos_add_two_pi, Real.sin_add_two_pi])]
    have c1 : Continuous (fun ψ => sin α * (r * (v - z) / (4 * π)) * ((0 + 1 * cos ψ) / √(u ^ 2 + r ^ 2 + (z - v) ^ 2 - 2 * r * u * cos ψ) ^ 3)) := continuous_const.mul hcos
    have c2 : Continuous (fun ψ => (cos α * (r * (v - z) / (4 * π))) * (sin ψ * (1 / √(u ^ 2 + r ^ 2 + (z - v) ^ 2 - 2 * r * u * cos ψ) ^ 3))) := continuous_const.mul hsin
    rw [intervalIntegral.integral_add (c1.intervalIntegrable _ _) (c2.intervalIntegrable _ _), intervalIntegral.integral_const_mul, intervalIntegral.integral_const_mul, hodd]
    ring
  · simp only [hz]
    rw [shift (fun ψ => r / (4 * π) * ((r + (-u) * cos ψ) / √(u ^ 2 + r ^ 2 + (z - v) ^ 2 - 2 * r * u * cos ψ) ^ 3)) (fun ψ => by simp only [Real.cos_add_two_pi]),
      intervalIntegral.integral_const_mul]

/-- The field of one current ring. -/
theorem currentRing_biotSavart (p : V3) (r z : ℝ) (hr : 1e-10 ≤ r) (hoff : OffRing p r z) (hax : p.x = 0 ∧ p.y = 0 ∨ 1e-10 ≤ √(p.x ^ 2 + p.y ^ 2)) :
    fromRadial p (currentFieldRingWith (fun k => ellK (1 - k)) (fun k => ellE (1 - k)) (norm2d p.x p.y) p.z r z).1
      (currentFieldRingWith (fun k => ellK (1 - k)) (fun k => ellE (1 - k)) (norm2d p.x p.y) p.z r z).2 = ringField r z p := by
  have hr0 : 0 < r := lt_of_lt_of_le (by norm_num) hr
  have hu := norm2d_nonneg p.x p.y
  have hn := nearSq_pos hoff
  obtain ⟨α, hx, hy⟩ := exists_polar2d p.x p.y
  have hp : p = ⟨norm2d p.x p.y * cos α, norm2d p.x p.y * sin α, p.z⟩ := by
    ext
    · exact hx
    · exact hy
    · rfl
  set u := norm2d p.x p.y with hudef
  have hf : 0 < farSq u p.z r z := lt_of_lt_of_le hn (near_le_far hu hr0.le)
  have hs := Real.sqrt_pos.2 hf
  have hs2 : √(farSq u p.z r z) ^ 2 = farSq u p.z r z := Real.sq_sqrt hf.le
  have hpi := Real.pi_pos
  have hrf : ringField r z p = ringField r z ⟨u * cos α, u * sin α, p.z⟩ := congrArg _ hp
  rw [hrf, ringField_polar hu hr0 hn]
  have i1 := ring_integrals hu hr0 hn 0 1
  have i2 := ring_integrals hu hr0 hn r (-u)
  generalize ∫ φ in (0 : ℝ)..2 * π, (0 + 1 * cos φ) / √(u ^ 2 + r ^ 2 + (z - p.z) ^ 2 - 2 * r * u * cos φ) ^ 3 = I1 at *
  generalize ∫ φ in (0 : ℝ)..2 * π, (r + (-u) * cos φ) / √(u ^ 2 + r ^ 2 + (z - p.z) ^ 2 - 2 * r * u * cos φ) ^ 3 = I2 at *
  have J := integral_sin_sq_cube (div_pos hn hf)
  have hk : 1 - 4 * u * r / farSq u p.z r z = nearSq u p.z r z / farSq u p.z r z := by
    rw [eq_div_iff hf.ne', sub_mul, div_mul_cancel₀ _ hf.ne']; unfold nearSq farSq; ring
  have eA : (p.z - z) ^ 2 + (r + u) ^ 2 = farSq u p.z r z := by unfold farSq; ring
  have eB : (p.z - z) ^ 2 + (u - r) ^ 2 = nearSq u p.z r z := by unfold nearSq; ring
  unfold fromRadial currentFieldRingWith
  simp only [eA, eB, hk]
  rw [if_neg (show ¬r < minDistanceAxis by unfold minDistanceAxis; exact not_lt.2 hr)]
  have hA2 : nearSq u p.z r z = (p.z - z) ^ 2 + (r - u) ^ 2 := by unfold nearSq; ring
  have hD2 : farSq u p.z r z = (p.z - z) ^ 2 + (r + u) ^ 2 := by unfold farSq; ring
  rcases hax with ⟨hx0, hy0⟩ | hax
  · have hu0 : u = 0 := by rw [hudef]; simp [norm2d, hx0, hy0]
    have hAD : nearSq u p.z r z = farSq u p.z r z := by rw [hA2, hD2, hu0]; ring
    rw [hAD, div_self hf.ne'] at i1 i2 ⊢
    have hJ1 : ∫ θ in (0 : ℝ)..π / 2, sin θ ^ 2 / √(ellD 1 θ) ^ 3 = π / 4 := by
      have : ∀ θ, sin θ ^ 2 / √(ellD 1 θ) ^ 3 = sin θ ^ 2 := by
        intro θ; unfold ellD; simp
      simp only [this, integral_sin_sq]
      simp; ring
    rw [hJ1, ellE_one] at i1 i2
    rw [if_neg (show ¬minDistanceAxis ≤ u by rw [hu0]; unfold minDistanceAxis; norm_num)]
    simp only [ellE_one, ellK_one]
    clear J hk eA eB hAD hA2 hn hoff hp hrf hx hy
    clear_value u
    subst hu0
    generalize √(farSq 0 p.z r z) = s at *
    generalize farSq 0 p.z r z = D at *
    have hI1 : I1 = 0 := by
      have : D * s * I1 = 0 := by rw [i1]; ring
      exact (mul_eq_zero.1 this).resolve_left (by positivity)
    have hI2 : I2 = 2 * π * r / (D * s) := by
      rw [eq_div_iff (by positivity)]; linear_combination i2
    rw [hI1, hI2]
    ext
    · simp
    · simp
    · simp only
      field_simp
      rw [hD2]; ring
  · have hax' : minDistanceAxis ≤ u := by
      rw [hudef]; unfold minDistanceAxis norm2d; rwa [← sq, ← sq]
    have hu0 : 0 < u := lt_of_lt_of_le (by unfold minDistanceAxis; norm_num) hax'
    rw [if_pos hax', if_neg (not_lt.2 hax')]
    have h1p : 1 - nearSq u p.z r z / farSq u p.z r z = 4 * u * r / farSq u p.z r z := by linarith [hk]
    rw [h1p] at J
    generalize ∫ θ in (0 : ℝ)..π / 2, sin θ ^ 2 / √(ellD (nearSq u p.z r z / farSq u p.z r z) θ) ^ 3 = j at *
    generalize ellE (nearSq u p.z r z / farSq u p.z r z) = e at *
    generalize ellK (nearSq u p.z r z / farSq u p.z r z) = k at *
    clear hk eA eB hoff hp hrf
    generalize √(farSq u p.z r z) = s at *
    generalize nearSq u p.z r z = A at *
    generalize farSq u p.z r z = D at *
    have hj : j = (e - A / D * k) * D ^ 2 / (4 * u * r * A) := by
      rw [eq_div_iff (by positivity), ← J]; field_simp
    have hI1 : I1 = 4 * (-(e * D / A) + 2 * j) / (D * s) := by
      rw [eq_div_iff (by positivity)]; rw [mul_comm, i1]; field_simp; ring
    have hI2 : I2 = 4 * ((r + u) * (e * D / A) - 2 * u * j) / (D * s) := by
      rw [eq_div_iff (by positivity)]; rw [mul_comm, i2]; field_simp; ring
    rw [hI1, hI2, hj]
    have hpx : p.x / u = cos α := by rw [div_eq_iff hu0.ne', mul_comm]; exact hx
    have hpy : p.y / u = sin α := by rw [div_eq_iff hu0.ne', mul_comm]; exact hy
    rw [hpx, hpy]
    ext
    · simp only
      field_simp
      simp only [hA2, hD2]; ring
    · simp only
      field_simp
      simp only [hA2, hD2]; ring
    · simp only
      field_simp
      simp only [hA2, hD2]; ring


theorem loop_lin' (e : EffCharges V3) (f g : V3 → ℝ) (a b : ℝ) : e.loop (fun q => a * f q + b * g q) = a * e.loop f + b * e.loop g := by
  simp only [EffCharges.loop_eq]
  unfold Spec.superpose
  have inner : ∀ (c : ℝ) (l : List (ℝ × V3)), (l.map (fun y => c * y.1 * (a * f y.2 + b * g y.2))).sum =
      a * (l.map (fun y => c * y.1 * f y.2)).sum + b * (l.map (fun y => c * y.1 * g y.2)).sum := by
    intro c l
    induction l with
    | nil => simp
    | cons y l ih => simp only [List.map_cons, List.sum_cons, ih]; ring
  simp only [inner]
  induction e.charges.zip (e.jacobians.zip e.positions) with
  | nil => simp
  | cons y l ih => simp only [List.map_cons, List.sum_cons, ih]; ring

theorem loop_congr {P : Type} (e : EffCharges P) {f g : P → ℝ} (h : ∀ row ∈ e.positions, ∀ q ∈ row, f q = g q) : e.loop f = e.loop g := by
  simp only [EffCharges.loop_eq]
  unfold Spec.superpose
  congr 1
  apply List.map_congr_left
  rintro ⟨c, js, ps⟩ hx
  congr 1
  apply List.map_congr_left
  rintro ⟨j, q⟩ hy
  simp only
  rw [h ps (List.of_mem_zip (List.of_mem_zip hx).2).2 q (List.of_mem_zip hy).2]

/-- **C69.** With exact elliptic integrals, for every distribution of current rings (of radius at least `1e-10`) and every point not on one of them — on the axis or at a distance of at least `1e-10`
from it — the current field is the superposition of the fields given by the law of Biot and Savart. -/
theorem C69_current_field (e : EffCharges V3) (p : V3) (hoff : ∀ row ∈ e.positions, ∀ q ∈ row, 1e-10 ≤ q.x ∧ OffRing p q.x q.z)
    (hax : p.x = 0 ∧ p.y = 0 ∨ 1e-10 ≤ √(p.x ^ 2 + p.y ^ 2)) :
    currentFieldWith (fun k => ellK (1 - k)) (fun k => ellE (1 - k)) p e =
      ⟨e.loop (fun q => (ringField q.x q.z p).x), e.loop (fun q => (ringField q.x q.z p).y), e.loop (fun q => (ringField q.x q.z p).z)⟩ := by
  have h : ∀ row ∈ e.positions, ∀ q ∈ row, fromRadial p (currentFieldRingWith (fun k => ellK (1 - k)) (fun k => ellE (1 - k)) (norm2d p.x p.y) p.z q.x q.z).1
      (currentFieldRingWith (fun k => ellK (1 - k)) (fun k => ellE (1 - k)) (norm2d p.x p.y) p.z q.x q.z).2 = ringField q.x q.z p :=
    fun row hr q hq => currentRing_biotSavart p q.x q.z (hoff row hr q hq).1 (hoff row hr q hq).2 hax
  have hx := loop_congr e (fun row hr q hq => congrArg V3.x (h row hr q hq))
  have hy := loop_congr e (fun row hr q hq => congrArg V3.y (h row hr q hq))
  have hz := loop_congr e (fun row hr q hq => congrArg V3.z (h row hr q hq))
  rw [← hx, ← hy, ← hz]
  unfold currentFieldWith fromRadial
  split
  · have lin := fun c => loop_lin' e (fun q => (currentFieldRingWith (fun k => ellK (1 - k)) (fun k => ellE (1 - k)) (norm2d p.x p.y) p.z q.x q.z).1) (fun _ => 0) c 0
    simp only [mul_zero, add_zero, zero_mul] at lin
    ext
    · exact (lin _).symm
    · exact (lin _).symm
    · rfl
  · have zero := loop_lin' e (fun _ => 0) (fun _ => 0) 0 0
    simp only [mul_zero, add_zero, zero_mul] at zero
    ext
    · exact zero.symm
    · exact zero.symm
    · rfl

/-- A ring of radius 1 in the plane z = 0 and the points (0, 0, 2) and (3, 4, 0): the hypotheses of the theorems are met. -/
example : (0 < (1 : ℝ) ∧ OffRing ⟨3, 4, 0⟩ 1 0 ∧ (1e-10 : ℝ) ≤ √(3 ^ 2 + 4 ^ 2)) ∧ OffRing ⟨0, 0, 2⟩ 1 0 := by
  have h5 : √((3 : ℝ) ^ 2 + 4 ^ 2) = 5 := by
    rw [show (3 : ℝ) ^ 2 + 4 ^ 2 = 5 ^ 2 by norm_num]; exact Real.sqrt_sq (by norm_num)
  refine ⟨⟨one_pos, ?_, by rw [h5]; norm_num⟩, ?_⟩
  · rw [offRing_iff one_pos.le]
    have : norm2d 3 4 = 5 := by unfold norm2d; rw [← sq, ← sq]; exact h5
    simp only [this, nearSq]; norm_num
  · rw [offRing_iff one_pos.le]
    simp [nearSq, norm2d]; norm_num

end Traceon
