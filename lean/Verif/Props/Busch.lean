import Verif.Lemmas.Busch
import Verif.Props.EnergyRadial

/-!
# C118: Busch's theorem
-/
namespace Traceon
open Spec Set V3 Real MeasureTheory

/-- **C118** (the flux function). Off the loops, the flux through the circle around the axis changes with the position as the field prescribes: outward by the field along the axis times the distance to the axis, and along the axis by minus the
field outward times the distance. -/
theorem C118_gradient (e : EffCharges V3) {p : V3} (h : ClearOfLoops e p) :
    IsGradient (circleFlux e) ⟨p.x * (loopsField e p).z, p.y * (loopsField e p).z, -(p.x * (loopsField e p).x + p.y * (loopsField e p).y)⟩ p :=
  Busch.gradient e fun row hr q hq => ⟨le_trans (by norm_num) (h row hr q hq).1, (h row hr q hq).2⟩

namespace Busch

theorem clear_of_plane {e : EffCharges V3} {s z : ℝ} (hclear : ∀ row ∈ e.positions, ∀ q ∈ row, 1e-10 ≤ q.x ∧ (q.z ≠ z ∨ s < q.x)) {p : V3} (hp : norm2d p.x p.y ≤ s) (hz : p.z = z) : ClearOfLoops e p := by
  intro row hr q hq
  obtain ⟨h1, h2⟩ := hclear row hr q hq
  have h0 : 0 ≤ q.x := le_trans (by norm_num) h1
  refine ⟨h1, (offRing_iff h0).2 ?_⟩
  unfold nearSq
  rcases h2 with h2 | h2
  · have : 0 < (q.z - p.z) ^ 2 := by rw [hz]; exact pow_pos_of_ne h2
    have := sq_nonneg (q.x - norm2d p.x p.y)
    linarith
  · have : 0 < (q.x - norm2d p.x p.y) ^ 2 := by have : 0 < q.x - norm2d p.x p.y := by linarith
                                                positivity
    have := sq_nonneg (q.z - p.z)
    linarith
where pow_pos_of_ne {a b : ℝ} (h : a ≠ b) : 0 < (a - b) ^ 2 := by have := sub_ne_zero.2 h; positivity

theorem norm2d_polar {u θ : ℝ} (hu : 0 ≤ u) : norm2d (u * cos θ) (u * sin θ) = u := by
  unfold norm2d
  rw [show u * cos θ * (u * cos θ) + u * sin θ * (u * sin θ) = u ^ 2 by linear_combination u ^ 2 * Real.sin_sq_add_cos_sq θ]
  exact Real.sqrt_sq hu

theorem axis_zero (e : EffCharges V3) (z : ℝ) : circleFlux e ⟨0, 0, z⟩ = 0 := by
  unfold circleFlux
  rw [← EffCharges.loop_eq]
  simp only [zero_mul, sub_zero]
  exact loop_nought e

/-- Along a ray from the axis. -/
theorem ray (e : EffCharges V3) {s z : ℝ} (hs : 0 ≤ s) (hclear : ∀ row ∈ e.positions, ∀ q ∈ row, 1e-10 ≤ q.x ∧ (q.z ≠ z ∨ s < q.x)) (θ : ℝ) :
    ∫ u in (0 : ℝ)..s, u * (loopsField e ⟨u * cos θ, u * sin θ, z⟩).z = circleFlux e ⟨s * cos θ, s * sin θ, z⟩ := by
  have hc : ∀ u ∈ Icc 0 s, ClearOfLoops e ⟨u * cos θ, u * sin θ, z⟩ := fun u hu => clear_of_plane hclear (by rw [norm2d_polar hu.1]; exact hu.2) rfl
  have hl : ∀ u : ℝ, HasDerivAt (fun u : ℝ => ((u * cos θ, u * sin θ, z) : ℝ × ℝ × ℝ)) (cos θ, sin θ, 0) u := fun u =>
    HasDerivAt.prodMk (((hasDerivAt_id u).mul_const _).congr_deriv (one_mul _)) (HasDerivAt.prodMk (((hasDerivAt_id u).mul_const _).congr_deriv (one_mul _)) (hasDerivAt_const u _))
  have hd : ∀ u ∈ uIcc 0 s, HasDerivAt (fun u => circleFlux e ⟨u * cos θ, u * sin θ, z⟩) (u * (loopsField e ⟨u * cos θ, u * sin θ, z⟩).z) u := fun u hu => by
    rw [uIcc_of_le hs] at hu
    have hg := C118_gradient e (hc u hu)
    rw [isGradient_iff] at hg
    have := HasFDerivAt.comp_hasDerivAt u (f := fun u : ℝ => ((u * cos θ, u * sin θ, z) : ℝ × ℝ × ℝ)) hg (hl u)
    refine this.congr_deriv ?_
    simp only [gradMap_apply]
    linear_combination u * (loopsField e ⟨u * cos θ, u * sin θ, z⟩).z * Real.sin_sq_add_cos_sq θ
  have hi : ContinuousOn (fun u : ℝ => u * (loopsField e ⟨u * cos θ, u * sin θ, z⟩).z) (uIcc 0 s) := by
    intro u hu
    rw [uIcc_of_le hs] at hu
    obtain ⟨gx, gy, gz, h1, h2, h3, -⟩ := C109_loops_everywhere e _ (hc u hu)
    rw [isGradient_iff] at h3
    have := (HasFDerivAt.comp_hasDerivAt u (f := fun u : ℝ => ((u * cos θ, u * sin θ, z) : ℝ × ℝ × ℝ)) h3 (hl u)).continuousAt
    exact (continuousAt_id.mul this).continuousWithinAt
  rw [intervalIntegral.integral_eq_sub_of_hasDerivAt hd hi.intervalIntegrable]
  simp only [zero_mul]
  rw [axis_zero, sub_zero]

/-- Around the axis. -/
theorem turn (e : EffCharges V3) {s z : ℝ} (hclear : ∀ θ : ℝ, ClearOfLoops e ⟨s * cos θ, s * sin θ, z⟩) (θ : ℝ) :
    circleFlux e ⟨s * cos θ, s * sin θ, z⟩ = circleFlux e ⟨s, 0, z⟩ := by
  have hd : ∀ θ : ℝ, HasDerivAt (fun θ => circleFlux e ⟨s * cos θ, s * sin θ, z⟩) 0 θ := fun θ => by
    have hg := C118_gradient e (hclear θ)
    rw [isGradient_iff] at hg
    have hl : HasDerivAt (fun θ : ℝ => ((s * cos θ, s * sin θ, z) : ℝ × ℝ × ℝ)) (s * -sin θ, s * cos θ, 0) θ :=
      HasDerivAt.prodMk ((hasDerivAt_cos θ).const_mul s) (HasDerivAt.prodMk ((hasDerivAt_sin θ).const_mul s) (hasDerivAt_const θ _))
    refine (HasFDerivAt.comp_hasDerivAt θ (f := fun θ : ℝ => ((s * cos θ, s * sin θ, z) : ℝ × ℝ × ℝ)) hg hl).congr_deriv ?_
    simp only [gradMap_apply]
    ring
  have := is_const_of_deriv_eq_zero (fun θ => (hd θ).differentiableAt) (fun θ => (hd θ).deriv) θ 0
  simpa using this

end Busch

/-- **C118** (what the flux function is). If no loop meets the disk around the axis at height `z` with radius `s`, the flux of the field of the coils through the disk is `2π` times the flux function at every point of its edge. -/
theorem C118_flux (e : EffCharges V3) {s z : ℝ} (hs : 0 ≤ s) (hclear : ∀ row ∈ e.positions, ∀ q ∈ row, 1e-10 ≤ q.x ∧ (q.z ≠ z ∨ s < q.x)) :
    diskFlux (loopsField e) s z = 2 * π * circleFlux e ⟨s, 0, z⟩ ∧ ∀ θ, circleFlux e ⟨s * cos θ, s * sin θ, z⟩ = circleFlux e ⟨s, 0, z⟩ := by
  have ht := fun θ => Busch.turn e (z := z) (fun θ => Busch.clear_of_plane hclear (p := ⟨s * cos θ, s * sin θ, z⟩) (by rw [Busch.norm2d_polar hs]) rfl) θ
  refine ⟨?_, ht⟩
  unfold diskFlux
  simp only [Busch.ray e hs hclear, ht]
  rw [intervalIntegral.integral_const, sub_zero, smul_eq_mul]

namespace Busch

/-- The torque around the axis is at most the force times the distance. -/
theorem torque (x y : ℝ) (A : V3) : |x * A.y - y * A.x| ≤ √(x ^ 2 + y ^ 2) * V3.norm A := by
  rw [V3.norm, ← Real.sqrt_mul (by positivity)]
  refine Real.abs_le_sqrt ?_
  unfold dot
  nlinarith [sq_nonneg (x * A.x + y * A.y), mul_nonneg (add_nonneg (sq_nonneg x) (sq_nonneg y)) (sq_nonneg A.z)]

theorem norm_cross (a b : V3) : V3.norm (cross a b) ≤ V3.norm a * V3.norm b := by
  rw [V3.norm, V3.norm, V3.norm, ← Real.sqrt_mul (V3.dot_self_nonneg _)]
  refine Real.sqrt_le_sqrt ?_
  have : dot (cross a b) (cross a b) = dot a a * dot b b - dot a b ^ 2 := by simp only [dot, cross]; ring
  rw [this]
  nlinarith [sq_nonneg (dot a b)]

theorem clear_of_offCoils {e : EffCharges V3} {y : Fin 6 → ℝ} (hbig : ∀ row ∈ e.positions, ∀ q ∈ row, 1e-10 ≤ q.x) (h : OffCoils e y) : ClearOfLoops e (state y).pos := by
  intro row hr q hq
  refine ⟨hbig row hr q hq, ?_⟩
  obtain ⟨h1, h2⟩ := h row hr q hq
  refine fun φ e => h2 ?_
  have ex : y 0 = q.x * Real.cos φ := (congrArg V3.x e).symm
  have ey : y 1 = q.x * Real.sin φ := (congrArg V3.y e).symm
  have ez : y 2 = q.z := (congrArg V3.z e).symm
  refine Prod.ext ?_ ez
  show norm2d (y 0) (y 1) = q.x
  rw [ex, ey]
  exact norm2d_polar h1.le

theorem contDiffAt_circleFlux (e : EffCharges V3) {p : V3} (h : ClearOfLoops e p) :
    ContDiffAt ℝ 1 (fun v : ℝ × ℝ × ℝ => circleFlux e ⟨v.1, v.2.1, v.2.2⟩) (p.x, p.y, p.z) := by
  have hnear := off_open e.positions (fun q => q.x) (fun q => q.z) p fun row hr q hq => ⟨le_trans (by norm_num) (h row hr q hq).1, (h row hr q hq).2⟩
  rw [contDiffAt_one_iff]
  refine ⟨fun v => (v.1 * (loopsField e ⟨v.1, v.2.1, v.2.2⟩).z) • ContinuousLinearMap.fst ℝ ℝ (ℝ × ℝ) +
    (v.2.1 * (loopsField e ⟨v.1, v.2.1, v.2.2⟩).z) • (ContinuousLinearMap.fst ℝ ℝ ℝ).comp (ContinuousLinearMap.snd ℝ ℝ (ℝ × ℝ)) +
      (-(v.1 * (loopsField e ⟨v.1, v.2.1, v.2.2⟩).x + v.2.1 * (loopsField e ⟨v.1, v.2.1, v.2.2⟩).y)) • (ContinuousLinearMap.snd ℝ ℝ ℝ).comp (ContinuousLinearMap.snd ℝ ℝ (ℝ × ℝ)), _, hnear, ?_, ?_⟩
  · intro v hv
    have hc : ClearOfLoops e ⟨v.1, v.2.1, v.2.2⟩ := fun row hr t ht => ⟨(h row hr t ht).1, hv row hr t ht⟩
    obtain ⟨gx, gy, gz, h1, h2, h3, -⟩ := C109_loops_everywhere e _ hc
    refine ContinuousAt.continuousWithinAt ?_
    have k1 : ContinuousAt (fun v : ℝ × ℝ × ℝ => v.1) v := continuousAt_fst
    have k2 : ContinuousAt (fun v : ℝ × ℝ × ℝ => v.2.1) v := by fun_prop
    exact (((k1.mul h3.continuousAt).smul continuousAt_const).add ((k2.mul h3.continuousAt).smul continuousAt_const)).add
      (((k1.mul h1.continuousAt).add (k2.mul h2.continuousAt)).neg.smul continuousAt_const)
  · intro v hv
    have hc : ClearOfLoops e ⟨v.1, v.2.1, v.2.2⟩ := fun row hr t ht => ⟨(h row hr t ht).1, hv row hr t ht⟩
    exact C118_gradient e hc

end Busch

section
variable {Y : ℝ → Fin 6 → ℝ} {T : ℝ}

/-- **C118**, Busch's theorem. In the field of electrodes and coils with radial symmetry, the angular momentum of an electron around the axis plus the charge times the flux function of the coils (the flux through the circle through the electron, divided
by `2π`) changes by at most `|e/m| μ₀ D t`, where `D` bounds the error of the elliptic integrals in the field times the speed and the distance to the axis; and in every row of the result of the tracer it differs from the initial
value by at most this plus a constant times `t η⁵`, `η` being the longest step. -/
theorem C118_busch (f : FieldRadialBEM) (hm : f.mag.charges = []) (hbig : ∀ row ∈ f.cur.positions, ∀ q ∈ row, 1e-10 ≤ q.x) (hT : 0 ≤ T)
    (hY : ∀ t ∈ Icc 0 T, HasDerivWithinAt Y (motion constEM (tracerRadialForce f none) (Y t)) (Icc 0 T) t)
    (hoff : ∀ t ∈ Icc 0 T, minDistanceAxis < norm2d (Y t 0) (Y t 1) ∧ OffRings f.elec (Y t) ∧ OffRings f.mag (Y t) ∧ OffCoils f.cur (Y t)) {D : ℝ}
    (hD : ∀ t ∈ Icc 0 T, axisDist (state (Y t)).pos * loopsError f.cur (state (Y t)).pos * V3.norm (state (Y t)).vel ≤ D) :
    (∀ t ∈ Icc 0 T, |canonicalMomentum constEM constMu0 f.cur (state (Y t)) - canonicalMomentum constEM constMu0 f.cur (state (Y 0))| ≤ |constEM| * constMu0 * D * t) ∧
    ∃ C h₁ : ℝ, 0 ≤ C ∧ 0 < h₁ ∧ ∀ (bounds : Bounds) (atol : ℝ) (B fuel : Nat) (x v : V3) (rows : List Row), 0 < atol → 2 ≤ B → vec ⟨x, v⟩ = Y 0 →
      traceParticle (tracerRadialForce f none) bounds atol B fuel x v = some rows →
      ∀ (n : ℕ) (t : ℝ) (y : Phase) (η : ℝ), rows[n]? = some (t, y) → t ≤ T → η ≤ h₁ →
        (∀ (i : ℕ) (a b : Row), i < n → rows[i]? = some a → rows[i + 1]? = some b → b.1 - a.1 ≤ η) →
        |canonicalMomentum constEM constMu0 f.cur y - canonicalMomentum constEM constMu0 f.cur ⟨x, v⟩| ≤ |constEM| * constMu0 * D * t + C * t * η ^ 5 := by
  have hmag : ∀ q, fieldRadial q f.mag = 0 := by
    intro q
    unfold fieldRadial fromRadial EffCharges.loopSub
    rw [hm]
    split <;> ext <;> simp
  have hmu : (0 : ℝ) < constMu0 := by norm_num [constMu0]
  have clear : ∀ t ∈ Icc 0 T, ClearOfLoops f.cur (state (Y t)).pos := fun t ht => Busch.clear_of_offCoils hbig (hoff t ht).2.2.2
  have key : ∀ t ∈ Icc 0 T, |canonicalMomentum constEM constMu0 f.cur (state (Y t)) - canonicalMomentum constEM constMu0 f.cur (state (Y 0))| ≤ |constEM| * constMu0 * D * t := by
    intro t ht
    have hd : ∀ t ∈ Icc 0 T, HasDerivWithinAt (fun t => canonicalMomentum constEM constMu0 f.cur (state (Y t)))
        (constEM * constMu0 * ((state (Y t)).pos.x * (cross (state (Y t)).vel (currentField (state (Y t)).pos f.cur - loopsField f.cur (state (Y t)).pos)).y -
          (state (Y t)).pos.y * (cross (state (Y t)).vel (currentField (state (Y t)).pos f.cur - loopsField f.cur (state (Y t)).pos)).x)) (Icc 0 T) t := by
      intro t ht
      obtain ⟨h0, h1, h2, h3, h4, h5⟩ := motion_comp (hY t ht)
      have hφ := (C118_gradient f.cur (clear t ht)).along h0 h1 h2
      have hL := (h0.mul h4).sub (h1.mul h3)
      refine (hL.add (hφ.const_mul (constEM * constMu0))).congr_deriv ?_
      have hE : (state (Y t)).pos.x * (fieldRadial (state (Y t)).pos f.elec).y - (state (Y t)).pos.y * (fieldRadial (state (Y t)).pos f.elec).x = 0 := by
        unfold fieldRadial fromRadial
        split
        · simp; ring
        · simp
      rw [tracerRadialForce_eq, hmag]
      simp only [state, add_x, add_y, add_z, sub_x, sub_y, sub_z, smul_x, smul_y, smul_z, zero_x, zero_y, zero_z, cross, dot] at hE ⊢
      linear_combination constEM * hE
    have := Convex.norm_image_sub_le_of_norm_hasDerivWithin_le (f := fun t => canonicalMomentum constEM constMu0 f.cur (state (Y t))) (C := |constEM| * constMu0 * D) (s := Icc 0 T) (x := 0) (y := t) hd
      (fun s hs => ?_) (convex_Icc 0 T) ⟨le_rfl, ht.1.trans ht.2⟩ ht
    · rw [sub_zero, Real.norm_eq_abs, Real.norm_eq_abs, abs_of_nonneg ht.1] at this
      exact this
    · rw [Real.norm_eq_abs, abs_mul, abs_mul, abs_of_pos hmu]
      refine mul_le_mul_of_nonneg_left ?_ (by positivity)
      refine (Busch.torque _ _ _).trans (le_trans ?_ (hD s hs))
      have e1 : √((state (Y s)).pos.x ^ 2 + (state (Y s)).pos.y ^ 2) = axisDist (state (Y s)).pos := by unfold axisDist; rfl
      rw [e1, mul_assoc]
      refine mul_le_mul_of_nonneg_left ?_ (by unfold axisDist; exact Real.sqrt_nonneg _)
      refine (Busch.norm_cross _ _).trans ?_
      rw [mul_comm]
      refine mul_le_mul_of_nonneg_right (((C116_loops f.cur).2 _ (clear s hs)).1 ?_) (Real.sqrt_nonneg _)
      have := (hoff s hs).1
      rw [← axisDist_eq]
      exact this.le
  refine ⟨key, ?_⟩
  obtain ⟨C, h₁, hC, hh, kk⟩ := (C78_tracer_radial f hT hY hoff).observable hT (fun t ht => (hY t ht).continuousWithinAt) (W := fun y => canonicalMomentum constEM constMu0 f.cur (state y)) (by
    intro t ht
    refine (contDiffAt_angular (Y t)).add (contDiffAt_const.mul ?_)
    have hc := Busch.contDiffAt_circleFlux f.cur (clear t ht)
    exact hc.comp (f := fun y : Fin 6 → ℝ => (y 0, y 1, y 2)) (Y t) ((contDiffAt_apply (𝕜 := ℝ) (E := ℝ) (0 : Fin 6) _).prodMk ((contDiffAt_apply (𝕜 := ℝ) (E := ℝ) (1 : Fin 6) _).prodMk
      (contDiffAt_apply (𝕜 := ℝ) (E := ℝ) (2 : Fin 6) _))))
  refine ⟨C, h₁, hC, hh, ?_⟩
  intro bounds atol B fuel x v rows ha hB h0 hrun n t y η hn ht hη hs
  have k1 := kk bounds atol B fuel x v rows ha hB h0 hrun n t y η hn ht hη hs
  have ht0 := time_nonneg ha hB hrun n _ hn
  have k2 := key t ⟨ht0, ht⟩
  rw [← h0] at k2
  simp only [state_vec] at k1 k2
  rw [abs_le] at *
  constructor <;> linarith [k1.1, k1.2, k2.1, k2.2]

end

namespace Busch

theorem continuousAt_loopsError (e : EffCharges V3) {y : Fin 6 → ℝ} (ha : minDistanceAxis < norm2d (y 0) (y 1)) (h : OffCoils e y) :
    ContinuousAt (fun y => loopsError e (state y).pos) y := by
  have hs := continuousAt_map_sum (y := y) (e.charges.zip (e.jacobians.zip e.positions))
    (fun (x : ℝ × List ℝ × List V3) y => ((x.2.1.zip x.2.2).map (fun z => |x.1| * |z.1| * (ringFar z.2.x z.2.z (state y).pos / (axisDist (state y).pos * ringNear z.2.x z.2.z (state y).pos)))).sum) ?_
  · exact (continuousAt_const (y := (4e-13 : ℝ))).mul hs
  intro x hx
  refine continuousAt_map_sum _ (fun (z : ℝ × V3) y => |x.1| * |z.1| * (ringFar z.2.x z.2.z (state y).pos / (axisDist (state y).pos * ringNear z.2.x z.2.z (state y).pos))) fun z hz => ?_
  obtain ⟨h1, h2⟩ := h _ (List.of_mem_zip (List.of_mem_zip hx).2).2 _ (List.of_mem_zip hz).2
  have e1 : axisDist (state y).pos = norm2d (y 0) (y 1) := (axisDist_eq _).symm
  have e2 : 0 < axisDist (state y).pos := by rw [e1]; exact lt_trans (by norm_num [minDistanceAxis]) ha
  have e3 : 0 < ringNear z.2.x z.2.z (state y).pos := by
    unfold ringNear
    refine Real.sqrt_pos.2 (lt_of_le_of_ne (by positivity) fun hz0 => h2 ?_)
    have k1 : (y 2 - z.2.z) ^ 2 = 0 := le_antisymm (by have := sq_nonneg (axisDist (state y).pos - z.2.x); have : (state y).pos.z = y 2 := rfl; rw [this] at hz0; linarith) (sq_nonneg _)
    have k2 : (axisDist (state y).pos - z.2.x) ^ 2 = 0 := le_antisymm (by have := sq_nonneg ((state y).pos.z - z.2.z); linarith) (sq_nonneg _)
    refine Prod.ext ?_ ?_
    · rw [← e1]; exact sub_eq_zero.1 (pow_eq_zero_iff two_ne_zero |>.1 k2)
    · exact sub_eq_zero.1 (pow_eq_zero_iff two_ne_zero |>.1 k1)
  refine ContinuousAt.mul continuousAt_const (ContinuousAt.div ?_ ?_ (mul_pos e2 e3).ne')
  · unfold ringFar state
    exact Continuous.continuousAt (by unfold axisDist; fun_prop)
  · unfold axisDist ringNear state
    exact Continuous.continuousAt (by unfold axisDist; fun_prop)

end Busch

/-- The hypotheses of `C118_busch`, in every radially symmetric field and for every electron which starts neither near the axis nor on a ring: for some time there is a solution of the equation of motion which stays off the axis and the rings, with a
bound for the error of the magnetic field along it. -/
theorem C118_example (f : FieldRadialBEM) (y₀ : Fin 6 → ℝ) (ha : minDistanceAxis < norm2d (y₀ 0) (y₀ 1)) (he : OffRings f.elec y₀) (hm : OffRings f.mag y₀) (hc : OffCoils f.cur y₀) :
    ∃ (Y : ℝ → Fin 6 → ℝ) (T D : ℝ), 0 < T ∧ Y 0 = y₀ ∧ (∀ t ∈ Icc 0 T, HasDerivWithinAt Y (motion constEM (tracerRadialForce f none) (Y t)) (Icc 0 T) t) ∧
      (∀ t ∈ Icc 0 T, minDistanceAxis < norm2d (Y t 0) (Y t 1) ∧ OffRings f.elec (Y t) ∧ OffRings f.mag (Y t) ∧ OffCoils f.cur (Y t)) ∧
      ∀ t ∈ Icc 0 T, axisDist (state (Y t)).pos * loopsError f.cur (state (Y t)).pos * V3.norm (state (Y t)).vel ≤ D := by
  obtain ⟨Y, T, -, hT, h0, hY, hoff, -⟩ := C85_example_radial f y₀ ha he hm hc
  have hcont : ContinuousOn (fun t => axisDist (state (Y t)).pos * loopsError f.cur (state (Y t)).pos * V3.norm (state (Y t)).vel) (Icc 0 T) := by
    intro t ht
    have k := (hY t ht).continuousWithinAt
    have k0 : Continuous fun y : Fin 6 → ℝ => axisDist (state y).pos := by unfold axisDist state; fun_prop
    have k2 : Continuous fun y : Fin 6 → ℝ => V3.norm (state y).vel := by unfold V3.norm dot state; fun_prop
    have k1 := Busch.continuousAt_loopsError f.cur (hoff t ht).1 (hoff t ht).2.2.2
    have := (k0.continuousAt.mul k1).mul (k2.continuousAt (x := Y t))
    exact this.comp_continuousWithinAt (f := Y) (g := fun y => axisDist (state y).pos * loopsError f.cur (state y).pos * V3.norm (state y).vel) k
  obtain ⟨D, hD⟩ := (isCompact_Icc.image_of_continuousOn hcont).bddAbove
  exact ⟨Y, T, D, hT, h0, hY, hoff, fun t ht => hD ⟨t, ht, rfl⟩⟩

/-- A loop of radius 3 with a current of 1: the flux through every disk of radius 2, and through the disks of radius 5 that are not in the plane of the loop. -/
theorem C118_example_flux : let e : EffCharges V3 := ⟨1, [1], [[1]], [[⟨3, 0, -1⟩]]⟩
    (∀ z, diskFlux (loopsField e) 2 z = 2 * π * circleFlux e ⟨2, 0, z⟩) ∧ ∀ z, z ≠ -1 → diskFlux (loopsField e) 5 z = 2 * π * circleFlux e ⟨5, 0, z⟩ := by
  intro e
  have hq : ∀ row ∈ e.positions, ∀ q ∈ row, q = ⟨3, 0, -1⟩ := fun row hr q hq => by
    have : row = [⟨3, 0, -1⟩] := List.mem_singleton.1 hr
    rw [this] at hq
    exact List.mem_singleton.1 hq
  refine ⟨fun z => (C118_flux e (by norm_num) fun row hr q h => ?_).1, fun z hz => (C118_flux e (by norm_num) fun row hr q h => ?_).1⟩
  · rw [hq row hr q h]; exact ⟨by norm_num, .inr (by norm_num)⟩
  · rw [hq row hr q h]; exact ⟨by norm_num, .inl hz.symm⟩

end Traceon
