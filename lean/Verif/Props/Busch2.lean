import Verif.Lemmas.Busch2

/-!
# C118: Busch's theorem for magnetic lenses
-/
namespace Traceon
open Spec Set V3 Real MeasureTheory

/-- **C118** (the flux function of magnetic material). If no charged ring meets the disk around the axis at height `z` with radius `s`, the flux of the field of the rings through the disk is `2π` times the flux function at every point of its edge;
the flux function changes with the position as the field prescribes. -/
theorem C118_flux_magnetic (e : EffCharges (ℝ × ℝ)) {s z : ℝ} (hs : 0 ≤ s) (hclear : ∀ row ∈ e.positions, ∀ q ∈ row, 0 < q.1 ∧ (q.2 ≠ z ∨ s < q.1)) :
    diskFlux (coulombRings e) s z = 2 * π * diskFunction e ⟨s, 0, z⟩ ∧ (∀ θ, diskFunction e ⟨s * cos θ, s * sin θ, z⟩ = diskFunction e ⟨s, 0, z⟩) ∧
    ∀ p, ClearDisk e p → IsGradient (diskFunction e) ⟨p.x * (coulombRings e p).z, p.y * (coulombRings e p).z, -(p.x * (coulombRings e p).x + p.y * (coulombRings e p).y)⟩ p := by
  have ht := fun θ => Busch.rings_turn e (s := s) (z := z) (fun θ row hr q hq => by rw [Busch.axisDist_polar hs]; exact hclear row hr q hq) θ
  refine ⟨?_, ht, fun p hp => Busch.rings_gradient e hp⟩
  unfold diskFlux
  simp only [Busch.rings_ray e hs hclear, ht]
  rw [intervalIntegral.integral_const, sub_zero, smul_eq_mul]

section
variable {Y : ℝ → Fin 6 → ℝ} {T : ℝ}

/-- **C118**, Busch's theorem for magnetic lenses. In the field of electrodes, coils and magnetic material with radial symmetry, the angular momentum of an electron around the axis plus the charge times the flux through the circle through the electron, divided
by `2π`, changes by at most `|e/m| μ₀ D t`, where `D` bounds the error of the elliptic integrals in the field times the speed and the distance to the axis; and in every row of the result of the tracer it differs from the initial
value by at most this plus a constant times `t η⁵`, `η` being the longest step. -/
theorem C118_lens (f : FieldRadialBEM) (hbig : ∀ row ∈ f.cur.positions, ∀ q ∈ row, 1e-10 ≤ q.x) (hT : 0 ≤ T)
    (hY : ∀ t ∈ Icc 0 T, HasDerivWithinAt Y (motion constEM (tracerRadialForce f none) (Y t)) (Icc 0 T) t)
    (hoff : ∀ t ∈ Icc 0 T, minDistanceAxis < norm2d (Y t 0) (Y t 1) ∧ OffRings f.elec (Y t) ∧ OffRings f.mag (Y t) ∧ OffCoils f.cur (Y t)) (hdisk : ∀ t ∈ Icc 0 T, ClearDisk f.mag (state (Y t)).pos) {D : ℝ}
    (hD : ∀ t ∈ Icc 0 T, axisDist (state (Y t)).pos * (ringsError f.mag (state (Y t)).pos + loopsError f.cur (state (Y t)).pos) * V3.norm (state (Y t)).vel ≤ D) :
    (∀ t ∈ Icc 0 T, |lensMomentum constEM constMu0 f (state (Y t)) - lensMomentum constEM constMu0 f (state (Y 0))| ≤ |constEM| * constMu0 * D * t) ∧
    ∃ C h₁ : ℝ, 0 ≤ C ∧ 0 < h₁ ∧ ∀ (bounds : Bounds) (atol : ℝ) (B fuel : Nat) (x v : V3) (rows : List Row), 0 < atol → 2 ≤ B → vec ⟨x, v⟩ = Y 0 →
      traceParticle (tracerRadialForce f none) bounds atol B fuel x v = some rows →
      ∀ (n : ℕ) (t : ℝ) (y : Phase) (η : ℝ), rows[n]? = some (t, y) → t ≤ T → η ≤ h₁ →
        (∀ (i : ℕ) (a b : Row), i < n → rows[i]? = some a → rows[i + 1]? = some b → b.1 - a.1 ≤ η) →
        |lensMomentum constEM constMu0 f y - lensMomentum constEM constMu0 f ⟨x, v⟩| ≤ |constEM| * constMu0 * D * t + C * t * η ^ 5 := by
  have hmu : (0 : ℝ) < constMu0 := by norm_num [constMu0]
  have clear : ∀ t ∈ Icc 0 T, ClearOfLoops f.cur (state (Y t)).pos := fun t ht => Busch.clear_of_offCoils hbig (hoff t ht).2.2.2
  have key : ∀ t ∈ Icc 0 T, |lensMomentum constEM constMu0 f (state (Y t)) - lensMomentum constEM constMu0 f (state (Y 0))| ≤ |constEM| * constMu0 * D * t := by
    intro t ht
    have hd : ∀ t ∈ Icc 0 T, HasDerivWithinAt (fun t => lensMomentum constEM constMu0 f (state (Y t)))
        (constEM * constMu0 * ((state (Y t)).pos.x * (cross (state (Y t)).vel (fieldRadial (state (Y t)).pos f.mag + currentField (state (Y t)).pos f.cur - (coulombRings f.mag (state (Y t)).pos + loopsField f.cur (state (Y t)).pos))).y -
          (state (Y t)).pos.y * (cross (state (Y t)).vel (fieldRadial (state (Y t)).pos f.mag + currentField (state (Y t)).pos f.cur - (coulombRings f.mag (state (Y t)).pos + loopsField f.cur (state (Y t)).pos))).x)) (Icc 0 T) t := by
      intro t ht
      obtain ⟨h0, h1, h2, h3, h4, h5⟩ := motion_comp (hY t ht)
      have hφ := (C118_gradient f.cur (clear t ht)).along h0 h1 h2
      have hψ := (Busch.rings_gradient f.mag (hdisk t ht)).along h0 h1 h2
      have hL := (h0.mul h4).sub (h1.mul h3)
      refine (hL.add ((hφ.add hψ).const_mul (constEM * constMu0))).congr_deriv ?_
      have hE : (state (Y t)).pos.x * (fieldRadial (state (Y t)).pos f.elec).y - (state (Y t)).pos.y * (fieldRadial (state (Y t)).pos f.elec).x = 0 := by
        unfold fieldRadial fromRadial
        split
        · simp; ring
        · simp
      rw [tracerRadialForce_eq]
      simp only [state, add_x, add_y, add_z, sub_x, sub_y, sub_z, smul_x, smul_y, smul_z, zero_x, zero_y, zero_z, cross, dot] at hE ⊢
      linear_combination constEM * hE
    have := Convex.norm_image_sub_le_of_norm_hasDerivWithin_le (f := fun t => lensMomentum constEM constMu0 f (state (Y t))) (C := |constEM| * constMu0 * D) (s := Icc 0 T) (x := 0) (y := t) hd
      (fun s hs => ?_) (convex_Icc 0 T) ⟨le_rfl, ht.1.trans ht.2⟩ ht
    · rw [sub_zero, Real.norm_eq_abs, Real.norm_eq_abs, abs_of_nonneg ht.1] at this
      exact this
    · rw [Real.norm_eq_abs, abs_mul, abs_mul, abs_of_pos hmu]
      refine mul_le_mul_of_nonneg_left ?_ (by positivity)
      refine (Busch.torque _ _ _).trans (le_trans ?_ (hD s hs))
      have e1 : √((state (Y s)).pos.x ^ 2 + (state (Y s)).pos.y ^ 2) = axisDist (state (Y s)).pos := by unfold axisDist; rfl
      rw [e1, mul_assoc]
      refine mul_le_mul_of_nonneg_left ?_ (by unfold axisDist; exact Real.sqrt_nonneg _)
      refine (Busch.norm_cross _ _).trans ?_
      rw [mul_comm]
      have e2 : fieldRadial (state (Y s)).pos f.mag + currentField (state (Y s)).pos f.cur - (coulombRings f.mag (state (Y s)).pos + loopsField f.cur (state (Y s)).pos) =
          (fieldRadial (state (Y s)).pos f.mag - coulombRings f.mag (state (Y s)).pos) + (currentField (state (Y s)).pos f.cur - loopsField f.cur (state (Y s)).pos) := by
        ext <;> simp <;> ring
      rw [e2]
      refine mul_le_mul_of_nonneg_right ((norm_add_three _ _).trans (add_le_add ((C112_field f.mag _ (Busch.clear_of_disk (hdisk s hs))).1 ?_) (((C116_loops f.cur).2 _ (clear s hs)).1 ?_))) (Real.sqrt_nonneg _) <;>
      · have := (hoff s hs).1
        rw [← axisDist_eq]
        exact this.le
  refine ⟨key, ?_⟩
  obtain ⟨C, h₁, hC, hh, kk⟩ := (C78_tracer_radial f hT hY hoff).observable hT (fun t ht => (hY t ht).continuousWithinAt) (W := fun y => lensMomentum constEM constMu0 f (state y)) (by
    intro t ht
    refine (contDiffAt_angular (Y t)).add (contDiffAt_const.mul ?_)
    have hc := (Busch.contDiffAt_circleFlux f.cur (clear t ht)).add (Busch.contDiffAt_diskFunction f.mag (hdisk t ht))
    exact hc.comp (f := fun y : Fin 6 → ℝ => (y 0, y 1, y 2)) (Y t) ((contDiffAt_apply (𝕜 := ℝ) (E := ℝ) (0 : Fin 6) _).prodMk ((contDiffAt_apply (𝕜 := ℝ) (E := ℝ) (1 : Fin 6) _).prodMk
      (contDiffAt_apply (𝕜 := ℝ) (E := ℝ) (2 : Fin 6) _))))
  refine ⟨C, h₁, hC, hh, ?_⟩
  intro bounds atol B fuel x v rows ha hB h0 hrun n t y η hn ht hη hs
  have k1 := kk bounds atol B fuel x v rows ha hB h0 hrun n t y η hn ht hη hs
  have ht0 := time_nonneg ha hB hrun n _ hn
  have k2 := key t ⟨ht0, ht⟩
  rw [← h0] at k2
  simp only [state_vec] at k1 k2
  rw [abs_le] at *
  constructor <;> linarith [k1.1, k1.2, k2.1, k2.2]

end

/-- The hypotheses of `C118_lens`, in every radially symmetric field and for every electron which starts neither near the axis nor on a ring, and so that no charged ring of the magnetic material meets the disk up to the electron. -/
theorem C118_example_lens (f : FieldRadialBEM) (y₀ : Fin 6 → ℝ) (ha : minDistanceAxis < norm2d (y₀ 0) (y₀ 1)) (he : OffRings f.elec y₀) (hm : OffRings f.mag y₀) (hc : OffCoils f.cur y₀) (hd : ClearDisk f.mag (state y₀).pos) :
    ∃ (Y : ℝ → Fin 6 → ℝ) (T D : ℝ), 0 < T ∧ Y 0 = y₀ ∧ (∀ t ∈ Icc 0 T, HasDerivWithinAt Y (motion constEM (tracerRadialForce f none) (Y t)) (Icc 0 T) t) ∧
      (∀ t ∈ Icc 0 T, minDistanceAxis < norm2d (Y t 0) (Y t 1) ∧ OffRings f.elec (Y t) ∧ OffRings f.mag (Y t) ∧ OffCoils f.cur (Y t)) ∧ (∀ t ∈ Icc 0 T, ClearDisk f.mag (state (Y t)).pos) ∧
      ∀ t ∈ Icc 0 T, axisDist (state (Y t)).pos * (ringsError f.mag (state (Y t)).pos + loopsError f.cur (state (Y t)).pos) * V3.norm (state (Y t)).vel ≤ D := by
  obtain ⟨Y, T, -, hT, h0, hY, hoff, -⟩ := C85_example_radial f y₀ ha he hm hc
  have hpos : Continuous fun y : Fin 6 → ℝ => (((state y).pos.x, (state y).pos.y, (state y).pos.z) : ℝ × ℝ × ℝ) := by unfold state; fun_prop
  have hY0 : ContinuousWithinAt Y (Icc 0 T) 0 := (hY 0 ⟨le_rfl, hT.le⟩).continuousWithinAt
  have hev : ∀ᶠ t in nhdsWithin 0 (Icc 0 T), ClearDisk f.mag (state (Y t)).pos := by
    have h1 := Busch.clearDisk_open f.mag hd
    rw [← h0] at h1
    exact (hpos.continuousAt.comp_continuousWithinAt hY0).eventually h1
  obtain ⟨δ, hδ, hb⟩ := Metric.mem_nhdsWithin_iff.1 hev
  have hsub : Icc 0 (min T (δ / 2)) ⊆ Icc 0 T := Icc_subset_Icc le_rfl (min_le_left _ _)
  have hT' : 0 < min T (δ / 2) := lt_min hT (by linarith)
  have hcont : ContinuousOn (fun t => axisDist (state (Y t)).pos * (ringsError f.mag (state (Y t)).pos + loopsError f.cur (state (Y t)).pos) * V3.norm (state (Y t)).vel) (Icc 0 T) := by
    intro t ht
    have k := (hY t ht).continuousWithinAt
    have k0 : Continuous fun y : Fin 6 → ℝ => axisDist (state y).pos := by unfold axisDist state; fun_prop
    have k2 : Continuous fun y : Fin 6 → ℝ => V3.norm (state y).vel := by unfold V3.norm dot state; fun_prop
    have k1 := (continuousAt_ringsError f.mag (hoff t ht).1 (hoff t ht).2.2.1).add (Busch.continuousAt_loopsError f.cur (hoff t ht).1 (hoff t ht).2.2.2)
    have := (k0.continuousAt.mul k1).mul (k2.continuousAt (x := Y t))
    exact this.comp_continuousWithinAt (f := Y) (g := fun y => axisDist (state y).pos * (ringsError f.mag (state y).pos + loopsError f.cur (state y).pos) * V3.norm (state y).vel) k
  obtain ⟨D, hD⟩ := (isCompact_Icc.image_of_continuousOn (hcont.mono hsub)).bddAbove
  refine ⟨Y, min T (δ / 2), D, hT', h0, fun t ht => (hY t (hsub ht)).mono hsub, fun t ht => hoff t (hsub ht), fun t ht => hb ⟨?_, hsub ht⟩, fun t ht => hD ⟨t, ht, rfl⟩⟩
  rw [Metric.mem_ball, Real.dist_eq, sub_zero, abs_of_nonneg ht.1]
  have := ht.2.trans (min_le_right _ _)
  linarith

end Traceon
