import Verif.Props.VacuumRadial2
import Verif.Props.Coil
import Verif.Props.Axial
import Mathlib.MeasureTheory.Integral.IntervalIntegral.FundThmCalculus

/-! # Ampère's law on the axis (C110) -/
namespace Traceon
open Real Spec V3 Filter Topology

/-- The potential of one ring far away: `z/√(z² + r²)` tends to 1. -/
theorem ring_limit_top (r z : ℝ) : Tendsto (fun z0 => currentPotentialAxialRadialRing z0 r z) atTop (𝓝 (-(1 / 2))) := by
  have h1 : Tendsto (fun z0 : ℝ => z0 - z) atTop atTop := tendsto_atTop_add_const_right _ _ tendsto_id
  have h2 : Tendsto (fun x : ℝ => -(1 / (2 * √(1 + (r / x) ^ 2)))) atTop (𝓝 (-(1 / (2 * √(1 + 0 ^ 2))))) := by
    have h3 : Tendsto (fun x : ℝ => r / x) atTop (𝓝 0) := tendsto_const_nhds.div_atTop tendsto_id
    refine (tendsto_const_nhds.div (tendsto_const_nhds.mul (tendsto_const_nhds.add (h3.pow 2)).sqrt) ?_).neg
    simp
  have h4 := h2.comp h1
  have e : -(1 / (2 * √(1 + 0 ^ 2))) = -(1 / 2 : ℝ) := by simp
  rw [e] at h4
  refine h4.congr' ?_
  filter_upwards [eventually_gt_atTop z] with z0 hz
  have hx : 0 < z0 - z := by linarith
  unfold currentPotentialAxialRadialRing
  simp only [Function.comp]
  generalize z0 - z = x at *
  have : x * x + r * r = x ^ 2 * (1 + (r / x) ^ 2) := by field_simp
  rw [this, Real.sqrt_mul (sq_nonneg x), Real.sqrt_sq hx.le]
  have h0 : 0 < √(1 + (r / x) ^ 2) := Real.sqrt_pos.2 (by positivity)
  generalize √(1 + (r / x) ^ 2) = s at *
  field_simp

theorem ring_odd (r z x : ℝ) : currentPotentialAxialRadialRing (z - x) r z = -currentPotentialAxialRadialRing (z + x) r z := by
  unfold currentPotentialAxialRadialRing
  rw [show z - x - z = -x by ring, show z + x - z = x by ring, neg_mul_neg, neg_neg, neg_div, neg_neg]

theorem ring_limit_bot (r z : ℝ) : Tendsto (fun z0 => currentPotentialAxialRadialRing z0 r z) atBot (𝓝 (1 / 2)) := by
  have h1 : Tendsto (fun z0 : ℝ => z + (z - z0)) atBot atTop := by
    refine tendsto_atTop_add_const_left _ _ ?_
    have := tendsto_atTop_add_const_left (atBot : Filter ℝ) z (tendsto_neg_atBot_atTop (G := ℝ))
    exact this.congr fun t => (sub_eq_add_neg z t).symm
  have h2 := ((ring_limit_top r z).comp h1).neg
  rw [neg_neg] at h2
  refine h2.congr fun z0 => ?_
  simp only [Function.comp]
  rw [← ring_odd]; congr 1; ring

theorem tendsto_superpose_filter {P ι : Type} {l : Filter ι} (e : EffCharges P) {f : ι → P → ℝ} {g : P → ℝ} (h : ∀ q, Tendsto (fun t => f t q) l (𝓝 (g q))) :
    Tendsto (fun t => superpose (f t) e) l (𝓝 (superpose g e)) := by
  unfold superpose
  refine tendsto_list_sum _ fun x _ => tendsto_list_sum _ fun y _ => ?_
  exact (h y.2).const_mul _

theorem superpose_constant {P : Type} (e : EffCharges P) (k : ℝ) : superpose (fun _ => k) e = k * superpose (fun _ => 1) e := by
  have h := loop_mul_left e k (fun _ => 1)
  rw [EffCharges.loop_eq, EffCharges.loop_eq] at h
  rw [← h]; congr 1; funext q; ring

/-- **C110** (current rings). The field on the axis, according to the law of Biot and Savart, is minus the derivative of `current_potential_axial`, and the integral of the field along the
axis is the total current `I`; at the two ends of the axis the potential is `∓I/2`. -/
theorem C110_rings (e : EffCharges V3) (he : ∀ row ∈ e.positions, ∀ q ∈ row, 0 < q.x) :
    (∀ z₁ z₂, ∫ z in z₁..z₂, (loopsField e ⟨0, 0, z⟩).z = currentPotentialAxial z₁ e - currentPotentialAxial z₂ e) ∧
    Tendsto (fun z => currentPotentialAxial z e) atTop (𝓝 (-(superpose (fun _ => 1) e / 2))) ∧
    Tendsto (fun z => currentPotentialAxial z e) atBot (𝓝 (superpose (fun _ => 1) e / 2)) ∧
    Tendsto (fun ab : ℝ × ℝ => ∫ z in ab.1..ab.2, (loopsField e ⟨0, 0, z⟩).z) (atBot ×ˢ atTop) (𝓝 (superpose (fun _ => 1) e)) := by
  have hd := (C51_currents e he).2
  have hint : ∀ z₁ z₂, ∫ z in z₁..z₂, (loopsField e ⟨0, 0, z⟩).z = currentPotentialAxial z₁ e - currentPotentialAxial z₂ e := by
    intro z₁ z₂
    have hfld : (fun z => (loopsField e ⟨0, 0, z⟩).z) = fun z => -currentAxialDerivativesRadial z e 1 := by
      funext z
      have h0 : HasDerivAt (fun z => currentAxialDerivativesRadial z e 0) (currentAxialDerivativesRadial z e 1) z := current_axial_chain e he 0 z
      have h1 : HasDerivAt (fun z => currentAxialDerivativesRadial z e 0) _ z := hd z
      rw [h0.unique h1, neg_neg]; rfl
    have hcont : Continuous (fun z => (loopsField e ⟨0, 0, z⟩).z) := by
      rw [hfld]
      refine Continuous.neg (continuous_iff_continuousAt.2 fun z => (current_axial_chain e he 1 z).continuousAt)
    have := intervalIntegral.integral_eq_sub_of_hasDerivAt (f := fun z => -currentPotentialAxial z e) (f' := fun z => (loopsField e ⟨0, 0, z⟩).z) (a := z₁) (b := z₂)
      (fun z _ => (hd z).neg.congr_deriv (by rw [neg_neg]; rfl)) (hcont.intervalIntegrable _ _)
    rw [this]; ring
  have ht : Tendsto (fun z => currentPotentialAxial z e) atTop (𝓝 (-(superpose (fun _ => 1) e / 2))) := by
    have h := tendsto_superpose_filter e (f := fun z q => currentPotentialAxialRadialRing z q.x q.z) (g := fun _ => -(1 / 2)) (l := atTop) fun q => ring_limit_top q.x q.z
    rw [superpose_constant, show -(1 / 2) * superpose (fun _ => 1) e = -(superpose (fun _ => 1) e / 2) by ring] at h
    refine h.congr fun z => ?_
    unfold currentPotentialAxial; rw [EffCharges.loop_eq]
  have hb : Tendsto (fun z => currentPotentialAxial z e) atBot (𝓝 (superpose (fun _ => 1) e / 2)) := by
    have h := tendsto_superpose_filter e (f := fun z q => currentPotentialAxialRadialRing z q.x q.z) (g := fun _ => 1 / 2) (l := atBot) fun q => ring_limit_bot q.x q.z
    rw [superpose_constant, show 1 / 2 * superpose (fun _ => 1) e = superpose (fun _ => 1) e / 2 by ring] at h
    refine h.congr fun z => ?_
    unfold currentPotentialAxial; rw [EffCharges.loop_eq]
  refine ⟨hint, ht, hb, ?_⟩
  have h := (hb.comp (tendsto_fst (f := (atBot : Filter ℝ)) (g := (atTop : Filter ℝ)))).sub (ht.comp (tendsto_snd (f := (atBot : Filter ℝ)) (g := (atTop : Filter ℝ))))
  rw [show superpose (fun _ => 1) e / 2 - -(superpose (fun _ => 1) e / 2) = superpose (fun _ => 1) e by ring] at h
  exact h.congr fun ab => (hint ab.1 ab.2).symm

/-- **C110** (coils). The triangles of the coils are to the right of the axis. The integral of the magnetic field along the axis is the sum of the currents that were asked for. -/
theorem C110_coils (x : Excitation ℝ V3) (hv : Spec.Valid x.mesh) (hnum : ∀ nv ∈ x.types, nv.2.1 = .current → ∃ v, nv.2.2 = .num v)
    (harea : ∀ c ∈ Spec.coils x, ∃ t ∈ c.2, Spec.area t ≠ 0) (hright : ∀ c ∈ Spec.coils x, ∀ t ∈ c.2, 0 < t.v0.x ∧ 0 < t.v1.x ∧ 0 < t.v2.x) :
    ∃ e, x.currentCharges = some e ∧
      (∀ z₁ z₂, ∫ z in z₁..z₂, (loopsField e ⟨0, 0, z⟩).z = currentPotentialAxial z₁ e - currentPotentialAxial z₂ e) ∧
      Tendsto (fun z => currentPotentialAxial z e) atTop (𝓝 (-(((Spec.coils x).map Prod.fst).sum / 2))) ∧
      Tendsto (fun z => currentPotentialAxial z e) atBot (𝓝 (((Spec.coils x).map Prod.fst).sum / 2)) ∧
      Tendsto (fun ab : ℝ × ℝ => ∫ z in ab.1..ab.2, (loopsField e ⟨0, 0, z⟩).z) (atBot ×ˢ atTop) (𝓝 ((Spec.coils x).map Prod.fst).sum) := by
  refine ⟨_, currentCharges_join x hv hnum harea, ?_⟩
  have hsum : superpose (fun _ => 1) (joinParts (Spec.coils x)) = ((Spec.coils x).map Prod.fst).sum := by
    rw [joinParts_superpose]
    congr 1
    refine List.map_congr_left fun c hc => ?_
    exact coilPart_total c.1 c.2 (harea c hc)
  have h := C110_rings (joinParts (Spec.coils x)) (by
    intro row hr q hq
    obtain ⟨c, hc, t, ht, a, b, d, ha, hb, hd, -, rfl⟩ := joinParts_inside row hr q hq
    obtain ⟨k1, k2, k3⟩ := hright c hc t ht
    simp only [V3.add_x, V3.smul_x]
    positivity)
  rw [hsum] at h
  exact h

/-- The coil of two triangles with a current of 3 lies to the right of the axis. -/
theorem C110_example : (∀ c ∈ Spec.coils coilExample, ∀ t ∈ c.2, 0 < t.v0.x ∧ 0 < t.v1.x ∧ 0 < t.v2.x) ∧ ((Spec.coils coilExample).map Prod.fst).sum = 3 := by
  have hc : Spec.coils coilExample = [(3, [⟨⟨1, 0, 0⟩, ⟨2, 0, 0⟩, ⟨2, 0, 1⟩⟩, ⟨⟨1, 0, 0⟩, ⟨2, 0, 1⟩, ⟨1, 0, 1⟩⟩])] := rfl
  rw [hc]
  constructor
  · intro c hc t ht
    simp only [List.mem_cons, List.not_mem_nil, or_false] at hc
    subst hc
    simp only [List.mem_cons, List.not_mem_nil, or_false] at ht
    rcases ht with rfl | rfl <;> norm_num
  · simp

end Traceon
