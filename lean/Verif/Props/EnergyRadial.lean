import Verif.Props.Energy2
import Verif.Props.VacuumAxis

/-!
# C85: the total energy of electrons in radially symmetric fields
-/
namespace Traceon
open Spec Set V3

/-- A point whose distance to the axis or height is not that of the ring is not on the ring. -/
theorem clear_of_off {e : EffCharges (ℝ × ℝ)} {y : Fin 6 → ℝ} (h : OffRings e y) : ClearOfRings e (state y).pos := by
  intro row hr q hq
  obtain ⟨h1, h2⟩ := h row hr q hq
  refine ⟨h1, fun φ e => h2 ?_⟩
  have ex : y 0 = q.1 * Real.cos φ := (congrArg V3.x e).symm
  have ey : y 1 = q.1 * Real.sin φ := (congrArg V3.y e).symm
  have ez : y 2 = q.2 := (congrArg V3.z e).symm
  refine Prod.ext ?_ ez
  show norm2d (y 0) (y 1) = q.1
  unfold norm2d
  rw [show y 0 * y 0 + y 1 * y 1 = q.1 ^ 2 by rw [ex, ey]; linear_combination q.1 ^ 2 * Real.sin_sq_add_cos_sq φ]
  exact Real.sqrt_sq h1.le

/-- The potential of the rings is continuously differentiable off the rings. -/
theorem contDiffAt_ringsPotential (e : EffCharges (ℝ × ℝ)) {p : V3} (h : ClearOfRings e p) :
    ContDiffAt ℝ 1 (fun v : ℝ × ℝ × ℝ => ringsPotential e ⟨v.1, v.2.1, v.2.2⟩) (p.x, p.y, p.z) := by
  have hnear := off_open e.positions (fun q => q.1) (fun q => q.2) p fun row hr q hq => ⟨(h row hr q hq).1.le, (h row hr q hq).2⟩
  rw [contDiffAt_one_iff]
  refine ⟨fun v => (-coulombRings e ⟨v.1, v.2.1, v.2.2⟩).x • ContinuousLinearMap.fst ℝ ℝ (ℝ × ℝ) +
    (-coulombRings e ⟨v.1, v.2.1, v.2.2⟩).y • (ContinuousLinearMap.fst ℝ ℝ ℝ).comp (ContinuousLinearMap.snd ℝ ℝ (ℝ × ℝ)) +
      (-coulombRings e ⟨v.1, v.2.1, v.2.2⟩).z • (ContinuousLinearMap.snd ℝ ℝ ℝ).comp (ContinuousLinearMap.snd ℝ ℝ (ℝ × ℝ)), _, hnear, ?_, ?_⟩
  · intro v hv
    have hc : ClearOfRings e ⟨v.1, v.2.1, v.2.2⟩ := fun row hr t ht => ⟨(h row hr t ht).1, hv row hr t ht⟩
    obtain ⟨gx, gy, gz, h1, h2, h3, -⟩ := (C109_rings_everywhere e _ hc).1
    refine ContinuousAt.continuousWithinAt ?_
    have c1 : ContinuousAt (fun v : ℝ × ℝ × ℝ => (-coulombRings e ⟨v.1, v.2.1, v.2.2⟩).x) v := (h1.continuousAt).neg
    have c2 : ContinuousAt (fun v : ℝ × ℝ × ℝ => (-coulombRings e ⟨v.1, v.2.1, v.2.2⟩).y) v := (h2.continuousAt).neg
    have c3 : ContinuousAt (fun v : ℝ × ℝ × ℝ => (-coulombRings e ⟨v.1, v.2.1, v.2.2⟩).z) v := (h3.continuousAt).neg
    exact ((c1.smul continuousAt_const).add (c2.smul continuousAt_const)).add (c3.smul continuousAt_const)
  · intro v hv
    have hc : ClearOfRings e ⟨v.1, v.2.1, v.2.2⟩ := fun row hr t ht => ⟨(h row hr t ht).1, hv row hr t ht⟩
    exact (C109_rings_everywhere e _ hc).2.1

/-- The energy of an electron in a potential `φ` with a magnetic field changes slowly if the electric field is almost minus the gradient of the potential. -/
theorem energy_drift {em : ℝ} (hem : em ≠ 0) {field : Phase → V3} {φ : V3 → ℝ} {E E' B : V3 → V3} {Y : ℝ → Fin 6 → ℝ} {T : ℝ}
    (hY : ∀ t ∈ Icc 0 T, HasDerivWithinAt Y (motion em field (Y t)) (Icc 0 T) t)
    (hF : ∀ p, field p = E p.pos + cross p.vel (B p.pos)) (hE : ∀ t ∈ Icc 0 T, IsGradient φ (-E' (state (Y t)).pos) (state (Y t)).pos) {D : ℝ}
    (hD : ∀ t ∈ Icc 0 T, V3.norm (E (state (Y t)).pos - E' (state (Y t)).pos) * V3.norm (state (Y t)).vel ≤ D) :
    ∀ t ∈ Icc 0 T, |energy em φ (state (Y t)) - energy em φ (state (Y 0))| ≤ D * t := by
  intro t ht
  have hd : ∀ t ∈ Icc 0 T, HasDerivWithinAt (fun t => energy em φ (state (Y t))) (-dot (E (state (Y t)).pos - E' (state (Y t)).pos) (state (Y t)).vel) (Icc 0 T) t := by
    intro t ht
    obtain ⟨h0, h1, h2, h3, h4, h5⟩ := motion_comp (hY t ht)
    have hφ := (hE t ht).along h0 h1 h2
    have hk := ((h3.mul h3).add (h4.mul h4)).add (h5.mul h5)
    have := (hk.div_const (2 * -em)).sub hφ
    refine this.congr_deriv ?_
    rw [hF]
    simp only [state, neg_x, neg_y, neg_z, add_x, add_y, add_z, sub_x, sub_y, sub_z, cross, dot]
    field_simp
    ring
  have := Convex.norm_image_sub_le_of_norm_hasDerivWithin_le (f := fun t => energy em φ (state (Y t))) (C := D) (s := Icc 0 T) (x := 0) (y := t) hd (fun s hs => ?_) (convex_Icc 0 T)
    ⟨le_rfl, ht.1.trans ht.2⟩ ht
  · rw [sub_zero, Real.norm_eq_abs, Real.norm_eq_abs, abs_of_nonneg ht.1] at this
    exact this
  · rw [Real.norm_eq_abs, abs_neg]
    exact (abs_dot_le _ _).trans (hD s hs)

theorem time_nonneg {field : Phase → V3} {bounds : Bounds} {atol : ℝ} (ha : 0 < atol) {B : Nat} (hB : 2 ≤ B) {fuel : Nat} {x v : V3} {rows : List Row}
    (hrun : traceParticle field bounds atol B fuel x v = some rows) : ∀ (k : ℕ) (a : Row), rows[k]? = some a → 0 ≤ a.1 := by
  have traj := C46_trajectory field bounds atol ha B hB fuel x v rows hrun
  intro k
  induction k with
  | zero =>
    intro a hra
    rw [traj.first] at hra
    cases hra
    exact le_rfl
  | succ k ih =>
    intro a hra
    have hlt : k < rows.length := by have := (List.getElem?_eq_some_iff.1 hra).1; omega
    have i1 := ih rows[k] (List.getElem?_eq_getElem hlt)
    have hs : k / (B - 1) * (B - 1) < rows.length := lt_of_le_of_lt (Nat.div_mul_le_self k (B - 1)) hlt
    obtain ⟨h1, -⟩ := traj.step k _ _ _ (List.getElem?_eq_getElem hlt) hra (List.getElem?_eq_getElem hs)
    linarith

section
variable {Y : ℝ → Fin 6 → ℝ} {T : ℝ}

/-- **C85** for the total energy in radially symmetric fields. There is a potential `φ` (that of the charged rings), from which the returned potential differs by no more than the
error of the elliptic integrals, such that the energy of an electron moving in the field which the tracer uses changes by at most `D t`, where `D` bounds the error of
the field times the speed; and the energy in every row of the result of the tracer differs from the initial energy by at most this plus a constant times `t η⁵`. -/
theorem C85_radial (f : FieldRadialBEM) (hT : 0 ≤ T) (hY : ∀ t ∈ Icc 0 T, HasDerivWithinAt Y (motion constEM (tracerRadialForce f none) (Y t)) (Icc 0 T) t)
    (hoff : ∀ t ∈ Icc 0 T, minDistanceAxis < norm2d (Y t 0) (Y t 1) ∧ OffRings f.elec (Y t) ∧ OffRings f.mag (Y t) ∧ OffCoils f.cur (Y t)) {D : ℝ}
    (hD : ∀ t ∈ Icc 0 T, ringsError f.elec (state (Y t)).pos * V3.norm (state (Y t)).vel ≤ D) :
    ∃ φ : V3 → ℝ, (∀ q, ClearOfRings f.elec q → Harmonic φ q ∧ ∃ u, PyObj.electrostaticPotential q (.radial f) = some u ∧
        |u - φ q| ≤ 4e-13 * absSuperpose (fun s => ringPotential s.1 s.2 q) f.elec) ∧
      (∀ t ∈ Icc 0 T, |energy constEM φ (state (Y t)) - energy constEM φ (state (Y 0))| ≤ D * t) ∧
      ∃ C h₁ : ℝ, 0 ≤ C ∧ 0 < h₁ ∧ ∀ (bounds : Bounds) (atol : ℝ) (B fuel : Nat) (x v : V3) (rows : List Row), 0 < atol → 2 ≤ B → vec ⟨x, v⟩ = Y 0 →
        traceParticle (tracerRadialForce f none) bounds atol B fuel x v = some rows →
        ∀ (n : ℕ) (t : ℝ) (y : Phase) (η : ℝ), rows[n]? = some (t, y) → t ≤ T → η ≤ h₁ →
          (∀ (i : ℕ) (a b : Row), i < n → rows[i]? = some a → rows[i + 1]? = some b → b.1 - a.1 ≤ η) →
          |energy constEM φ y - energy constEM φ ⟨x, v⟩| ≤ D * t + C * t * η ^ 5 := by
  have key : ∀ t ∈ Icc 0 T, |energy constEM (ringsPotential f.elec) (state (Y t)) - energy constEM (ringsPotential f.elec) (state (Y 0))| ≤ D * t := by
    refine energy_drift constEM_ne (E := fun q => fieldRadial q f.elec) (E' := coulombRings f.elec) (B := fun q => constMu0 * (fieldRadial q f.mag + currentField q f.cur)) hY
      (tracerRadialForce_eq f) (fun t ht => (C109_rings_everywhere f.elec _ (clear_of_off (hoff t ht).2.1)).2.1) fun t ht => le_trans ?_ (hD t ht)
    refine mul_le_mul_of_nonneg_right ((C112_field f.elec _ (clear_of_off (hoff t ht).2.1)).1 ?_) (Real.sqrt_nonneg _)
    have := (hoff t ht).1
    rw [← axisDist_eq]
    exact this.le
  refine ⟨ringsPotential f.elec, fun q hq => ⟨(C109_rings_everywhere f.elec q hq).2.2, _, rfl, C75_potential f.elec q hq⟩, key, ?_⟩
  obtain ⟨C, h₁, hC, hh, kk⟩ := (C78_tracer_radial f hT hY hoff).observable hT (fun t ht => (hY t ht).continuousWithinAt) (W := fun y => energy constEM (ringsPotential f.elec) (state y)) (by
    intro t ht
    refine (contDiffAt_kinetic constEM (Y t)).sub ?_
    have hc := contDiffAt_ringsPotential f.elec (clear_of_off (hoff t ht).2.1)
    exact hc.comp (f := fun y : Fin 6 → ℝ => (y 0, y 1, y 2)) (Y t) ((contDiffAt_apply (𝕜 := ℝ) (E := ℝ) (0 : Fin 6) _).prodMk ((contDiffAt_apply (𝕜 := ℝ) (E := ℝ) (1 : Fin 6) _).prodMk
      (contDiffAt_apply (𝕜 := ℝ) (E := ℝ) (2 : Fin 6) _))))
  refine ⟨C, h₁, hC, hh, ?_⟩
  intro bounds atol B fuel x v rows ha hB h0 hrun n t y η hn ht hη hs
  have k1 := kk bounds atol B fuel x v rows ha hB h0 hrun n t y η hn ht hη hs
  have ht0 := time_nonneg ha hB hrun n _ hn
  have k2 := key t ⟨ht0, ht⟩
  rw [← h0] at k2
  simp only [state_vec] at k1 k2
  rw [abs_le] at *
  constructor <;> linarith [k1.1, k1.2, k2.1, k2.2]

end

theorem continuousAt_map_sum {α E : Type*} [TopologicalSpace E] {y : E} (l : List α) (g : α → E → ℝ) (h : ∀ a ∈ l, ContinuousAt (g a) y) :
    ContinuousAt (fun y => (l.map fun a => g a y).sum) y := by
  induction l with
  | nil => exact continuousAt_const
  | cons a l ih =>
    simp only [List.map_cons, List.sum_cons]
    exact (h a List.mem_cons_self).add (ih fun b hb => h b (List.mem_cons_of_mem _ hb))

theorem continuousAt_ringsError (e : EffCharges (ℝ × ℝ)) {y : Fin 6 → ℝ} (ha : minDistanceAxis < norm2d (y 0) (y 1)) (h : OffRings e y) :
    ContinuousAt (fun y => ringsError e (state y).pos) y := by
  have hs := continuousAt_map_sum (y := y) (e.charges.zip (e.jacobians.zip e.positions))
    (fun (x : ℝ × List ℝ × List (ℝ × ℝ)) y => ((x.2.1.zip x.2.2).map (fun z => |x.1| * |z.1| * (z.2.1 / (axisDist (state y).pos * ringNear z.2.1 z.2.2 (state y).pos)))).sum) ?_
  · exact (continuousAt_const (y := (4e-13 : ℝ))).mul hs
  intro x hx
  refine continuousAt_map_sum _ (fun (z : ℝ × ℝ × ℝ) y => |x.1| * |z.1| * (z.2.1 / (axisDist (state y).pos * ringNear z.2.1 z.2.2 (state y).pos))) fun z hz => ?_
  obtain ⟨h1, h2⟩ := h _ (List.of_mem_zip (List.of_mem_zip hx).2).2 _ (List.of_mem_zip hz).2
  have e1 : axisDist (state y).pos = norm2d (y 0) (y 1) := (axisDist_eq _).symm
  have e2 : 0 < axisDist (state y).pos := by rw [e1]; exact lt_trans (by norm_num [minDistanceAxis]) ha
  have e3 : 0 < ringNear z.2.1 z.2.2 (state y).pos := by
    unfold ringNear
    refine Real.sqrt_pos.2 (lt_of_le_of_ne (by positivity) fun hz0 => h2 ?_)
    have k1 : (y 2 - z.2.2) ^ 2 = 0 := le_antisymm (by have := sq_nonneg (axisDist (state y).pos - z.2.1); have : (state y).pos.z = y 2 := rfl; rw [this] at hz0; linarith) (sq_nonneg _)
    have k2 : (axisDist (state y).pos - z.2.1) ^ 2 = 0 := le_antisymm (by have := sq_nonneg ((state y).pos.z - z.2.2); linarith) (sq_nonneg _)
    refine Prod.ext ?_ ?_
    · rw [← e1]; exact sub_eq_zero.1 (pow_eq_zero_iff two_ne_zero |>.1 k2)
    · exact sub_eq_zero.1 (pow_eq_zero_iff two_ne_zero |>.1 k1)
  refine ContinuousAt.mul continuousAt_const (ContinuousAt.div continuousAt_const ?_ (mul_pos e2 e3).ne')
  unfold axisDist ringNear state
  exact Continuous.continuousAt (by unfold axisDist; fun_prop)

/-- The hypotheses of `C85_radial` (and of `C85_magnetic`, `C85_angular` and `C78_tracer_radial`), in every radially symmetric field and for every electron which starts neither near the axis nor on a
ring: for some time there is a solution of the equation of motion which stays off the axis and the rings, with a bound for the error of the field along it. -/
theorem C85_example_radial (f : FieldRadialBEM) (y₀ : Fin 6 → ℝ) (ha : minDistanceAxis < norm2d (y₀ 0) (y₀ 1)) (he : OffRings f.elec y₀) (hm : OffRings f.mag y₀) (hc : OffCoils f.cur y₀) :
    ∃ (Y : ℝ → Fin 6 → ℝ) (T D : ℝ), 0 < T ∧ Y 0 = y₀ ∧ (∀ t ∈ Icc 0 T, HasDerivWithinAt Y (motion constEM (tracerRadialForce f none) (Y t)) (Icc 0 T) t) ∧
      (∀ t ∈ Icc 0 T, minDistanceAxis < norm2d (Y t 0) (Y t 1) ∧ OffRings f.elec (Y t) ∧ OffRings f.mag (Y t) ∧ OffCoils f.cur (Y t)) ∧
      ∀ t ∈ Icc 0 T, ringsError f.elec (state (Y t)).pos * V3.norm (state (Y t)).vel ≤ D := by
  obtain ⟨Y, h0, ε, hε, hY⟩ := (contDiffAt_tracerRadial (n := 1) f ha he hm hc).exists_forall_mem_closedBall_exists_eq_forall_mem_Ioo_hasDerivAt₀ 0
  have hcY : ContinuousAt Y 0 := (hY 0 ⟨by linarith, by linarith⟩).continuousAt
  have hopen := (isOpen_offAxis.inter ((isOpen_offRings f.elec).inter ((isOpen_offRings f.mag).inter (isOpen_offCoils f.cur)))).mem_nhds (x := Y 0) (by rw [h0]; exact ⟨ha, he, hm, hc⟩)
  obtain ⟨δ, hδ, hball⟩ := Metric.mem_nhds_iff.1 (hcY hopen)
  have hsol : ∀ t ∈ Icc 0 (min (ε / 2) (δ / 2)), HasDerivAt Y (motion constEM (tracerRadialForce f none) (Y t)) t := by
    intro t ht
    have := ht.2.trans (min_le_left _ _)
    exact hY t ⟨by linarith [ht.1], by linarith⟩
  have hoff : ∀ t ∈ Icc 0 (min (ε / 2) (δ / 2)), minDistanceAxis < norm2d (Y t 0) (Y t 1) ∧ OffRings f.elec (Y t) ∧ OffRings f.mag (Y t) ∧ OffCoils f.cur (Y t) := by
    intro t ht
    have := ht.2.trans (min_le_right _ _)
    have hm : t ∈ Metric.ball (0 : ℝ) δ := by
      rw [Metric.mem_ball, Real.dist_eq, sub_zero, abs_of_nonneg ht.1]; linarith
    exact hball hm
  have hcont : ContinuousOn (fun t => ringsError f.elec (state (Y t)).pos * V3.norm (state (Y t)).vel) (Icc 0 (min (ε / 2) (δ / 2))) := by
    intro t ht
    have k := (hsol t ht).continuousAt
    have k1 : ContinuousAt (fun t => ringsError f.elec (state (Y t)).pos) t := ContinuousAt.comp (f := Y) (g := fun y => ringsError f.elec (state y).pos) (continuousAt_ringsError f.elec (hoff t ht).1 (hoff t ht).2.1) k
    have k2 : ContinuousAt (fun t => V3.norm (state (Y t)).vel) t := ContinuousAt.comp (f := Y) (g := fun y => V3.norm (state y).vel)
      (Continuous.continuousAt (by unfold V3.norm dot state; fun_prop)) k
    exact (k1.mul k2).continuousWithinAt
  obtain ⟨D, hD⟩ := (isCompact_Icc.image_of_continuousOn hcont).bddAbove
  exact ⟨Y, min (ε / 2) (δ / 2), D, by positivity, h0, fun t ht => (hsol t ht).hasDerivWithinAt, hoff, fun t ht => hD ⟨t, ht, rfl⟩⟩

end Traceon
