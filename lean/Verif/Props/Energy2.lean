import Verif.Props.Energy
import Verif.Props.Ring
import Mathlib.Analysis.ODE.ExistUnique

/-!
# C85: traced electrons keep their energy
-/
namespace Traceon
open Spec Set V3

theorem contDiffAt_potential3d {E : Type*} [NormedAddCommGroup E] [NormedSpace ℝ E] {n : ℕ∞} (e : EffCharges V3) {X Y Z : E → ℝ} {y : E}
    (hX : ContDiffAt ℝ n X y) (hY : ContDiffAt ℝ n Y y) (hZ : ContDiffAt ℝ n Z y) (h : ∀ row ∈ e.positions, ∀ q ∈ row, (⟨X y, Y y, Z y⟩ : V3) ≠ q) :
    ContDiffAt ℝ n (fun y => potential3d ⟨X y, Y y, Z y⟩ e) y := by
  refine contDiffAt_loop e (fun q y => potential3dPoint ⟨X y, Y y, Z y⟩ q) fun row hr q hq => ?_
  have hp := normSq_pos (h row hr q hq)
  have := Real.sqrt_pos.2 hp
  have := Real.pi_pos
  simp only [potential3dPoint, V3.norm, V3.dot, V3.sub_x, V3.sub_y, V3.sub_z]
  refine ContDiffAt.div contDiffAt_const (contDiffAt_const.mul (ContDiffAt.sqrt (f := fun y => (q.x - X y) * (q.x - X y) + (q.y - Y y) * (q.y - Y y) + (q.z - Z y) * (q.z - Z y)) (n := n) (by fun_prop) hp.ne')) ?_
  positivity

theorem contDiffAt_kinetic {n : WithTop ℕ∞} (em : ℝ) (y : Fin 6 → ℝ) : ContDiffAt ℝ n (fun y => kineticEnergy em (state y)) y := by
  unfold kineticEnergy state V3.dot
  fun_prop

theorem contDiffAt_angular {n : WithTop ℕ∞} (y : Fin 6 → ℝ) : ContDiffAt ℝ n (fun y => angularMomentum (state y)) y := by
  unfold angularMomentum state
  fun_prop

theorem constEM_ne : constEM ≠ 0 := by norm_num [constEM]

/-- The drift of a quantity `W` in a run of a tracer with the force `field` along the trajectory `Y`: at most a constant times `t η⁵`, where `η` is the longest step up to the time `t`. -/
def Spec.Keeps (field : Phase → V3) (Y : ℝ → Fin 6 → ℝ) (T : ℝ) (W : Phase → ℝ) : Prop :=
  ∃ C h₁ : ℝ, 0 ≤ C ∧ 0 < h₁ ∧ ∀ (bounds : Bounds) (atol : ℝ) (B fuel : Nat) (x v : V3) (rows : List Row), 0 < atol → 2 ≤ B → vec ⟨x, v⟩ = Y 0 →
    traceParticle field bounds atol B fuel x v = some rows →
    ∀ (n : ℕ) (t : ℝ) (y : Phase) (η : ℝ), rows[n]? = some (t, y) → t ≤ T → η ≤ h₁ →
      (∀ (i : ℕ) (a b : Row), i < n → rows[i]? = some a → rows[i + 1]? = some b → b.1 - a.1 ≤ η) →
      |W y - W ⟨x, v⟩| ≤ C * t * η ^ 5

theorem keeps {field : Phase → V3} {Y : ℝ → Fin 6 → ℝ} {T : ℝ} (hT : 0 ≤ T) (h : Converges field Y T) (hY : ContinuousOn Y (Icc 0 T)) {W : Phase → ℝ}
    (hW : ∀ t ∈ Icc 0 T, ContDiffAt ℝ 1 (fun y => W (state y)) (Y t)) (hc : ∀ t ∈ Icc 0 T, W (state (Y t)) = W (state (Y 0))) : Keeps field Y T W := by
  obtain ⟨C, h₁, hC, hh, key⟩ := h.observable hT hY hW
  refine ⟨C, h₁, hC, hh, ?_⟩
  intro bounds atol B fuel x v rows ha hB h0 hrun n t y η hn ht hη hs
  have := key bounds atol B fuel x v rows ha hB h0 hrun n t y η hn ht hη hs
  have traj := C46_trajectory field bounds atol ha B hB fuel x v rows hrun
  have ht0 : 0 ≤ t := by
    rcases Nat.eq_zero_or_pos n with rfl | hpos
    · rw [traj.first] at hn
      cases hn
      exact le_rfl
    · have mono : ∀ k : ℕ, ∀ a : Row, rows[k]? = some a → 0 ≤ a.1 := by
        intro k
        induction k with
        | zero =>
          intro a hra
          rw [traj.first] at hra
          cases hra
          exact le_rfl
        | succ k ih =>
          intro a hra
          have hlt : k < rows.length := by have := (List.getElem?_eq_some_iff.1 hra).1; omega
          have i1 := ih rows[k] (List.getElem?_eq_getElem hlt)
          have hs : k / (B - 1) * (B - 1) < rows.length := lt_of_le_of_lt (Nat.div_mul_le_self k (B - 1)) hlt
          obtain ⟨h1, -⟩ := traj.step k _ _ _ (List.getElem?_eq_getElem hlt) hra (List.getElem?_eq_getElem hs)
          linarith
      exact mono n _ hn
  rw [hc t ⟨ht0, ht⟩, ← h0] at this
  simpa using this

theorem tracer3dForce_eq (f : Field3DBEM) (b : Option UserBounds) (p : Phase) : tracer3dForce f b p = field3d p.pos f.elec + cross p.vel (constMu0 * field3d p.pos f.mag) := by
  unfold tracer3dForce field3dTraceable
  rw [if_pos (by intro b hb; cases hb)]
  unfold combineElecMagneticField cross
  ext <;> simp

theorem tracerRadialForce_eq (f : FieldRadialBEM) (p : Phase) :
    tracerRadialForce f none p = fieldRadial p.pos f.elec + cross p.vel (constMu0 * (fieldRadial p.pos f.mag + currentField p.pos f.cur)) := by
  unfold tracerRadialForce fieldRadialTraceable
  rw [if_pos (by intro b hb; cases hb)]
  unfold combineElecMagneticField cross
  ext <;> simp

section
variable {Y : ℝ → Fin 6 → ℝ} {T : ℝ}

/-- **C85**, exactly: along every solution of the equation of motion in a 3D field (electrodes and magnetic material) which meets none of the point charges, the kinetic energy in electron volts minus the
potential returned by `electrostatic_potential_at_point` does not change. -/
theorem C85_exact (f : Field3DBEM) (b : Option UserBounds) (hY : ∀ t ∈ Icc 0 T, HasDerivWithinAt Y (motion constEM (tracer3dForce f b) (Y t)) (Icc 0 T) t)
    (hoff : ∀ t ∈ Icc 0 T, OffCharges f.elec (Y t)) :
    ∃ φ, (∀ q, PyObj.electrostaticPotential q (.threeD f) = some (φ q)) ∧ ∀ t ∈ Icc 0 T, energy constEM φ (state (Y t)) = energy constEM φ (state (Y 0)) := by
  refine ⟨fun q => potential3d q f.elec, fun q => rfl, ?_⟩
  refine energy_constant constEM_ne (E := fun q => field3d q f.elec) (B := fun q => constMu0 * field3d q f.mag) hY (tracer3dForce_eq f b) fun t ht => ?_
  exact C43_gradient f.elec _ fun row hr hq => hoff t ht row hr _ hq rfl

/-- **C85**, for the tracer of 3D fields: the energy in every row of the result differs from the initial energy by at most a constant times `t η⁵`, `η` being the longest step. -/
theorem C85_energy (f : Field3DBEM) (b : Option UserBounds) (hT : 0 ≤ T) (hY : ∀ t ∈ Icc 0 T, HasDerivWithinAt Y (motion constEM (tracer3dForce f b) (Y t)) (Icc 0 T) t)
    (hoff : ∀ t ∈ Icc 0 T, OffCharges f.elec (Y t) ∧ OffCharges f.mag (Y t)) :
    ∃ φ, (∀ q, PyObj.electrostaticPotential q (.threeD f) = some (φ q)) ∧ Keeps (tracer3dForce f b) Y T (energy constEM φ) := by
  obtain ⟨φ, hφ, h⟩ := C85_exact f b hY fun t ht => (hoff t ht).1
  refine ⟨φ, hφ, keeps hT (C78_tracer_3d f b hT hY hoff) (fun t ht => (hY t ht).continuousWithinAt) (fun t ht => ?_) h⟩
  have : φ = fun q => potential3d q f.elec := by
    funext q
    have := hφ q
    rw [PyObj.electrostaticPotential] at this
    exact (Option.some.inj this).symm
  subst this
  exact (contDiffAt_kinetic constEM (Y t)).sub (contDiffAt_potential3d (n := 1) f.elec (contDiffAt_apply (𝕜 := ℝ) (E := ℝ) (0 : Fin 6) _) (contDiffAt_apply (𝕜 := ℝ) (E := ℝ) (1 : Fin 6) _)
    (contDiffAt_apply (𝕜 := ℝ) (E := ℝ) (2 : Fin 6) _) (hoff t ht).1)

/-- **C85**: magnets and coils alone do not change the speed of an electron, also in radial symmetry. -/
theorem C85_magnetic (f : FieldRadialBEM) (hf : f.elec.charges = []) (hT : 0 ≤ T) (hY : ∀ t ∈ Icc 0 T, HasDerivWithinAt Y (motion constEM (tracerRadialForce f none) (Y t)) (Icc 0 T) t)
    (hoff : ∀ t ∈ Icc 0 T, minDistanceAxis < norm2d (Y t 0) (Y t 1) ∧ OffRings f.elec (Y t) ∧ OffRings f.mag (Y t) ∧ OffCoils f.cur (Y t)) :
    (∀ t ∈ Icc 0 T, kineticEnergy constEM (state (Y t)) = kineticEnergy constEM (state (Y 0))) ∧ Keeps (tracerRadialForce f none) Y T (kineticEnergy constEM) := by
  have h0 : ∀ q, fieldRadial q f.elec = 0 := by
    intro q
    unfold fieldRadial fromRadial EffCharges.loopSub
    rw [hf]
    split <;> ext <;> simp
  have key : ∀ t ∈ Icc 0 T, kineticEnergy constEM (state (Y t)) = kineticEnergy constEM (state (Y 0)) := by
    have := energy_constant constEM_ne (φ := fun _ => 0) (E := fun _ => 0) (B := fun q => constMu0 * (fieldRadial q f.mag + currentField q f.cur)) hY
      (fun p => by rw [tracerRadialForce_eq, h0]) fun t _ => by
        unfold IsGradient
        refine (hasFDerivAt_const (0 : ℝ) _).congr_fderiv ?_
        ext <;> simp
    simpa [energy] using this
  exact ⟨key, keeps hT (C78_tracer_radial f hT hY hoff) (fun t ht => (hY t ht).continuousWithinAt) (fun t _ => contDiffAt_kinetic constEM (Y t)) key⟩

/-- **C85**: in a purely electrostatic radially symmetric field the angular momentum around the axis is kept. -/
theorem C85_angular (f : FieldRadialBEM) (hm : f.mag.charges = []) (hc : f.cur.charges = []) (hT : 0 ≤ T)
    (hY : ∀ t ∈ Icc 0 T, HasDerivWithinAt Y (motion constEM (tracerRadialForce f none) (Y t)) (Icc 0 T) t)
    (hoff : ∀ t ∈ Icc 0 T, minDistanceAxis < norm2d (Y t 0) (Y t 1) ∧ OffRings f.elec (Y t) ∧ OffRings f.mag (Y t) ∧ OffCoils f.cur (Y t)) :
    (∀ t ∈ Icc 0 T, angularMomentum (state (Y t)) = angularMomentum (state (Y 0))) ∧ Keeps (tracerRadialForce f none) Y T angularMomentum := by
  have h0 : ∀ p : Phase, p.pos.x * (tracerRadialForce f none p).y - p.pos.y * (tracerRadialForce f none p).x = 0 := by
    intro p
    rw [tracerRadialForce_eq]
    have e1 : fieldRadial p.pos f.mag = 0 := by
      unfold fieldRadial fromRadial EffCharges.loopSub
      rw [hm]
      split <;> ext <;> simp
    have e2 : currentField p.pos f.cur = 0 := by
      unfold currentField fromRadial EffCharges.loop
      rw [hc]
      split <;> ext <;> simp
    rw [e1, e2]
    unfold fieldRadial fromRadial cross
    split
    · simp; ring
    · simp
  have key : ∀ t ∈ Icc 0 T, angularMomentum (state (Y t)) = angularMomentum (state (Y 0)) := by
    refine constant_along (g := fun t => angularMomentum (state (Y t))) fun t ht => ?_
    obtain ⟨k0, k1, k2, k3, k4, k5⟩ := motion_comp (hY t ht)
    refine ((k0.mul k4).sub (k1.mul k3)).congr_deriv ?_
    have := h0 (state (Y t))
    have h' : Y t 0 * (tracerRadialForce f none (state (Y t))).y - Y t 1 * (tracerRadialForce f none (state (Y t))).x = 0 := this
    linear_combination constEM * h'
  exact ⟨key, keeps hT (C78_tracer_radial f hT hY hoff) (fun t ht => (hY t ht).continuousWithinAt) (fun t _ => contDiffAt_angular (Y t)) key⟩

/-- **C85**: an electron launched with `velocity_vec(eV, direction)` has the kinetic energy `eV`, and the constant used by the tracers is the charge over the mass of the electron (CODATA 2018). -/
theorem C85_launch (e m eV : ℝ) (hm : 0 < m) (h : e / m = -constEM) (x d v : V3) (hv : velocityVec eV d = some v) :
    kineticEnergy constEM ⟨x, convertVelocityToSI e m v⟩ = eV ∧ |constEM - -(1.602176634e-19 / 9.1093837015e-31)| ≤ 1e-4 := by
  have he : 0 < e := by
    have h1 : 0 < e / m := by rw [h]; norm_num [constEM]
    rcases (div_pos_iff.1 h1) with h2 | h2
    · exact h2.1
    · linarith [h2.2]
  constructor
  · obtain ⟨h1, -⟩ := (C50_velocity e m he hm eV d).2 v hv
    unfold kineticEnergy
    rw [← h]
    simp only
    field_simp
    linarith
  · rw [abs_le]
    constructor <;> norm_num [constEM]

end

/-- The hypotheses of C85 and C78, in every 3D field and for every electron which does not start on a charge: for some time there is a solution of the equation of motion which meets no charge. -/
theorem C85_example (f : Field3DBEM) (b : Option UserBounds) (y₀ : Fin 6 → ℝ) (he : OffCharges f.elec y₀) (hm : OffCharges f.mag y₀) :
    ∃ (Y : ℝ → Fin 6 → ℝ) (T : ℝ), 0 < T ∧ Y 0 = y₀ ∧ (∀ t ∈ Icc 0 T, HasDerivWithinAt Y (motion constEM (tracer3dForce f b) (Y t)) (Icc 0 T) t) ∧
      ∀ t ∈ Icc 0 T, OffCharges f.elec (Y t) ∧ OffCharges f.mag (Y t) := by
  obtain ⟨Y, h0, ε, hε, hY⟩ := (contDiffAt_tracer3d (n := 1) f b he hm).exists_forall_mem_closedBall_exists_eq_forall_mem_Ioo_hasDerivAt₀ 0
  have hc : ContinuousAt Y 0 := (hY 0 ⟨by linarith, by linarith⟩).continuousAt
  have hopen : {y | OffCharges f.elec y} ∩ {y | OffCharges f.mag y} ∈ nhds (Y 0) := by
    refine ((isOpen_offCharges f.elec).inter (isOpen_offCharges f.mag)).mem_nhds ?_
    rw [h0]; exact ⟨he, hm⟩
  obtain ⟨δ, hδ, hball⟩ := Metric.mem_nhds_iff.1 (hc hopen)
  refine ⟨Y, min (ε / 2) (δ / 2), by positivity, h0, fun t ht => ?_, fun t ht => ?_⟩
  · have := ht.2.trans (min_le_left _ _)
    exact (hY t ⟨by linarith [ht.1], by linarith⟩).hasDerivWithinAt
  · have := ht.2.trans (min_le_right _ _)
    have hm : t ∈ Metric.ball (0 : ℝ) δ := by
      rw [Metric.mem_ball, Real.dist_eq, sub_zero, abs_of_nonneg ht.1]; linarith
    exact hball hm

/-- The hypotheses of C85: a particle in a field without charges. -/
example (x v : V3) (T : ℝ) : (∀ t ∈ Icc 0 T, HasDerivWithinAt (fun t => vec (parabola constEM 0 ⟨x, v⟩ t))
      (motion constEM (tracer3dForce ⟨⟨0, [], [], []⟩, ⟨0, [], [], []⟩, none⟩ none) (vec (parabola constEM 0 ⟨x, v⟩ t))) (Icc 0 T) t) ∧
    ∀ t, OffCharges ⟨0, [], [], []⟩ (vec (parabola constEM 0 ⟨x, v⟩ t)) := by
  refine ⟨fun t _ => ?_, fun t row hr => by simp at hr⟩
  have h := ((parabola_derivative constEM 0 ⟨x, v⟩ t).1).hasDerivWithinAt (s := Icc 0 T)
  refine h.congr_deriv ?_
  have hz : ∀ p : Phase, tracer3dForce ⟨⟨0, [], [], []⟩, ⟨0, [], [], []⟩, none⟩ none p = 0 := by
    intro p
    rw [tracer3dForce_eq]
    have : ∀ q : V3, field3d q ⟨0, [], [], []⟩ = 0 := by intro q; ext <;> simp [field3d, EffCharges.loopSub]
    rw [this]
    ext <;> simp [cross]
  unfold motion
  simp only [hz]

end Traceon
