import Verif.Props.RungeKutta
import Verif.Props.Tracer3
import Verif.Lemmas.Convergence
import Verif.Lemmas.SmoothRadial
import Mathlib.Analysis.InnerProductSpace.Calculus
import Mathlib.Analysis.SpecialFunctions.Sqrt

/-!
# C78: traced trajectories converge to the trajectories of the equation of motion
-/
namespace Traceon
open Spec Set

theorem fehlbergA_explicit (i j : Fin 6) (h : i ≤ j) : fehlbergA i j = 0 := by
  fin_cases i <;> fin_cases j <;> first | rfl | (exact absurd h (by decide))

/-- An accepted step is a step of the method of fifth order. -/
theorem Accepted.stages {em : ℝ} {field : Phase → V3} {atol h : ℝ} {y y' : Phase} (ha : Accepted em field atol h y y') :
    ∃ k : Fin 6 → (Fin 6 → ℝ), (∀ j, k j = motion em field (vec y + h • ∑ l, fehlbergA j l • k l)) ∧ vec y' = vec y + h • ∑ j, fehlberg5 j • k j := by
  obtain ⟨z, ⟨k, hk, hz, _⟩, _⟩ := ha
  exact ⟨k, hk, hz⟩

/-- **C78.** Let `Y` solve the equation of motion of an electron in the force field of a tracer for times from 0 to `T`, and let the force be five times continuously differentiable near this trajectory. Then there are a
constant `C` and a step length `h₁` such that for every tolerance, bounds, block size and run of the tracer from the same initial position and velocity: if the steps up to a row are no longer than `η ≤ h₁`, then the position and
velocity in that row differ by at most `C t η⁵` from the exact ones at the time `t` of that row. -/
theorem C78_convergence (field : Phase → V3) {U : Set (Fin 6 → ℝ)} (hU : IsOpen U) (hf : ContDiffOn ℝ 5 (motion constEM field) U) {Y : ℝ → Fin 6 → ℝ} {T : ℝ} (hT : 0 ≤ T)
    (hY : ∀ t ∈ Icc 0 T, HasDerivWithinAt Y (motion constEM field (Y t)) (Icc 0 T) t) (hYU : ∀ t ∈ Icc 0 T, Y t ∈ U) :
    ∃ C h₁ : ℝ, 0 ≤ C ∧ 0 < h₁ ∧ ∀ (bounds : Bounds) (atol : ℝ) (B fuel : Nat) (x v : V3) (rows : List Row), 0 < atol → 2 ≤ B → vec ⟨x, v⟩ = Y 0 →
      traceParticle field bounds atol B fuel x v = some rows →
      ∀ (n : ℕ) (t : ℝ) (y : Phase) (η : ℝ), rows[n]? = some (t, y) → t ≤ T → η ≤ h₁ →
        (∀ (i : ℕ) (a b : Row), i < n → rows[i]? = some a → rows[i + 1]? = some b → b.1 - a.1 ≤ η) →
        ∀ j, |vec y j - Y t j| ≤ C * t * η ^ 5 := by
  obtain ⟨R, M, tube⟩ := BSeries.exists_tube (p := 4 + 1) hU (by exact_mod_cast hf) hY hYU
  obtain ⟨C, hC, h₁, hh₁, key⟩ := tube.global_error (N := 4) (b := fehlberg5) fehlbergA_explicit (C70_order).1 hT
  refine ⟨C, h₁, hC, hh₁, ?_⟩
  intro bounds atol B fuel x v rows hatol hB h0 hrun n t y η hn ht hη hsteps j
  have traj := C46_trajectory field bounds atol hatol B hB fuel x v rows hrun
  have hget : ∀ i ≤ n, ∃ a, rows[i]? = some a := by
    intro i hi
    have hlt : n < rows.length := (List.getElem?_eq_some_iff.1 hn).1
    exact ⟨rows[i]'(by omega), List.getElem?_eq_getElem (by omega)⟩
  let d : Row := (t, y)
  have hrow : ∀ i ≤ n, rows[i]? = some ((rows[i]?).getD d) := by
    intro i hi
    obtain ⟨a, ha⟩ := hget i hi
    rw [ha]; rfl
  have hdn : (rows[n]?).getD d = (t, y) := by rw [hn]; rfl
  have h := key η hη (fun i => ((rows[i]?).getD d).1) (fun i => vec ((rows[i]?).getD d).2) n ?_ ?_ ?_ ?_ n le_rfl
  · simp only [hdn] at h
    have := norm_le_pi_norm (vec y - Y t) j
    rw [Pi.sub_apply, Real.norm_eq_abs] at this
    exact this.trans h
  · show ((rows[0]?).getD d).1 = 0
    rw [traj.first]; rfl
  · show vec ((rows[0]?).getD d).2 = Y 0
    rw [traj.first]; exact h0
  · simp only [hdn]; exact ht
  · intro i hi
    have ha := hrow i (by omega)
    have hb := hrow (i + 1) (by omega)
    obtain ⟨s, hs⟩ := hget (i / (B - 1) * (B - 1)) ((Nat.div_mul_le_self i (B - 1)).trans hi.le)
    obtain ⟨h1, _, h3⟩ := traj.step i _ _ s ha hb hs
    exact ⟨h1.le, hsteps i _ _ hi ha hb, Accepted.stages h3⟩

/-- For instance a uniform field, where the trajectories are known. -/
example (F : V3) (y : Phase) (T : ℝ) : ContDiffOn ℝ 5 (motion constEM (fun _ => F)) univ ∧
    (∀ t ∈ Icc 0 T, HasDerivWithinAt (fun t => vec (parabola constEM F y t)) (motion constEM (fun _ => F) (vec (parabola constEM F y t))) (Icc 0 T) t) ∧
    vec y = vec (parabola constEM F y 0) := by
  refine ⟨?_, fun t _ => ((parabola_derivative constEM F y t).1).hasDerivWithinAt, by rw [(parabola_derivative constEM F y 0).2]⟩
  rw [contDiffOn_pi]
  intro i
  fin_cases i <;> simp only [motion] <;> simp <;> fun_prop

/-- What C78 says about a tracer with a given force. -/
def Spec.Converges (field : Phase → V3) (Y : ℝ → Fin 6 → ℝ) (T : ℝ) : Prop :=
  ∃ C h₁ : ℝ, 0 ≤ C ∧ 0 < h₁ ∧ ∀ (bounds : Bounds) (atol : ℝ) (B fuel : Nat) (x v : V3) (rows : List Row), 0 < atol → 2 ≤ B → vec ⟨x, v⟩ = Y 0 →
    traceParticle field bounds atol B fuel x v = some rows →
    ∀ (n : ℕ) (t : ℝ) (y : Phase) (η : ℝ), rows[n]? = some (t, y) → t ≤ T → η ≤ h₁ →
      (∀ (i : ℕ) (a b : Row), i < n → rows[i]? = some a → rows[i + 1]? = some b → b.1 - a.1 ≤ η) →
      ∀ j, |vec y j - Y t j| ≤ C * t * η ^ 5

/-- **C78** for the tracer of 3D fields: it is enough that the trajectory meets none of the point charges that represent the charges on the elements. -/
theorem C78_tracer_3d (f : Field3DBEM) (b : Option UserBounds) {Y : ℝ → Fin 6 → ℝ} {T : ℝ} (hT : 0 ≤ T)
    (hY : ∀ t ∈ Icc 0 T, HasDerivWithinAt Y (motion constEM (tracer3dForce f b) (Y t)) (Icc 0 T) t)
    (hoff : ∀ t ∈ Icc 0 T, OffCharges f.elec (Y t) ∧ OffCharges f.mag (Y t)) : Converges (tracer3dForce f b) Y T :=
  C78_convergence _ ((isOpen_offCharges f.elec).inter (isOpen_offCharges f.mag))
    (fun _ hy => (contDiffAt_tracer3d (n := 5) f b hy.1 hy.2).contDiffWithinAt) hT hY hoff

/-- **C78** for the tracer of radially symmetric fields, with electrodes, magnetic material and coils: it is enough that the trajectory stays further than 1e-10 from the axis and meets none of the rings. -/
theorem C78_tracer_radial (f : FieldRadialBEM) {Y : ℝ → Fin 6 → ℝ} {T : ℝ} (hT : 0 ≤ T)
    (hY : ∀ t ∈ Icc 0 T, HasDerivWithinAt Y (motion constEM (tracerRadialForce f none) (Y t)) (Icc 0 T) t)
    (hoff : ∀ t ∈ Icc 0 T, minDistanceAxis < norm2d (Y t 0) (Y t 1) ∧ OffRings f.elec (Y t) ∧ OffRings f.mag (Y t) ∧ OffCoils f.cur (Y t)) :
    Converges (tracerRadialForce f none) Y T :=
  C78_convergence _ (isOpen_offAxis.inter ((isOpen_offRings f.elec).inter ((isOpen_offRings f.mag).inter (isOpen_offCoils f.cur))))
    (fun _ hy => (contDiffAt_tracerRadial (n := 5) f hy.1 hy.2.1 hy.2.2.1 hy.2.2.2).contDiffWithinAt) hT hY hoff

/-- A trajectory in the field of one point charge at the origin: the particle moves along the x axis away from, or towards, the charge. Here: the conditions of `C78_tracer_3d` at a point. -/
example : OffCharges ⟨1, [1], [[1]], [[⟨0, 0, 0⟩]]⟩ ![1, 0, 0, 0, 0, 0] := by
  intro row hr q hq
  simp only [List.mem_singleton] at hr
  subst hr
  simp only [List.mem_singleton] at hq
  subst hq
  intro h
  have := congrArg V3.x h
  simp at this

/-! ## A trajectory through fields without charges: the free particle -/

/-- Without charges the conditions hold for every straight line. -/
example (x v : V3) (T : ℝ) (hT : 0 ≤ T) : Converges (tracer3dForce ⟨⟨0, [], [], []⟩, ⟨0, [], [], []⟩, none⟩ none) (fun t => vec (parabola constEM 0 ⟨x, v⟩ t)) T := by
  refine C78_tracer_3d _ none hT (fun t _ => ?_) (fun t _ => ⟨fun row hr => by simp at hr, fun row hr => by simp at hr⟩)
  have h := ((parabola_derivative constEM 0 ⟨x, v⟩ t).1).hasDerivWithinAt (s := Icc 0 T)
  refine h.congr_deriv ?_
  have hz : ∀ p : Phase, tracer3dForce ⟨⟨0, [], [], []⟩, ⟨0, [], [], []⟩, none⟩ none p = 0 := by
    intro p
    unfold tracer3dForce field3dTraceable
    rw [if_pos (by intro b hb; cases hb)]
    have : ∀ q : V3, field3d q ⟨0, [], [], []⟩ = 0 := by intro q; ext <;> simp [field3d, EffCharges.loopSub]
    rw [this]
    ext <;> simp [combineElecMagneticField, V3.cross]
  unfold motion
  simp only [hz]

end Traceon
