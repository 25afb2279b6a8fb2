import Verif.Spec.Vacuum
import Verif.Props.Interface
import Verif.Props.Axial3

/-! # C93: fields and potentials of three dimensional problems in vacuum -/
namespace Traceon
open Spec V3

namespace Vac

theorem grad_pre (q p : V3) (h : q ≠ p) :
    IsGradient (fun p => 1 / (4 * Real.pi * V3.norm (q - p) ^ 3)) ((3 / (4 * Real.pi * V3.norm (q - p) ^ 5)) * (q - p)) p := by
  have hne : q - p ≠ 0 := fun h' => h (V3.sub_eq_zero.1 h')
  have hpos : 0 < dot (q - p) (q - p) := dot_self_pos hne
  have hs : 0 < Real.sqrt (dot (q - p) (q - p)) := Real.sqrt_pos.2 hpos
  have hpi := Real.pi_pos
  have h1 : HasDerivAt (fun u : ℝ => 1 / (4 * Real.pi * Real.sqrt u ^ 3)) (-(3 / (4 * Real.pi * (2 * Real.sqrt (dot (q - p) (q - p)) ^ 5)))) (dot (q - p) (q - p)) := by
    have h2 := ((((hasDerivAt_id (dot (q - p) (q - p))).sqrt hpos.ne').pow 3).const_mul (4 * Real.pi)).inv (by simp only [id, Pi.pow_apply]; positivity)
    have h3 : (fun u : ℝ => 1 / (4 * Real.pi * Real.sqrt u ^ 3)) = (fun u => 4 * Real.pi * Real.sqrt (id u) ^ 3)⁻¹ := by ext u; simp
    rw [h3]
    refine h2.congr_deriv ?_
    simp only [id, Pi.pow_apply]
    generalize Real.sqrt (dot (q - p) (q - p)) = s at hs
    field_simp
    norm_num
    try ring
  refine (Spec.IsGradient.comp (f := fun p => dot (q - p) (q - p)) h1 (isGradient_dist2 q p)).eq ?_
  unfold V3.norm
  ext <;> simp <;> field_simp

/-- the gradients of the three components of the field of one point charge -/
theorem grad_x (q p : V3) (h : q ≠ p) : IsGradient (fun p => dx1Potential3dPoint p q)
    ((3 * (q.x - p.x) / (4 * Real.pi * V3.norm (q - p) ^ 5)) * (q - p) + (-(1 / (4 * Real.pi * V3.norm (q - p) ^ 3))) * (⟨1, 0, 0⟩ : V3)) p := by
  refine ((((IsGradient.const q.x p).add ((IsGradient.x p).smul (-1))).mul (grad_pre q p h)).congr (fun r => ?_)).eq ?_
  · unfold dx1Potential3dPoint; ring
  · ext <;> simp <;> ring

@[inherit_doc grad_x]
theorem grad_y (q p : V3) (h : q ≠ p) : IsGradient (fun p => dy1Potential3dPoint p q)
    ((3 * (q.y - p.y) / (4 * Real.pi * V3.norm (q - p) ^ 5)) * (q - p) + (-(1 / (4 * Real.pi * V3.norm (q - p) ^ 3))) * (⟨0, 1, 0⟩ : V3)) p := by
  refine ((((IsGradient.const q.y p).add ((IsGradient.y p).smul (-1))).mul (grad_pre q p h)).congr (fun r => ?_)).eq ?_
  · unfold dy1Potential3dPoint; ring
  · ext <;> simp <;> ring

@[inherit_doc grad_x]
theorem grad_z (q p : V3) (h : q ≠ p) : IsGradient (fun p => dz1Potential3dPoint p q)
    ((3 * (q.z - p.z) / (4 * Real.pi * V3.norm (q - p) ^ 5)) * (q - p) + (-(1 / (4 * Real.pi * V3.norm (q - p) ^ 3))) * (⟨0, 0, 1⟩ : V3)) p := by
  refine ((((IsGradient.const q.z p).add ((IsGradient.z p).smul (-1))).mul (grad_pre q p h)).congr (fun r => ?_)).eq ?_
  · unfold dz1Potential3dPoint; ring
  · ext <;> simp <;> ring

theorem loop_nothing (e : EffCharges V3) (f : V3 → ℝ) (h : ∀ row ∈ e.positions, ∀ q ∈ row, f q = 0) : e.loop f = 0 := by
  rw [loop_congr e h]
  have := loop_linear e (fun _ : V3 => (0 : ℝ)) (fun _ => 0) 0 0
  simpa using this

end Vac

/-- **C93**, the field of any distribution of charges. -/
theorem vacuum_field (e : EffCharges V3) (p : V3) (h : ∀ row ∈ e.positions, p ∉ row) : VacuumField (fun q => field3d q e) p := by
  have hne : ∀ row ∈ e.positions, ∀ q ∈ row, q ≠ p := fun row hr q hq h' => h row hr (h' ▸ hq)
  have G : ∀ (f : V3 → V3 → ℝ) (g : V3 → V3), (∀ q, q ≠ p → IsGradient (fun p => f p q) (g q) p) →
      IsGradient (fun r => e.loopSub (f r)) ((-1 : ℝ) * (⟨e.loop (fun q => (g q).x), e.loop (fun q => (g q).y), e.loop (fun q => (g q).z)⟩ : V3)) p := by
    intro f g hg
    refine ((IsGradient.loop e f g p (fun row hr q hq => hg q (hne row hr q hq))).smul (-1)).congr (fun r => ?_)
    rw [EffCharges.loopSub_loop]; ring
  refine ⟨_, _, _, G _ _ (fun q hq => Vac.grad_x q p hq), G _ _ (fun q hq => Vac.grad_y q p hq), G _ _ (fun q hq => Vac.grad_z q p hq), ?_, ?_, ?_, ?_⟩
  · simp only [V3.smul_x, V3.smul_y, V3.smul_z]
    rw [← mul_add, ← mul_add, ← loop_add', ← loop_add', Vac.loop_nothing, mul_zero]
    intro row hr q hq
    have hd : q - p ≠ 0 := fun h' => hne row hr q hq (V3.sub_eq_zero.1 h')
    have hn := V3.norm_pos hd
    have hs : V3.norm (q - p) ^ 2 = (q.x - p.x) ^ 2 + (q.y - p.y) ^ 2 + (q.z - p.z) ^ 2 := by
      unfold V3.norm
      rw [Real.sq_sqrt (V3.dot_self_nonneg _)]
      simp [dot]; ring
    have hpi := Real.pi_pos
    simp only [V3.add_x, V3.add_y, V3.add_z, V3.smul_x, V3.smul_y, V3.smul_z, V3.sub_x, V3.sub_y, V3.sub_z]
    generalize V3.norm (q - p) = N at hn hs
    field_simp
    rw [hs]; ring
  all_goals
    simp only [V3.smul_x, V3.smul_y, V3.smul_z]
    rw [← mul_sub, ← loop_sub', Vac.loop_nothing, mul_zero]
    intro row hr q hq
    simp only [V3.add_x, V3.add_y, V3.add_z, V3.smul_x, V3.smul_y, V3.smul_z, V3.sub_x, V3.sub_y, V3.sub_z]
    ring
theorem Vac.room (ps : List V3) (p : V3) (h : p ∉ ps) : ∃ ε : ℝ, 0 < ε ∧ ∀ q, V3.norm (q - p) < ε → q ∉ ps := by
  induction ps with
  | nil => exact ⟨1, one_pos, fun _ _ => by simp⟩
  | cons a ps ih =>
    obtain ⟨ε, hε, hq⟩ := ih (fun hm => h (List.mem_cons_of_mem _ hm))
    have ha : a - p ≠ 0 := fun h' => h (by rw [V3.sub_eq_zero.1 h']; exact List.mem_cons_self)
    refine ⟨min ε (V3.norm (a - p)), lt_min hε (V3.norm_pos ha), fun q hn hm => ?_⟩
    rcases List.mem_cons.1 hm with e | e
    · rw [e] at hn; exact absurd hn (not_lt.2 (min_le_right _ _))
    · exact hq q (lt_of_lt_of_le hn (min_le_left _ _)) e

/-- **C93**, the potential of any distribution of charges. -/
theorem harmonic_potential (e : EffCharges V3) (p : V3) (h : ∀ row ∈ e.positions, p ∉ row) : Harmonic (fun q => potential3d q e) p := by
  obtain ⟨ε, hε, hroom⟩ := Vac.room e.positions.flatten p (by simpa using h)
  obtain ⟨gx, gy, gz, h1, h2, h3, h4, _⟩ := vacuum_field e p h
  refine ⟨fun q => -field3d q e, ε, (-1 : ℝ) * gx, (-1 : ℝ) * gy, (-1 : ℝ) * gz, hε, fun q hq => ?_, ?_, ?_, ?_, ?_⟩
  · refine C43_gradient e q (fun row hr hm => hroom q hq (List.mem_flatten.2 ⟨row, hr, hm⟩))
  · exact (h1.smul (-1)).congr (fun q => by simp)
  · exact (h2.smul (-1)).congr (fun q => by simp)
  · exact (h3.smul (-1)).congr (fun q => by simp)
  · simp only [V3.smul_x, V3.smul_y, V3.smul_z]; linarith

/-- **C93.** At every point that is not one of the quadrature points of the charged elements, the electrostatic field that a 3D field object
returns has divergence zero and curl zero and the electrostatic potential satisfies Laplace's equation; likewise for the magnetostatic field and
potential. -/
theorem C93_methods (f : Field3DBEM) (p : V3) :
    ((∀ row ∈ f.elec.positions, p ∉ row) → ∃ φ E, (∀ q, PyObj.electrostaticPotential q (.threeD f) = some (φ q)) ∧
      (∀ q, PyObj.electrostaticField q (.threeD f) = some (E q)) ∧ Harmonic φ p ∧ VacuumField E p) ∧
    ((∀ row ∈ f.mag.positions, p ∉ row) → ∃ φ H, (∀ q, PyObj.magnetostaticPotential q (.threeD f) = some (φ q)) ∧
      (∀ q, PyObj.magnetostaticField q (.threeD f) = some (H q)) ∧ Harmonic φ p ∧ VacuumField H p) :=
  ⟨fun h => ⟨_, _, fun _ => rfl, fun _ => rfl, harmonic_potential f.elec p h, vacuum_field f.elec p h⟩,
   fun h => ⟨_, _, fun _ => rfl, fun _ => rfl, harmonic_potential f.mag p h, vacuum_field f.mag p h⟩⟩

end Traceon
