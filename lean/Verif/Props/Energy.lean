import Verif.Spec.Energy
import Verif.Props.Convergence
import Verif.Props.Tracer3
import Verif.Props.Interface
import Mathlib.Analysis.Calculus.MeanValue
import Mathlib.Analysis.Calculus.ContDiff.RCLike

/-!
# C85: traced electrons keep their energy
-/
namespace Traceon
open Spec Set V3

@[simp] theorem state_vec (p : Phase) : state (vec p) = p := rfl

/-- A function that is continuously differentiable along a trajectory changes in proportion to small deviations from the trajectory. -/
theorem exists_lipschitz_near {E : Type*} [NormedAddCommGroup E] [NormedSpace ℝ E] {K : Set E} (hK : IsCompact K) {W : E → ℝ} (hW : ∀ a ∈ K, ContDiffAt ℝ 1 W a) :
    ∃ δ > 0, ∃ L ≥ 0, ∀ a ∈ K, ∀ b, ‖b - a‖ ≤ δ → |W b - W a| ≤ L * ‖b - a‖ := by
  refine IsCompact.induction_on (p := fun K => ∃ δ > 0, ∃ L ≥ 0, ∀ a ∈ K, ∀ b, ‖b - a‖ ≤ δ → |W b - W a| ≤ L * ‖b - a‖) hK
    ⟨1, one_pos, 0, le_rfl, fun a ha => ha.elim⟩ ?_ ?_ ?_
  · rintro s t hst ⟨δ, hδ, L, hL, h⟩
    exact ⟨δ, hδ, L, hL, fun a ha => h a (hst ha)⟩
  · rintro s t ⟨δ, hδ, L, hL, h⟩ ⟨δ', hδ', L', hL', h'⟩
    refine ⟨min δ δ', lt_min hδ hδ', max L L', le_max_of_le_left hL, ?_⟩
    rintro a (ha | ha) b hb
    · exact (h a ha b (hb.trans (min_le_left _ _))).trans (mul_le_mul_of_nonneg_right (le_max_left _ _) (norm_nonneg _))
    · exact (h' a ha b (hb.trans (min_le_right _ _))).trans (mul_le_mul_of_nonneg_right (le_max_right _ _) (norm_nonneg _))
  · intro c hc
    obtain ⟨L, t, ht, hL⟩ := (hW c hc).exists_lipschitzOnWith
    obtain ⟨ε, hε, hball⟩ := Metric.mem_nhds_iff.1 ht
    refine ⟨Metric.ball c (ε / 2), mem_nhdsWithin_of_mem_nhds (Metric.ball_mem_nhds _ (half_pos hε)), ε / 3, by positivity, L, L.2, fun a ha b hb => ?_⟩
    have ha' : dist a c < ε / 2 := ha
    have hb' : dist b a ≤ ε / 3 := by rw [dist_eq_norm]; exact hb
    have := hL.dist_le_mul b (hball (by
      show dist b c < ε
      have := dist_triangle b a c
      linarith)) a (hball (by show dist a c < ε; linarith))
    rw [Real.dist_eq, dist_eq_norm] at this
    exact this

/-- Quantities that are smooth along a trajectory to which the tracer converges. -/
theorem Spec.Converges.observable {field : Phase → V3} {Y : ℝ → Fin 6 → ℝ} {T : ℝ} (hT : 0 ≤ T) (h : Converges field Y T) (hY : ContinuousOn Y (Icc 0 T)) {W : (Fin 6 → ℝ) → ℝ}
    (hW : ∀ t ∈ Icc 0 T, ContDiffAt ℝ 1 W (Y t)) :
    ∃ C h₁ : ℝ, 0 ≤ C ∧ 0 < h₁ ∧ ∀ (bounds : Bounds) (atol : ℝ) (B fuel : Nat) (x v : V3) (rows : List Row), 0 < atol → 2 ≤ B → vec ⟨x, v⟩ = Y 0 →
      traceParticle field bounds atol B fuel x v = some rows →
      ∀ (n : ℕ) (t : ℝ) (y : Phase) (η : ℝ), rows[n]? = some (t, y) → t ≤ T → η ≤ h₁ →
        (∀ (i : ℕ) (a b : Row), i < n → rows[i]? = some a → rows[i + 1]? = some b → b.1 - a.1 ≤ η) →
        |W (vec y) - W (Y t)| ≤ C * t * η ^ 5 := by
  obtain ⟨C, h₁, hC, hh₁, key⟩ := h
  obtain ⟨δ, hδ, L, hL, near⟩ := exists_lipschitz_near (K := Y '' Icc 0 T) (isCompact_Icc.image_of_continuousOn hY) (by rintro _ ⟨t, ht, rfl⟩; exact hW t ht)
  have hpos : 0 < δ / (C * T + 1) := by positivity
  refine ⟨L * C, min h₁ (min 1 (δ / (C * T + 1))), by positivity, by positivity, ?_⟩
  intro bounds atol B fuel x v rows ha hB h0 hrun n t y η hn ht hη hsteps
  have hη1 := hη.trans (min_le_left _ _)
  have hη2 : η ≤ 1 := hη.trans ((min_le_right _ _).trans (min_le_left _ _))
  have hη3 : η ≤ δ / (C * T + 1) := hη.trans ((min_le_right _ _).trans (min_le_right _ _))
  have hb := key bounds atol B fuel x v rows ha hB h0 hrun n t y η hn ht hη1 hsteps
  have traj := C46_trajectory field bounds atol ha B hB fuel x v rows hrun
  have mono : ∀ k : ℕ, k ≤ n → ∀ a : Row, rows[k]? = some a → 0 ≤ a.1 ∧ (0 < k → 0 ≤ η) := by
    intro k
    induction k with
    | zero =>
      intro _ a hra
      rw [traj.first] at hra
      cases hra
      exact ⟨le_rfl, fun h => absurd h (lt_irrefl 0)⟩
    | succ k ih =>
      intro hkn a hra
      have hlt : k < rows.length := by have := (List.getElem?_eq_some_iff.1 hra).1; omega
      obtain ⟨i1, -⟩ := ih (by omega) rows[k] (List.getElem?_eq_getElem hlt)
      have hs : k / (B - 1) * (B - 1) < rows.length := lt_of_le_of_lt (Nat.div_mul_le_self k (B - 1)) hlt
      obtain ⟨h1, -⟩ := traj.step k _ _ _ (List.getElem?_eq_getElem hlt) hra (List.getElem?_eq_getElem hs)
      have := hsteps k _ _ (by omega) (List.getElem?_eq_getElem hlt) hra
      exact ⟨by linarith, fun _ => by linarith⟩
  have ht0 : 0 ≤ t := (mono n le_rfl _ hn).1
  rcases Nat.eq_zero_or_pos n with rfl | hnpos
  · rw [traj.first] at hn
    cases hn
    rw [h0]
    simp
  have hη0 : 0 ≤ η := (mono n le_rfl _ hn).2 hnpos
  have hnorm : ‖vec y - Y t‖ ≤ C * t * η ^ 5 := by
    rw [pi_norm_le_iff_of_nonneg (by positivity)]
    intro j
    rw [Pi.sub_apply, Real.norm_eq_abs]
    exact hb j
  have hle : C * t * η ^ 5 ≤ δ := by
    have h5 : η ^ 5 ≤ η := by
      calc η ^ 5 = η * η ^ 4 := by ring
        _ ≤ η * 1 := by gcongr; exact pow_le_one₀ hη0 hη2
        _ = η := mul_one _
    have h6 : C * t ≤ C * T + 1 := by nlinarith [mul_le_mul_of_nonneg_left ht hC]
    calc C * t * η ^ 5 ≤ (C * T + 1) * (δ / (C * T + 1)) := by
          apply mul_le_mul h6 (h5.trans hη3) (by positivity) (by positivity)
      _ = δ := by field_simp
  have := near (Y t) ⟨t, ⟨ht0, ht⟩, rfl⟩ (vec y) (hnorm.trans hle)
  calc |W (vec y) - W (Y t)| ≤ L * ‖vec y - Y t‖ := this
    _ ≤ L * (C * t * η ^ 5) := by gcongr
    _ = L * C * t * η ^ 5 := by ring

/-- A quantity whose derivative along the trajectory vanishes is constant. -/
theorem constant_along {g : ℝ → ℝ} {T : ℝ} (h : ∀ t ∈ Icc 0 T, HasDerivWithinAt g 0 (Icc 0 T) t) : ∀ t ∈ Icc 0 T, g t = g 0 := by
  intro t ht
  refine constant_of_has_deriv_right_zero (a := 0) (b := T) (fun s hs => (h s hs).continuousWithinAt) (fun s hs => ?_) t ht
  exact (h s (Ico_subset_Icc_self hs)).mono_of_mem_nhdsWithin (Icc_mem_nhdsGE_of_mem hs)

theorem motion_comp {field : Phase → V3} {Y : ℝ → Fin 6 → ℝ} {T t : ℝ} {em : ℝ} (hY : HasDerivWithinAt Y (motion em field (Y t)) (Icc 0 T) t) :
    HasDerivWithinAt (fun t => Y t 0) (Y t 3) (Icc 0 T) t ∧ HasDerivWithinAt (fun t => Y t 1) (Y t 4) (Icc 0 T) t ∧ HasDerivWithinAt (fun t => Y t 2) (Y t 5) (Icc 0 T) t ∧
    HasDerivWithinAt (fun t => Y t 3) (em * (field (state (Y t))).x) (Icc 0 T) t ∧ HasDerivWithinAt (fun t => Y t 4) (em * (field (state (Y t))).y) (Icc 0 T) t ∧
    HasDerivWithinAt (fun t => Y t 5) (em * (field (state (Y t))).z) (Icc 0 T) t := by
  have := hasDerivWithinAt_pi.1 hY
  exact ⟨this 0, this 1, this 2, this 3, this 4, this 5⟩

/-- A potential along a trajectory. -/
theorem Spec.IsGradient.along {φ : V3 → ℝ} {g : V3} {X Y Z : ℝ → ℝ} {X' Y' Z' t : ℝ} {s : Set ℝ} (h : IsGradient φ g ⟨X t, Y t, Z t⟩) (hX : HasDerivWithinAt X X' s t)
    (hY : HasDerivWithinAt Y Y' s t) (hZ : HasDerivWithinAt Z Z' s t) : HasDerivWithinAt (fun t => φ ⟨X t, Y t, Z t⟩) (g.x * X' + g.y * Y' + g.z * Z') s t := by
  have hp : HasDerivWithinAt (fun t => (X t, Y t, Z t)) (X', Y', Z') s t := hX.prodMk (hY.prodMk hZ)
  have := HasFDerivAt.comp_hasDerivWithinAt (f := fun t => (X t, Y t, Z t)) (l := fun v : ℝ × ℝ × ℝ => φ ⟨v.1, v.2.1, v.2.2⟩) t h hp
  refine this.congr_deriv ?_
  simp

/-- The energy of an electron in a potential `φ` with a magnetic field does not change. -/
theorem energy_constant {em : ℝ} (hem : em ≠ 0) {field : Phase → V3} {φ : V3 → ℝ} {E B : V3 → V3} {Y : ℝ → Fin 6 → ℝ} {T : ℝ}
    (hY : ∀ t ∈ Icc 0 T, HasDerivWithinAt Y (motion em field (Y t)) (Icc 0 T) t)
    (hF : ∀ p, field p = E p.pos + cross p.vel (B p.pos)) (hE : ∀ t ∈ Icc 0 T, IsGradient φ (-E (state (Y t)).pos) (state (Y t)).pos) :
    ∀ t ∈ Icc 0 T, energy em φ (state (Y t)) = energy em φ (state (Y 0)) := by
  refine constant_along (g := fun t => energy em φ (state (Y t))) fun t ht => ?_
  obtain ⟨h0, h1, h2, h3, h4, h5⟩ := motion_comp (hY t ht)
  have hφ := (hE t ht).along h0 h1 h2
  have hk := ((h3.mul h3).add (h4.mul h4)).add (h5.mul h5)
  have := (hk.div_const (2 * -em)).sub hφ
  refine this.congr_deriv ?_
  rw [hF]
  simp only [state, neg_x, neg_y, neg_z, add_x, add_y, add_z, cross]
  field_simp
  ring

end Traceon
