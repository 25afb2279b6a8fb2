import Verif.Props.TriangleAccuracy2
import Verif.Props.Matrix3D4

/-!
# C59: how far the interface rows of the matrix are from the field of the charged triangles
-/
namespace Traceon
open V3 Spec

/-- **C59** (the true field). For every charge distribution, the normal field that the row of a dielectric or magnetizable element takes the interface condition from is the normal component, at the
centre of the element, of the field of all the triangles, each uniformly charged (of which the element itself contributes nothing), up to the given errors. Partial: the other elements must lie in
spheres that do not contain the centre. -/
theorem C59_field_accuracy_partial {n : Nat} {t : Nat → Tri3} {q : Nat → ℝ} {i : Nat} (hi : i < n) (hne : cross ((t i).v1 - (t i).v0) ((t i).v2 - (t i).v0) ≠ 0) {e : ℝ}
    (h : NormalFieldAtCentre n t q i e) (c : Nat → V3) (ρ : Nat → ℝ)
    (hfar : ∀ j ∈ farElements n t i, SmallFrom (centroid (t i)) (t j) (c j) (ρ j))
    (hnear : ∀ j ∈ nearElements n t i, j ≠ i → cross ((t j).v1 - (t j).v0) ((t j).v2 - (t j).v0) ≠ 0 ∧
      AwayFromLines (t j).v0 (t j).v1 (t j).v2 (centroid (t i)) (Real.sqrt 1e-9) ∧ Closer (t j).v0 (t j).v1 (t j).v2 (centroid (t i)) (c j) (ρ j)) :
    |e - exactFieldAlong (centroid (t i)) (normal3d (t i).v0 (t i).v1 (t i).v2) t q (List.range n)| ≤
      ((farElements n t i).map fun j =>
        |q j| * (area (t j) / (4 * Real.pi * V3.norm (centroid (t i) - c j) ^ 2) * (128.01 * ρ j ^ 7 * (1 + ρ j) ^ 2 / (1 - ρ j) ^ 3 + 1e-9))).sum +
      (((nearElements n t i).filter (· ≠ i)).map fun j =>
        |q j| * (area (t j) / (4 * Real.pi * V3.norm (centroid (t i) - c j) ^ 2) * ((1 + ρ j) * (4 * cubeTail 22 (ρ j) + 4.6e-14 * (1 / (1 - ρ j) ^ 3))))).sum := by
  obtain ⟨near, hn, rfl⟩ := h
  have hunit : V3.norm (normal3d (t i).v0 (t i).v1 (t i).v2) = 1 := norm_eq_of_sq zero_le_one (by unfold normal3d; rw [dot_unit_self hne, one_mul])
  set p := centroid (t i) with hp
  set m := normal3d (t i).v0 (t i).v1 (t i).v2 with hm
  have hpi := Real.pi_pos
  have hi1 : i ∈ nearElements n t i := by unfold nearElements; rw [List.mem_filter]; exact ⟨List.mem_range.2 hi, by simp⟩
  have hnd : (nearElements n t i).Nodup := List.nodup_range.filter _
  have f1 := C76_field_3d p m hunit t q (farElements n t i) c ρ hfar
  have f2 := sum_err (js := (nearElements n t i).filter (· ≠ i)) q (fun j => near j / (4 * Real.pi)) (fun j => triFieldAlong (t j).v0 (t j).v1 (t j).v2 p m / (4 * Real.pi))
    (fun j => area (t j) / (4 * Real.pi * V3.norm (p - c j) ^ 2) * ((1 + ρ j) * (4 * cubeTail 22 (ρ j) + 4.6e-14 * (1 / (1 - ρ j) ^ 3)))) (by
      intro j hj
      obtain ⟨hj1, hj2⟩ := List.mem_filter.1 hj
      have hne : j ≠ i := by simpa using hj2
      obtain ⟨k1, k2, k3⟩ := hnear j hj1 hne
      have := C55_flux_accuracy k1 k2 k3 (hn j hj1 hne)
      rw [← sub_div, abs_div, abs_of_pos (by positivity : 0 < 4 * Real.pi), div_le_iff₀ (by positivity)]
      refine this.trans (le_of_eq ?_)
      have hd := k3.pos
      rw [hunit]
      unfold area
      have e : (4.6e-14 : ℝ) * (1 / (1 - ρ j) ^ 3) = 2 * (2.3e-14 * (1 / (1 - ρ j) ^ 3)) := by ring
      rw [e]
      generalize (2.3e-14 * (1 / (1 - ρ j) ^ 3) : ℝ) = τ
      field_simp
      ring)
  have own : triFieldAlong (t i).v0 (t i).v1 (t i).v2 p m = 0 := C59_own_field
  have g2 := sum_split_one hnd hi1 fun j => q j * (triFieldAlong (t j).v0 (t j).v1 (t j).v2 p m / (4 * Real.pi))
  have g4 := sum_split_filter (List.range n) (fun j => i ≠ j ∧ 5 * V3.norm ((t j).v1 - (t j).v0) < V3.norm (centroid (t i) - (t j).v0))
    fun j => q j * (triFieldAlong (t j).v0 (t j).v1 (t j).v2 p m / (4 * Real.pi))
  unfold exactFieldAlong at f1 ⊢
  have g5 : ((List.range n).map fun j => q j * (triFieldAlong (t j).v0 (t j).v1 (t j).v2 p m / (4 * Real.pi))).sum =
      ((farElements n t i).map fun j => q j * (triFieldAlong (t j).v0 (t j).v1 (t j).v2 p m / (4 * Real.pi))).sum +
      ((nearElements n t i).map fun j => q j * (triFieldAlong (t j).v0 (t j).v1 (t j).v2 p m / (4 * Real.pi))).sum := by
    rw [g4]
    unfold farElements nearElements
    congr!
  rw [own, zero_div, mul_zero, zero_add] at g2
  rw [g5, g2]
  refine le_trans (le_of_eq ?_) ((abs_add_le _ _).trans (add_le_add f1 f2))
  congr 1
  ring

/-- If the interface condition holds for a field within `δ` of the true one, it holds for the true field up to `|1 - K| δ`. -/
theorem interface_near {K e e' σ δ : ℝ} (h : InterfaceCondition K e σ) (hd : |e - e'| ≤ δ) : |(e' + σ / 2) - K * (e' - σ / 2)| ≤ |1 - K| * δ := by
  unfold InterfaceCondition at h
  rw [show (e' + σ / 2) - K * (e' - σ / 2) = -((1 - K) * (e - e')) by linear_combination h, abs_neg, abs_mul]
  exact mul_le_mul_of_nonneg_left hd (abs_nonneg _)

/-- **C59**, the interface condition for the true field. The charges that solving the linear system gives satisfy, at the centre of every dielectric element, the interface condition for the field of the
uniformly charged triangles, up to `|1 - K|` times the errors of `C59_field_accuracy_partial`. -/
theorem C59_solved_interface_partial {n T : Nat} {o : TriRoutines} {t : Nat → Tri3} {types : Nat → Option ExcType} {values : Nat → ℝ}
    (hT : 0 < T) (ho : o.Correct n t types) (diag : Nat → ℝ) (sched : List Nat)
    (hjoin : Joined sched (matrixProgs false n T (fillOps3d o t types values))) {A : Nat → Nat → ℝ} {q : List ℝ}
    (hA : getMatrix false n T (fillOps3d o t types values) diag sched = some A)
    (hq : linSolve (Matrix.of fun i j : Fin n => A i j) (List.ofFn fun i : Fin n => Excitation.rhsElectric (types i) (values i)) = some q)
    {i : Nat} (hi : i < n) (hty : types i = some .dielectric) (hK : values i ≠ -1) (hne : cross ((t i).v1 - (t i).v0) ((t i).v2 - (t i).v0) ≠ 0) (c : Nat → V3) (ρ : Nat → ℝ)
    (hfar : ∀ j ∈ farElements n t i, SmallFrom (centroid (t i)) (t j) (c j) (ρ j))
    (hnear : ∀ j ∈ nearElements n t i, j ≠ i → cross ((t j).v1 - (t j).v0) ((t j).v2 - (t j).v0) ≠ 0 ∧
      AwayFromLines (t j).v0 (t j).v1 (t j).v2 (centroid (t i)) (Real.sqrt 1e-9) ∧ Closer (t j).v0 (t j).v1 (t j).v2 (centroid (t i)) (c j) (ρ j)) :
    let e := exactFieldAlong (centroid (t i)) (normal3d (t i).v0 (t i).v1 (t i).v2) t (q.getD · 0) (List.range n)
    |(e + q.getD i 0 / 2) - values i * (e - q.getD i 0 / 2)| ≤ |1 - values i| *
      (((farElements n t i).map fun j =>
        |q.getD j 0| * (area (t j) / (4 * Real.pi * V3.norm (centroid (t i) - c j) ^ 2) * (128.01 * ρ j ^ 7 * (1 + ρ j) ^ 2 / (1 - ρ j) ^ 3 + 1e-9))).sum +
      (((nearElements n t i).filter (· ≠ i)).map fun j =>
        |q.getD j 0| * (area (t j) / (4 * Real.pi * V3.norm (centroid (t i) - c j) ^ 2) * ((1 + ρ j) * (4 * cubeTail 22 (ρ j) + 4.6e-14 * (1 / (1 - ρ j) ^ 3))))).sum) := by
  obtain ⟨e, he, hic⟩ := (C59_solution_partial hT ho diag sched hjoin hA hq).2 i hi hty hK
  exact interface_near hic (C59_field_accuracy_partial hi hne he c ρ hfar hnear)

/-- The hypotheses of `C59_field_accuracy_partial` hold for the lowest of three equal triangles at heights 0, 3 and 100, the second of which is near and the third one far, whatever the charges are. -/
theorem C59_field_accuracy_example (q : Nat → ℝ) : ∃ (e : ℝ) (c : Nat → V3) (ρ : Nat → ℝ), NormalFieldAtCentre 3 towerTris q 0 e ∧
    farElements 3 towerTris 0 = [2] ∧ nearElements 3 towerTris 0 = [0, 1] ∧
    (∀ j ∈ farElements 3 towerTris 0, SmallFrom (centroid (towerTris 0)) (towerTris j) (c j) (ρ j)) ∧
    (∀ j ∈ nearElements 3 towerTris 0, j ≠ 0 → cross ((towerTris j).v1 - (towerTris j).v0) ((towerTris j).v2 - (towerTris j).v0) ≠ 0 ∧
      AwayFromLines (towerTris j).v0 (towerTris j).v1 (towerTris j).v2 (centroid (towerTris 0)) (Real.sqrt 1e-9) ∧
      Closer (towerTris j).v0 (towerTris j).v1 (towerTris j).v2 (centroid (towerTris 0)) (c j) (ρ j)) := by
  obtain ⟨_, c, ρ, -, efar, enear, hfar, hnear⟩ := C59_accuracy_example q
  have hcen : centroid (towerTris 0) = ⟨1 / 3, 1 / 3, 0⟩ := by ext <;> simp [centroid, towerTris]
  have haway : AwayFromLines (towerTris 1).v0 (towerTris 1).v1 (towerTris 1).v2 (centroid (towerTris 0)) (Real.sqrt 1e-9) := by
    intro v _ _ s
    rw [hcen]
    unfold V3.norm
    refine Real.sqrt_le_sqrt ?_
    simp only [dot, triPoint, towerTris, sub_x, sub_y, sub_z, add_x, add_y, add_z, smul_x, smul_y, smul_z]
    norm_num
    nlinarith [mul_self_nonneg (1 / 3 - s), mul_self_nonneg (1 / 3 - v)]
  have h1 := hnear 1 (by rw [enear]; simp) (by norm_num)
  obtain ⟨r, hr⟩ := C55_flux_returns h1.1 _ (normal3d (towerTris 0).v0 (towerTris 0).v1 (towerTris 0).v2) haway
  have only : ∀ j ∈ nearElements 3 towerTris 0, j ≠ 0 → j = 1 := by
    intro j hj hj0
    rw [enear] at hj
    rcases (by simpa using hj : j = 0 ∨ j = 1) with rfl | rfl
    · exact absurd rfl hj0
    · rfl
  refine ⟨_, c, ρ, ⟨fun _ => r, fun j hj hj0 => ?_, rfl⟩, efar, enear, hfar, fun j hj hj0 => ?_⟩
  · obtain rfl := only j hj hj0
    exact hr
  · obtain rfl := only j hj hj0
    exact ⟨h1.1, haway, h1.2.2⟩

end Traceon
