import Verif.Props.TriangleAccuracy
import Verif.Props.Quadrature
import Verif.Props.Matrix3D2

/-!
# C59: how far the rows of the matrix are from the potential of the charged triangles
-/
namespace Traceon
open V3 Spec

theorem sum_split_one {l : List Nat} (hl : l.Nodup) {i : Nat} (hi : i ∈ l) (f : Nat → ℝ) :
    (l.map f).sum = f i + ((l.filter (· ≠ i)).map f).sum := by
  have h1 := (List.perm_cons_erase hi).map f
  rw [h1.sum_eq, List.map_cons, List.sum_cons, hl.erase_eq_filter]
  simp [bne, BEq.beq]

open Classical in
theorem sum_split_filter (l : List Nat) (P : Nat → Prop) (f : Nat → ℝ) :
    (l.map f).sum = ((l.filter fun j => P j).map f).sum + ((l.filter fun j => ¬P j).map f).sum := by
  induction l with
  | nil => simp
  | cons a l ih =>
    by_cases h : P a
    · simp [h, ih, add_assoc]
    · simp only [List.map_cons, List.sum_cons, ih, List.filter_cons, h, decide_false, not_false_eq_true, decide_true, if_true]
      simp
      ring

/-- **C59** (the true potential). For every charge distribution, the row of a voltage element applied to the charges is the potential, at the centre of the element, of all the other triangles, each
uniformly charged, plus the contribution of the element itself, up to the given errors: distant elements contribute the error of the 12-point rule, nearby ones that of the adaptive integration.
Partial: the contribution of the element itself is the value of the adaptive integration, and the other elements must lie in spheres that do not contain the centre (which holds for elements that are
not too close, but gives a poor bound for direct neighbours). -/
theorem C59_accuracy_partial {n : Nat} {t : Nat → Tri3} {q : Nat → ℝ} {i : Nat} (hi : i < n) {φ : ℝ} (h : PotentialAtCentre n t q i φ) (c : Nat → V3) (ρ : Nat → ℝ)
    (hfar : ∀ j ∈ farElements n t i, SmallFrom (centroid (t i)) (t j) (c j) (ρ j))
    (hnear : ∀ j ∈ nearElements n t i, j ≠ i → cross ((t j).v1 - (t j).v0) ((t j).v2 - (t j).v0) ≠ 0 ∧
      AwayFromLines (t j).v0 (t j).v1 (t j).v2 (centroid (t i)) 1e-12 ∧ Closer (t j).v0 (t j).v1 (t j).v2 (centroid (t i)) (c j) (ρ j)) :
    ∃ own, PotentialTriangleReturns (t i).v0 (t i).v1 (t i).v2 (centroid (t i)) own ∧
      |φ - (exactPotential (centroid (t i)) t q ((List.range n).filter (· ≠ i)) + q i * (own / (4 * Real.pi)))| ≤
        ((farElements n t i).map fun j => |q j| * (area (t j) / (4 * Real.pi * V3.norm (centroid (t i) - c j)) * (2.01 * ρ j ^ 7 * (1 + ρ j) / (1 - ρ j) ^ 2 + 1e-10))).sum +
        (((nearElements n t i).filter (· ≠ i)).map fun j =>
          |q j| * (area (t j) / (4 * Real.pi * V3.norm (centroid (t i) - c j)) * (4 * (ρ j ^ 23 * (1 + ρ j) / (1 - ρ j) ^ 2) + 4.6e-14 / (1 - ρ j)))).sum := by
  obtain ⟨near, hn, rfl⟩ := h
  set p := centroid (t i) with hp
  have hpi := Real.pi_pos
  have hi1 : i ∈ nearElements n t i := by unfold nearElements; rw [List.mem_filter]; exact ⟨List.mem_range.2 hi, by simp⟩
  refine ⟨near i, hn i hi1, ?_⟩
  have hnd : (nearElements n t i).Nodup := List.nodup_range.filter _
  have f1 := C76_potential_3d p t q (farElements n t i) c ρ hfar
  have f2 := sum_err (js := (nearElements n t i).filter (· ≠ i)) q (fun j => near j / (4 * Real.pi)) (fun j => triPotential (t j).v0 (t j).v1 (t j).v2 p / (4 * Real.pi))
    (fun j => area (t j) / (4 * Real.pi * V3.norm (p - c j)) * (4 * (ρ j ^ 23 * (1 + ρ j) / (1 - ρ j) ^ 2) + 4.6e-14 / (1 - ρ j))) (by
      intro j hj
      obtain ⟨hj1, hj2⟩ := List.mem_filter.1 hj
      have hne : j ≠ i := by simpa using hj2
      obtain ⟨k1, k2, k3⟩ := hnear j hj1 hne
      have := C55_accuracy k1 k2 k3 (hn j hj1)
      rw [← sub_div, abs_div, abs_of_pos (by positivity : 0 < 4 * Real.pi), div_le_iff₀ (by positivity)]
      refine this.trans (le_of_eq ?_)
      have hd := k3.pos
      unfold area
      have e : (4.6e-14 : ℝ) / (1 - ρ j) = 2 * (2.3e-14 / (1 - ρ j)) := by ring
      rw [e]
      field_simp
      ring)
  have g1 := sum_split_one hnd hi1 fun j => q j * (near j / (4 * Real.pi))
  have g2 := sum_split_one hnd hi1 fun j => q j * (triPotential (t j).v0 (t j).v1 (t j).v2 p / (4 * Real.pi))
  have g3 := sum_split_one (List.nodup_range (n := n)) (List.mem_range.2 hi) fun j => q j * (triPotential (t j).v0 (t j).v1 (t j).v2 p / (4 * Real.pi))
  have g4 := sum_split_filter (List.range n) (fun j => i ≠ j ∧ 5 * V3.norm ((t j).v1 - (t j).v0) < V3.norm (centroid (t i) - (t j).v0))
    fun j => q j * (triPotential (t j).v0 (t j).v1 (t j).v2 p / (4 * Real.pi))
  rw [g1]
  unfold exactPotential at f1 ⊢
  have g5 : ((List.range n).map fun j => q j * (triPotential (t j).v0 (t j).v1 (t j).v2 p / (4 * Real.pi))).sum =
      ((farElements n t i).map fun j => q j * (triPotential (t j).v0 (t j).v1 (t j).v2 p / (4 * Real.pi))).sum +
      ((nearElements n t i).map fun j => q j * (triPotential (t j).v0 (t j).v1 (t j).v2 p / (4 * Real.pi))).sum := by
    rw [g4]
    unfold farElements nearElements
    congr!
  rw [g5, g2] at g3
  refine le_trans (le_of_eq ?_) ((abs_add_le _ _).trans (add_le_add f1 f2))
  congr 1
  linarith [g3]

/-- Three equal triangles, at heights 0, 3 and 100. -/
noncomputable def towerTris (i : Nat) : Tri3 :=
  let z : ℝ := if i = 0 then 0 else if i = 1 then 3 else 100
  ⟨⟨0, 0, z⟩, ⟨1, 0, z⟩, ⟨0, 1, z⟩⟩

/-- The hypotheses of `C59_accuracy_partial` hold for the lowest of these triangles, the second of which is near and the third one far, whatever the charges are. -/
theorem C59_accuracy_example (q : Nat → ℝ) : ∃ (φ : ℝ) (c : Nat → V3) (ρ : Nat → ℝ), PotentialAtCentre 3 towerTris q 0 φ ∧
    farElements 3 towerTris 0 = [2] ∧ nearElements 3 towerTris 0 = [0, 1] ∧
    (∀ j ∈ farElements 3 towerTris 0, SmallFrom (centroid (towerTris 0)) (towerTris j) (c j) (ρ j)) ∧
    (∀ j ∈ nearElements 3 towerTris 0, j ≠ 0 → cross ((towerTris j).v1 - (towerTris j).v0) ((towerTris j).v2 - (towerTris j).v0) ≠ 0 ∧
      AwayFromLines (towerTris j).v0 (towerTris j).v1 (towerTris j).v2 (centroid (towerTris 0)) 1e-12 ∧
      Closer (towerTris j).v0 (towerTris j).v1 (towerTris j).v2 (centroid (towerTris 0)) (c j) (ρ j)) := by
  have hcr : ∀ j, cross ((towerTris j).v1 - (towerTris j).v0) ((towerTris j).v2 - (towerTris j).v0) = ⟨0, 0, 1⟩ := by
    intro j; ext <;> simp [towerTris, cross]
  have hne : ∀ j, cross ((towerTris j).v1 - (towerTris j).v0) ((towerTris j).v2 - (towerTris j).v0) ≠ 0 := by
    intro j; rw [hcr]; intro h; have := congrArg V3.z h; simp at this
  have hcen : centroid (towerTris 0) = ⟨1 / 3, 1 / 3, 0⟩ := by ext <;> simp [centroid, towerTris]
  have hside : ∀ j, V3.norm ((towerTris j).v1 - (towerTris j).v0) = 1 := fun j => norm_eq_of_sq (by norm_num) (by simp [towerTris, dot])
  have f1 : ¬5 * V3.norm ((towerTris 1).v1 - (towerTris 1).v0) < V3.norm (centroid (towerTris 0) - (towerTris 1).v0) := by
    rw [hside, hcen, not_lt]
    refine V3.norm_le_of (by norm_num) ?_
    simp [towerTris, dot]; norm_num
  have f2 : 5 * V3.norm ((towerTris 2).v1 - (towerTris 2).v0) < V3.norm (centroid (towerTris 0) - (towerTris 2).v0) := by
    rw [hside, hcen]
    unfold V3.norm
    apply Real.lt_sqrt_of_sq_lt
    simp [towerTris, dot]; norm_num
  have efar : farElements 3 towerTris 0 = [2] := by
    unfold farElements
    simp [List.range_succ, List.filter_cons, f1, f2]
  have enear : nearElements 3 towerTris 0 = [0, 1] := by
    unfold nearElements
    simp [List.range_succ, List.filter_cons, f1, f2]
  have hd : ∀ z : ℝ, 0 ≤ z → z ≤ V3.norm ((⟨1 / 3, 1 / 3, 0⟩ : V3) - ⟨1 / 2, 1 / 2, z⟩) := by
    intro z hz
    unfold V3.norm
    refine Real.le_sqrt_of_sq_le ?_
    simp only [dot, sub_x, sub_y, sub_z]
    nlinarith
  have hv : ∀ (x y z : ℝ), 3 ≤ z → (x - 1 / 2) ^ 2 = 1 / 4 → (y - 1 / 2) ^ 2 = 1 / 4 →
      V3.norm ((⟨x, y, z⟩ : V3) - ⟨1 / 2, 1 / 2, z⟩) ≤ 1 / 4 * V3.norm ((⟨1 / 3, 1 / 3, 0⟩ : V3) - ⟨1 / 2, 1 / 2, z⟩) := by
    intro x y z hz hx hy
    have h1 := hd z (by linarith)
    have : V3.norm ((⟨x, y, z⟩ : V3) - ⟨1 / 2, 1 / 2, z⟩) ≤ 3 / 4 :=
      V3.norm_le_of (by norm_num) (by simp only [dot, sub_x, sub_y, sub_z]; nlinarith)
    linarith
  have haway : AwayFromLines (towerTris 1).v0 (towerTris 1).v1 (towerTris 1).v2 ⟨1 / 3, 1 / 3, 0⟩ 1e-12 := by
    intro v _ _ s
    have : (1 : ℝ) ≤ V3.norm ((⟨1 / 3, 1 / 3, 0⟩ : V3) - triPoint (towerTris 1).v0 (towerTris 1).v1 (towerTris 1).v2 s v) := by
      unfold V3.norm
      rw [Real.one_le_sqrt]
      simp only [dot, triPoint, towerTris, sub_x, sub_y, sub_z, add_x, add_y, add_z, smul_x, smul_y, smul_z]
      norm_num
      nlinarith [mul_self_nonneg (1 / 3 - s), mul_self_nonneg (1 / 3 - v)]
    exact le_trans (by norm_num) this
  obtain ⟨r1, hr1⟩ := C55_potential_returns (hne 1) _ haway
  have hn2 : V3.norm ((towerTris 0).v2 - (towerTris 0).v0) = 1 := norm_eq_of_sq (by norm_num) (by simp [towerTris, dot])
  have hn3 : V3.norm ((towerTris 0).v2 - (towerTris 0).v1) ≤ 2 := V3.norm_le_of (by norm_num) (by simp [towerTris, dot]; norm_num)
  have hn : V3.norm (⟨0, 0, 1⟩ : V3) = 1 := norm_eq_of_sq (by norm_num) (by simp [dot])
  obtain ⟨r0, hr0⟩ := C59_own_returns (hne 0) (by rw [hcr, hn, hn2]; norm_num) (by rw [hcr, hn]; linarith)
  refine ⟨_, fun j => ⟨1 / 2, 1 / 2, if j = 1 then 3 else 100⟩, fun _ => 1 / 4, ⟨fun j => if j = 0 then r0 else r1, ?_, rfl⟩, efar, enear, ?_, ?_⟩
  · rw [enear]
    intro j hj
    rcases (by simpa using hj : j = 0 ∨ j = 1) with rfl | rfl
    · exact hr0
    · rw [hcen]; exact hr1
  · rw [efar, hcen]
    intro j hj
    obtain rfl : j = 2 := by simpa using hj
    have := hd 100 (by norm_num)
    exact ⟨by simpa using lt_of_lt_of_le (by norm_num) this, by norm_num, by simpa [towerTris] using hv 0 0 100 (by norm_num) (by norm_num) (by norm_num),
      by simpa [towerTris] using hv 1 0 100 (by norm_num) (by norm_num) (by norm_num),
      by simpa [towerTris] using hv 0 1 100 (by norm_num) (by norm_num) (by norm_num)⟩
  · rw [enear, hcen]
    intro j hj hj0
    obtain rfl : j = 1 := by
      rcases (by simpa using hj : j = 0 ∨ j = 1) with rfl | rfl
      · exact absurd rfl hj0
      · rfl
    have := hd 3 (by norm_num)
    refine ⟨hne 1, haway, ?_⟩
    exact ⟨by simpa using lt_of_lt_of_le (by norm_num) this, by norm_num, by simpa [towerTris] using hv 0 0 3 (by norm_num) (by norm_num) (by norm_num),
      by simpa [towerTris] using hv 1 0 3 (by norm_num) (by norm_num) (by norm_num),
      by simpa [towerTris] using hv 0 1 3 (by norm_num) (by norm_num) (by norm_num)⟩

end Traceon
