import Verif.Props.Mesh
import Verif.Props.Triangle
import Verif.Model.RealGeo

/-!
# C04: which triangles are degenerate
-/
namespace Traceon
open Spec

/-- The area of a triangle: half the base `pq` times the height, the distance of `r` to its foot on the line through `p` and `q`. -/
def Spec.HasArea (p q r : V3) (A : ℝ) : Prop :=
  (p = q ∧ A = 0) ∨ (p ≠ q ∧ ∃ s : ℝ, V3.dot (r - (p + s * (q - p))) (q - p) = 0 ∧ A = V3.norm (q - p) * V3.norm (r - (p + s * (q - p))) / 2)

theorem hasArea_cross {p q r : V3} {A : ℝ} (h : HasArea p q r A) : V3.norm (V3.cross (q - p) (r - p)) / 2 = A := by
  rcases h with ⟨rfl, rfl⟩ | ⟨-, s, h, rfl⟩
  · have : V3.cross (p - p) (r - p) = 0 := by ext <;> simp [V3.cross]
    rw [this]; simp [V3.norm, V3.dot]
  · congr 1
    refine norm_eq_of_sq (mul_nonneg (Real.sqrt_nonneg _) (Real.sqrt_nonneg _)) ?_
    have e1 := V3.norm_sq (q - p)
    have e2 := V3.norm_sq (r - (p + s * (q - p)))
    rw [show ∀ a b : ℝ, a * b * (a * b) = (a * a) * (b * b) from fun a b => by ring, e1, e2]
    have e3 : V3.dot (V3.cross (q - p) (r - p)) (V3.cross (q - p) (r - p)) = V3.dot (q - p) (q - p) * V3.dot (r - (p + s * (q - p))) (r - (p + s * (q - p))) - V3.dot (r - (p + s * (q - p))) (q - p) ^ 2 := by
      simp [V3.cross, V3.dot]; ring
    rw [e3, h]; ring

theorem hasArea_exists (p q r : V3) : ∃ A, HasArea p q r A := by
  by_cases h : p = q
  · exact ⟨0, .inl ⟨h, rfl⟩⟩
  · have hd : V3.dot (q - p) (q - p) ≠ 0 := by
      rw [← V3.norm_sq]
      have := V3.norm_pos (fun e : q - p = 0 => h (by rw [V3.ext_iff] at e ⊢; simp only [V3.sub_x, V3.sub_y, V3.sub_z, V3.zero_x, V3.zero_y, V3.zero_z] at e; exact ⟨by linarith [e.1], by linarith [e.2.1], by linarith [e.2.2]⟩))
      positivity
    refine ⟨_, .inr ⟨h, V3.dot (r - p) (q - p) / V3.dot (q - p) (q - p), ?_, rfl⟩⟩
    have : ∀ s : ℝ, V3.dot (r - (p + s * (q - p))) (q - p) = V3.dot (r - p) (q - p) - s * V3.dot (q - p) (q - p) := by
      intro s; simp [V3.dot]; ring
    rw [this, div_mul_cancel₀ _ hd, sub_self]

/-- **C04**, with the area test: a triangle has exactly one area, and the ones that construction keeps (`nonDegShape` in `C04_groups_keep_triangles`) are the triangles with an area of at least 1e-12. -/
theorem C04_area (trunc : V3 → V3) (p q r : V3) : ∃! A, HasArea p q r A ∧ (nonDegShape (realGeo trunc) [p, q, r] = true ↔ 1e-12 ≤ A) := by
  obtain ⟨A, hA⟩ := hasArea_exists p q r
  refine ⟨A, ⟨hA, ?_⟩, fun B hB => by rw [← hasArea_cross hA, hasArea_cross hB.1]⟩
  simp only [nonDegShape, realGeo, hasArea_cross hA, Bool.not_eq_true', decide_eq_false_iff_not, not_lt]

/-- Two triangles on either side of the threshold. -/
theorem C04_area_example (trunc : V3 → V3) : nonDegShape (realGeo trunc) [⟨0, 0, 0⟩, ⟨2, 0, 0⟩, ⟨1, 1e-12, 0⟩] = true ∧ nonDegShape (realGeo trunc) [⟨0, 0, 0⟩, ⟨2, 0, 0⟩, ⟨1, 0, 5e-13⟩] = false := by
  have h : ∀ y z d A : ℝ, 0 ≤ d → d * d = y * y + z * z → A = d → HasArea (⟨0, 0, 0⟩ : V3) ⟨2, 0, 0⟩ ⟨1, y, z⟩ A := by
    intro y z d A hd hd2 hA
    refine .inr ⟨by simp [V3.ext_iff], 1 / 2, by simp [V3.dot], ?_⟩
    have e1 : V3.norm ((⟨2, 0, 0⟩ : V3) - ⟨0, 0, 0⟩) = 2 := norm_eq_of_sq (by norm_num) (by simp [V3.dot])
    have e2 : V3.norm ((⟨1, y, z⟩ : V3) - (⟨0, 0, 0⟩ + (1 / 2 : ℝ) * ((⟨2, 0, 0⟩ : V3) - ⟨0, 0, 0⟩))) = d := norm_eq_of_sq hd (by simp [V3.dot, hd2])
    rw [e1, e2, hA]; ring
  constructor
  · obtain ⟨A, ⟨h1, h2⟩, -⟩ := C04_area trunc ⟨0, 0, 0⟩ ⟨2, 0, 0⟩ ⟨1, 1e-12, 0⟩
    refine h2.2 ?_
    rw [← hasArea_cross h1, hasArea_cross (h 1e-12 0 1e-12 _ (by norm_num) (by norm_num) rfl)]
  · obtain ⟨A, ⟨h1, h2⟩, -⟩ := C04_area trunc ⟨0, 0, 0⟩ ⟨2, 0, 0⟩ ⟨1, 0, 5e-13⟩
    rw [Bool.eq_false_iff]
    intro h3
    have := h2.1 h3
    rw [← hasArea_cross h1, hasArea_cross (h 0 5e-13 5e-13 _ (by norm_num) (by norm_num) rfl)] at this
    norm_num at this

end Traceon
