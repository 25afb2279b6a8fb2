import Verif.Props.Triangle2

namespace Traceon
open Spec V3

/-! ## `flux_triangle` close to the line of a side -/

/-- The Kronrod rule has positive weights. -/
theorem k15_pos {f : ℝ → ℝ} {s e : ℝ} (hse : s < e) (hf : ∀ x, s ≤ x → x ≤ e → 0 ≤ f x) (hm : 0 < f ((s + e) / 2)) :
    0 < intervalRule k15Table f s e := by
  set c := (s + e) / 2 with hc
  set h := (e - s) / 2 with hh
  have hh0 : 0 < h := by rw [hh]; linarith
  have bound : ∀ x, 0 ≤ x → x ≤ 1 → 0 ≤ f (c - h * x) + f (c + h * x) := by
    intro x hx0 hx1
    have h1 : 0 ≤ h * x := by positivity
    have h2 : h * x ≤ h := by nlinarith
    apply add_nonneg
    · apply hf <;> · rw [hc, hh] at *; linarith
    · apply hf <;> · rw [hc, hh] at *; linarith
  have b1 := bound 0.207784955007898 (by norm_num) (by norm_num)
  have b2 := bound 0.405845151377397 (by norm_num) (by norm_num)
  have b3 := bound 0.586087235467691 (by norm_num) (by norm_num)
  have b4 := bound 0.741531185599394 (by norm_num) (by norm_num)
  have b5 := bound 0.864864423359769 (by norm_num) (by norm_num)
  have b6 := bound 0.949107912342759 (by norm_num) (by norm_num)
  have b7 := bound 0.991455371120813 (by norm_num) (by norm_num)
  simp only [intervalRule, k15Table, List.foldl, ← hc, ← hh]
  positivity

/-- A small triangle at negative `x`, and the target at the origin. -/
noncomputable def tinyTri : V3 × V3 × V3 := (⟨-2e-5, 0, 0⟩, ⟨-1e-5, 0, 0⟩, ⟨-2e-5, 1e-5, 0⟩)

theorem tinyTri_normalized : normalizeTri tinyTri.1 tinyTri.2.1 tinyTri.2.2 0 ⟨0, 1, 0⟩ =
    ⟨-2e-5, 0, 1e-5, 0, 1e-5, 0, ⟨0, 1, 0⟩⟩ := by
  have n1 : norm (tinyTri.2.1 - tinyTri.1) = 1e-5 :=
    norm_eq_of_sq (by norm_num) (by simp only [dot, tinyTri, sub_x, sub_y, sub_z]; norm_num)
  have n2 : norm (cross (tinyTri.2.1 - tinyTri.1) (tinyTri.2.2 - tinyTri.1)) = 1e-10 :=
    norm_eq_of_sq (by norm_num) (by simp only [dot, cross, tinyTri, sub_x, sub_y, sub_z]; norm_num)
  have ex : (triFrame tinyTri.1 tinyTri.2.1 tinyTri.2.2).ex = ⟨1, 0, 0⟩ := by
    simp only [triFrame, unit, n1]
    ext <;> simp [tinyTri] <;> norm_num
  have ez : (triFrame tinyTri.1 tinyTri.2.1 tinyTri.2.2).ez = ⟨0, 0, 1⟩ := by
    simp only [triFrame, unit, n2]
    ext <;> simp [tinyTri, cross] <;> norm_num
  have ey : (triFrame tinyTri.1 tinyTri.2.1 tinyTri.2.2).ey = ⟨0, 1, 0⟩ := by
    have : (triFrame tinyTri.1 tinyTri.2.1 tinyTri.2.2).ey =
      cross (triFrame tinyTri.1 tinyTri.2.1 tinyTri.2.2).ez (triFrame tinyTri.1 tinyTri.2.1 tinyTri.2.2).ex := rfl
    rw [this, ex, ez]
    ext <;> simp [cross]
  simp only [normalizeTri, ex, ey, ez, n1, NormTri.mk.injEq]
  refine ⟨?_, ?_, trivial, ?_, ?_, ?_, ?_⟩ <;> simp [dot, tinyTri]

theorem tinyTri_integrand {y : ℝ} (h0 : 0 ≤ y) (h1 : y ≤ 1e-5) :
    (normalizeTri tinyTri.1 tinyTri.2.1 tinyTri.2.2 0 ⟨0, 1, 0⟩).fluxIntegrand y =
      ((2e-5) ^ 2 - (1e-5 + y) ^ 2) * y / (2 * (1e-5 + y) ^ 2 * (2e-5) ^ 2) := by
  rw [tinyTri_normalized]
  have hlt : |y * y| < 1e-9 := by
    rw [abs_of_nonneg (by positivity)]
    nlinarith
  simp only [NormTri.fluxIntegrand, NormTri.fluxVector, NormTri.xmin, NormTri.xmax, mul_zero, add_zero, zero_add,
    zero_sub, hlt, if_true, dot, zero_mul, one_mul]
  have hne : (1e-5 + y) ≠ 0 := by positivity
  have e1 : (-2e-5 + 1e-5 + y / 1e-5 * -1e-5 : ℝ) = -(1e-5 + y) := by ring
  rw [e1]
  field_simp

/-- **C55, refuted part.** Close to the line of the first side, on its far end, `flux_triangle` returns a value with the
wrong sign: here the field along `+y` of a positively charged triangle whose points all have `y ≥ 0` (as seen from the
origin) is not positive, yet the function returns a positive value. -/
theorem C55_flux_refuted :
    ∃ v0 v1 v2 p n : V3, ∃ r, cross (v1 - v0) (v2 - v0) ≠ 0 ∧ FluxTriangleReturns v0 v1 v2 p n r ∧
      triFieldAlong v0 v1 v2 p n ≤ 0 ∧ 0 < r := by
  have hret : ∃ r, FluxTriangleReturns tinyTri.1 tinyTri.2.1 tinyTri.2.2 0 ⟨0, 1, 0⟩ r := by
    unfold FluxTriangleReturns
    simp only
    have hc : (normalizeTri tinyTri.1 tinyTri.2.1 tinyTri.2.2 0 ⟨0, 1, 0⟩).c = 1e-5 := by rw [tinyTri_normalized]
    rw [hc]
    have hcont : ContinuousOn (normalizeTri tinyTri.1 tinyTri.2.1 tinyTri.2.2 0 ⟨0, 1, 0⟩).fluxIntegrand (Set.Icc 0 1e-5) := by
      have : ContinuousOn (fun y : ℝ => ((2e-5) ^ 2 - (1e-5 + y) ^ 2) * y / (2 * (1e-5 + y) ^ 2 * (2e-5) ^ 2)) (Set.Icc 0 1e-5) := by
        apply ContinuousOn.div (by fun_prop) (by fun_prop)
        intro y hy
        have := hy.1
        positivity
      exact this.congr fun y hy => tinyTri_integrand hy.1 hy.2
    obtain ⟨M, hM⟩ := isCompact_Icc.exists_bound_of_continuousOn hcont
    exact C56_returns (by norm_num) fun x h0 h1 => by simpa using hM x ⟨h0, h1⟩
  obtain ⟨r, hr⟩ := hret
  refine ⟨tinyTri.1, tinyTri.2.1, tinyTri.2.2, 0, ⟨0, 1, 0⟩, r, ?_, hr, ?_, ?_⟩
  · intro h0
    have := congrArg V3.z h0
    simp only [cross, tinyTri, sub_x, sub_y, sub_z, zero_z] at this
    norm_num at this
  · unfold triFieldAlong triIntegral
    have inner : ∀ v ∈ Set.Icc (0 : ℝ) 1, (∫ u in (0 : ℝ)..(1 - v), norm (cross (tinyTri.2.1 - tinyTri.1) (tinyTri.2.2 - tinyTri.1)) *
        (dot ⟨0, 1, 0⟩ (0 - triPoint tinyTri.1 tinyTri.2.1 tinyTri.2.2 u v) /
          norm (0 - triPoint tinyTri.1 tinyTri.2.1 tinyTri.2.2 u v) ^ 3)) ≤ 0 := by
      intro v hv
      rw [← neg_nonneg, ← intervalIntegral.integral_neg]
      refine intervalIntegral.integral_nonneg (by linarith [hv.2]) fun u _ => ?_
      have e : dot ⟨0, 1, 0⟩ (0 - triPoint tinyTri.1 tinyTri.2.1 tinyTri.2.2 u v) = -(v * 1e-5) := by
        simp only [dot, triPoint, tinyTri, sub_x, sub_y, sub_z, add_x, add_y, add_z, smul_x, smul_y, smul_z, zero_x, zero_y, zero_z]
        ring
      rw [e, neg_div, mul_neg, neg_neg]
      have h1 := hv.1
      have h2 : 0 ≤ norm (0 - triPoint tinyTri.1 tinyTri.2.1 tinyTri.2.2 u v) := Real.sqrt_nonneg _
      have h3 : 0 ≤ norm (cross (tinyTri.2.1 - tinyTri.1) (tinyTri.2.2 - tinyTri.1)) := Real.sqrt_nonneg _
      positivity
    rw [← neg_nonneg, ← intervalIntegral.integral_neg]
    exact intervalIntegral.integral_nonneg zero_le_one fun v hv => neg_nonneg.2 (inner v hv)
  · have hc : (normalizeTri tinyTri.1 tinyTri.2.1 tinyTri.2.2 0 ⟨0, 1, 0⟩).c = 1e-5 := by rw [tinyTri_normalized]
    unfold FluxTriangleReturns at hr
    simp only at hr
    rw [hc] at hr
    obtain ⟨xs, hp, -, rfl⟩ := C56_partition (by norm_num) hr
    obtain ⟨hint, hlen⟩ := partition_intervals hp
    have pos : ∀ i ∈ intervals xs, 0 < intervalRule k15Table
        (normalizeTri tinyTri.1 tinyTri.2.1 tinyTri.2.2 0 ⟨0, 1, 0⟩).fluxIntegrand i.1 i.2 := by
      intro i hi
      obtain ⟨h1, h2, h3⟩ := hint i hi
      apply k15_pos h2
      · intro x hx hx'
        have hx0 : 0 ≤ x := by linarith
        rw [tinyTri_integrand hx0 (by linarith)]
        have : 0 ≤ (2e-5) ^ 2 - (1e-5 + x) ^ 2 := by nlinarith
        positivity
      · have hx0 : 0 < (i.1 + i.2) / 2 := by linarith
        have hx1 : (i.1 + i.2) / 2 < 1e-5 := by linarith
        rw [tinyTri_integrand hx0.le hx1.le]
        have : 0 < (2e-5) ^ 2 - (1e-5 + (i.1 + i.2) / 2) ^ 2 := by nlinarith
        positivity
    have ne : intervals xs ≠ [] := by
      intro h0
      rw [h0] at hlen
      norm_num at hlen
    revert pos ne
    generalize intervals xs = l
    intro pos ne
    cases l with
    | nil => exact absurd rfl ne
    | cons i l =>
      simp only [List.map_cons, List.sum_cons]
      have h1 := pos i (by simp)
      have h2 : 0 ≤ (l.map fun i => intervalRule k15Table
          (normalizeTri tinyTri.1 tinyTri.2.1 tinyTri.2.2 0 ⟨0, 1, 0⟩).fluxIntegrand i.1 i.2).sum := by
        apply List.sum_nonneg
        intro x hx
        obtain ⟨j, hj, rfl⟩ := List.mem_map.1 hx
        exact (pos j (List.mem_cons_of_mem _ hj)).le
      linarith

/-- The hypotheses of the exact statements are met, for example, by a target above a triangle. -/
example : ∃ v0 v1 v2 p : V3, cross (v1 - v0) (v2 - v0) ≠ 0 ∧ AwayFromLines v0 v1 v2 p 1 := by
  refine ⟨⟨0, 0, 0⟩, ⟨1, 0, 0⟩, ⟨0, 1, 0⟩, ⟨0, 0, 1⟩, ?_, ?_⟩
  · intro h0
    have := congrArg V3.z h0
    simp [cross] at this
  · intro v _ _ t
    unfold V3.norm
    rw [Real.one_le_sqrt]
    simp only [dot, triPoint, sub_x, sub_y, sub_z, add_x, add_y, add_z, smul_x, smul_y, smul_z]
    nlinarith [mul_self_nonneg t, mul_self_nonneg v]

end Traceon
