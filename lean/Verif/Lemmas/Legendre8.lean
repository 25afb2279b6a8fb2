import Verif.Lemmas.Legendre

/-!
# The expansion of `1/r` up to the eighth order
-/
namespace Traceon

/-- the terms up to degree 7 in `t` of the expansion of `(1 - 2 a + b)^(-1/2)` -/
noncomputable def legSum7 (a b : ℝ) : ℝ := legSum a b + (429 * a ^ 7 - 693 * a ^ 5 * b + 315 * a ^ 3 * b ^ 2 - 35 * a * b ^ 3) / 16

section
variable {c : ℝ} (hc : |c| ≤ 1)
include hc

theorem cheb8 : |128 * c ^ 8 - 256 * c ^ 6 + 160 * c ^ 4 - 32 * c ^ 2 + 1| ≤ 1 :=
  cheb_le hc (U := 128 * c ^ 7 - 192 * c ^ 5 + 80 * c ^ 3 - 8 * c) (by ring)

theorem leg8_le : |(6435 * c ^ 8 - 12012 * c ^ 6 + 6930 * c ^ 4 - 1260 * c ^ 2 + 35) / 128| ≤ 1 := by
  have h2 := abs_le.1 (cheb2 hc); have h4 := abs_le.1 (cheb4 hc); have h6 := abs_le.1 (cheb6 hc); have h8 := abs_le.1 (cheb8 hc)
  rw [abs_le]; constructor <;> nlinarith [h2.1, h2.2, h4.1, h4.2, h6.1, h6.2, h8.1, h8.2]

theorem legendre_bound8 {t : ℝ} (h0 : 0 ≤ t) (h1 : t < 1) :
    |1 / Real.sqrt (1 - 2 * (c * t) + t ^ 2) - legSum7 (c * t) (t ^ 2)| ≤ t ^ 8 * (1 + t) / (1 - t) ^ 2 := by
  have ed : 1 - 2 * (c * t) + t ^ 2 = 1 - 2 * c * t + t ^ 2 := by ring
  rw [ed]
  set w : ℝ → ℝ := fun t => Real.sqrt (1 - 2 * c * t + t ^ 2) with hw
  have wpos : ∀ s, 0 ≤ s → s ≤ t → 0 < w s := fun s hs hst => lt_of_lt_of_le (by linarith) (sqrt_low hc hs (by linarith))
  have wsq : ∀ s, 0 ≤ s → s ≤ t → w s ^ 2 = 1 - 2 * c * s + s ^ 2 := fun s hs hst => by
    rw [hw]; exact Real.sq_sqrt (le_trans (sq_nonneg _) (dist_low hc hs))
  let p6 := (231 * c ^ 6 - 315 * c ^ 4 + 105 * c ^ 2 - 5) / 16
  let p7 := (429 * c ^ 7 - 693 * c ^ 5 + 315 * c ^ 3 - 35 * c) / 16
  let p8 := (6435 * c ^ 8 - 12012 * c ^ 6 + 6930 * c ^ 4 - 1260 * c ^ 2 + 35) / 128
  let S' : ℝ → ℝ := fun s => c + (3 * c ^ 2 - 1) * s + 3 * (5 * c ^ 3 - 3 * c) / 2 * s ^ 2 + (35 * c ^ 4 - 30 * c ^ 2 + 3) / 2 * s ^ 3 +
    5 * (63 * c ^ 5 - 70 * c ^ 3 + 15 * c) / 8 * s ^ 4 + 6 * p6 * s ^ 5 + 7 * p7 * s ^ 6
  have hS : ∀ s, HasDerivAt (fun s => legSum7 (c * s) (s ^ 2)) (S' s) s := by
    intro s
    have e : (fun s => legSum7 (c * s) (s ^ 2)) = fun s => 1 + c * s + (3 * c ^ 2 - 1) / 2 * s ^ 2 + (5 * c ^ 3 - 3 * c) / 2 * s ^ 3 +
        (35 * c ^ 4 - 30 * c ^ 2 + 3) / 8 * s ^ 4 + (63 * c ^ 5 - 70 * c ^ 3 + 15 * c) / 8 * s ^ 5 + p6 * s ^ 6 + p7 * s ^ 7 := by
      funext s; unfold legSum7 legSum; simp only [p6, p7]; ring
    rw [e]
    have := (((((((hasDerivAt_const s (1 : ℝ)).add ((hasDerivAt_id s).const_mul c)).add ((hasDerivAt_pow 2 s).const_mul ((3 * c ^ 2 - 1) / 2))).add
      ((hasDerivAt_pow 3 s).const_mul ((5 * c ^ 3 - 3 * c) / 2))).add ((hasDerivAt_pow 4 s).const_mul ((35 * c ^ 4 - 30 * c ^ 2 + 3) / 8))).add
      ((hasDerivAt_pow 5 s).const_mul ((63 * c ^ 5 - 70 * c ^ 3 + 15 * c) / 8))).add ((hasDerivAt_pow 6 s).const_mul p6)).add ((hasDerivAt_pow 7 s).const_mul p7)
    refine this.congr_deriv ?_
    simp only [S']; push_cast; ring
  have key := grow_bound (h := fun s => legSum7 (c * s) (s ^ 2) * w s) (e := fun s => (-8 * p8 * s ^ 7 + 8 * p7 * s ^ 8) / w s) (T := t)
    (M := (1 + t) / (1 - t)) (n := 7) h0
    (fun s hs hst => by
      have h := (hS s).mul (hasDeriv_sqrt hc hs (by linarith))
      refine h.congr_deriv ?_
      have hp := (wpos s hs hst).ne'
      have h2 := wsq s hs hst
      change S' s * w s + legSum7 (c * s) (s ^ 2) * ((s - c) / w s) = _
      field_simp
      rw [h2]
      unfold legSum7 legSum
      simp only [S', p6, p7, p8]
      ring)
    (by simp [legSum7, legSum, w]) (fun s hs hst => by
      have hl := sqrt_low hc hs (by linarith)
      have hp := wpos s hs hst
      have b7 := leg7_le hc
      have b8 := leg8_le hc
      rw [abs_div, abs_of_pos hp, div_le_iff₀ hp]
      have h7 : 0 ≤ s ^ 7 := by positivity
      have num : |-8 * p8 * s ^ 7 + 8 * p7 * s ^ 8| ≤ 8 * s ^ 7 * (1 + t) := by
        calc _ ≤ |-8 * p8 * s ^ 7| + |8 * p7 * s ^ 8| := abs_add_le _ _
          _ = 8 * |p8| * s ^ 7 + 8 * |p7| * (s ^ 7 * s) := by
              have e1 : |-8 * p8 * s ^ 7| = 8 * |p8| * s ^ 7 := by rw [abs_mul, abs_mul, abs_of_nonneg h7]; norm_num
              have e2 : |8 * p7 * s ^ 8| = 8 * |p7| * s ^ 8 := by rw [abs_mul, abs_mul, abs_of_nonneg (by positivity : 0 ≤ s ^ 8)]; norm_num
              rw [e1, e2]; ring
          _ ≤ 8 * 1 * s ^ 7 + 8 * 1 * (s ^ 7 * t) := by gcongr
          _ = _ := by ring
      refine num.trans ?_
      have : (1 : ℝ) ≤ w s / (1 - t) := by rw [le_div_iff₀ (by linarith)]; change _ ≤ Real.sqrt _; linarith
      calc 8 * s ^ 7 * (1 + t) ≤ 8 * s ^ 7 * (1 + t) * (w s / (1 - t)) := le_mul_of_one_le_right (by positivity) this
        _ = _ := by push_cast; ring)
  have hp := wpos t h0 le_rfl
  have hl := sqrt_low hc h0 h1
  have e : 1 / w t - legSum7 (c * t) (t ^ 2) = -(legSum7 (c * t) (t ^ 2) * w t - 1) / w t := by field_simp; ring
  change |1 / w t - _| ≤ _
  rw [e, abs_div, abs_neg, abs_of_pos hp, div_le_iff₀ hp]
  refine key.trans ?_
  have h1' : 0 < 1 - t := by linarith
  have : (1 : ℝ) ≤ w t / (1 - t) := by rw [le_div_iff₀ h1']; change _ ≤ Real.sqrt _; linarith
  calc (1 + t) / (1 - t) * t ^ (7 + 1) ≤ (1 + t) / (1 - t) * t ^ (7 + 1) * (w t / (1 - t)) := le_mul_of_one_le_right (by positivity) this
    _ = _ := by field_simp

end
end Traceon
