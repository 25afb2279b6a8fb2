import Mathlib.Analysis.Calculus.MeanValue
import Mathlib.Analysis.Calculus.Deriv.Pow
import Mathlib.Analysis.SpecialFunctions.Sqrt
import Mathlib.Tactic.NormNum
import Mathlib.Tactic.LinearCombination

/-!
# The expansion of `1/r` and `1/r³` far away

`1 - 2 c t + t²` is the square of the distance between two points at distance 1 and `t` of the origin, where `c` is the cosine of the angle. With `a = c t` and
`b = t²` the terms of the expansion are polynomials in `a` and `b`.
-/
namespace Traceon

/-- the terms up to degree 6 in `t` of the expansion of `(1 - 2 a + b)^(-1/2)` -/
noncomputable def legSum (a b : ℝ) : ℝ :=
  1 + a + (3 * a ^ 2 - b) / 2 + (5 * a ^ 3 - 3 * a * b) / 2 + (35 * a ^ 4 - 30 * a ^ 2 * b + 3 * b ^ 2) / 8 +
    (63 * a ^ 5 - 70 * a ^ 3 * b + 15 * a * b ^ 2) / 8 + (231 * a ^ 6 - 315 * a ^ 4 * b + 105 * a ^ 2 * b ^ 2 - 5 * b ^ 3) / 16

/-- the terms up to degree 5 in `t` of the expansion of `(1 - 2 a + b)^(-3/2)` -/
noncomputable def gegSum5 (a b : ℝ) : ℝ :=
  1 + 3 * a + (15 * a ^ 2 - 3 * b) / 2 + (35 * a ^ 3 - 15 * a * b) / 2 + (315 * a ^ 4 - 210 * a ^ 2 * b + 15 * b ^ 2) / 8 +
    (693 * a ^ 5 - 630 * a ^ 3 * b + 105 * a * b ^ 2) / 8

/-- the terms up to degree 6 in `t` of the expansion of `(1 - 2 a + b)^(-3/2)` -/
noncomputable def gegSum6 (a b : ℝ) : ℝ :=
  gegSum5 a b + (3003 * a ^ 6 - 3465 * a ^ 4 * b + 945 * a ^ 2 * b ^ 2 - 35 * b ^ 3) / 16

section
variable {c : ℝ} (hc : |c| ≤ 1)
include hc

theorem cheb_le {T U : ℝ} (h : T ^ 2 + (1 - c ^ 2) * U ^ 2 = 1) : |T| ≤ 1 := by
  have h1 : c ^ 2 ≤ 1 := by rw [sq_le_one_iff_abs_le_one]; exact hc
  rw [← sq_le_one_iff_abs_le_one]
  nlinarith [mul_nonneg (sub_nonneg.2 h1) (sq_nonneg U)]

theorem cheb2 : |2 * c ^ 2 - 1| ≤ 1 := cheb_le hc (U := 2 * c) (by ring)
theorem cheb3 : |4 * c ^ 3 - 3 * c| ≤ 1 := cheb_le hc (U := 4 * c ^ 2 - 1) (by ring)
theorem cheb4 : |8 * c ^ 4 - 8 * c ^ 2 + 1| ≤ 1 := cheb_le hc (U := 8 * c ^ 3 - 4 * c) (by ring)
theorem cheb5 : |16 * c ^ 5 - 20 * c ^ 3 + 5 * c| ≤ 1 := cheb_le hc (U := 16 * c ^ 4 - 12 * c ^ 2 + 1) (by ring)
theorem cheb6 : |32 * c ^ 6 - 48 * c ^ 4 + 18 * c ^ 2 - 1| ≤ 1 := cheb_le hc (U := 32 * c ^ 5 - 32 * c ^ 3 + 6 * c) (by ring)
theorem cheb7 : |64 * c ^ 7 - 112 * c ^ 5 + 56 * c ^ 3 - 7 * c| ≤ 1 :=
  cheb_le hc (U := 64 * c ^ 6 - 80 * c ^ 4 + 24 * c ^ 2 - 1) (by ring)

theorem leg6_le : |(231 * c ^ 6 - 315 * c ^ 4 + 105 * c ^ 2 - 5) / 16| ≤ 1 := by
  have h2 := abs_le.1 (cheb2 hc); have h4 := abs_le.1 (cheb4 hc); have h6 := abs_le.1 (cheb6 hc)
  rw [abs_le]; constructor <;> nlinarith [h2.1, h2.2, h4.1, h4.2, h6.1, h6.2]

theorem leg7_le : |(429 * c ^ 7 - 693 * c ^ 5 + 315 * c ^ 3 - 35 * c) / 16| ≤ 1 := by
  have h1 := abs_le.1 hc; have h3 := abs_le.1 (cheb3 hc); have h5 := abs_le.1 (cheb5 hc); have h7 := abs_le.1 (cheb7 hc)
  rw [abs_le]; constructor <;> nlinarith [h1.1, h1.2, h3.1, h3.2, h5.1, h5.2, h7.1, h7.2]

theorem geg5_le : |(693 * c ^ 5 - 630 * c ^ 3 + 105 * c) / 8| ≤ 21 := by
  have h1 := abs_le.1 hc; have h3 := abs_le.1 (cheb3 hc); have h5 := abs_le.1 (cheb5 hc)
  rw [abs_le]; constructor <;> nlinarith [h1.1, h1.2, h3.1, h3.2, h5.1, h5.2]

theorem geg6_le : |(3003 * c ^ 6 - 3465 * c ^ 4 + 945 * c ^ 2 - 35) / 16| ≤ 28 := by
  have h2 := abs_le.1 (cheb2 hc); have h4 := abs_le.1 (cheb4 hc); have h6 := abs_le.1 (cheb6 hc)
  rw [abs_le]; constructor <;> nlinarith [h2.1, h2.2, h4.1, h4.2, h6.1, h6.2]

theorem geg7_le : |(6435 * c ^ 7 - 9009 * c ^ 5 + 3465 * c ^ 3 - 315 * c) / 16| ≤ 36 := by
  have h1 := abs_le.1 hc; have h3 := abs_le.1 (cheb3 hc); have h5 := abs_le.1 (cheb5 hc); have h7 := abs_le.1 (cheb7 hc)
  rw [abs_le]; constructor <;> nlinarith [h1.1, h1.2, h3.1, h3.2, h5.1, h5.2, h7.1, h7.2]

theorem dist_low {t : ℝ} (h0 : 0 ≤ t) : (1 - t) ^ 2 ≤ 1 - 2 * c * t + t ^ 2 := by nlinarith [(abs_le.1 hc).2]

theorem dist_high {t : ℝ} (h0 : 0 ≤ t) : 1 - 2 * c * t + t ^ 2 ≤ (1 + t) ^ 2 := by nlinarith [(abs_le.1 hc).1]

theorem sqrt_low {t : ℝ} (h0 : 0 ≤ t) (h1 : t < 1) : 1 - t ≤ Real.sqrt (1 - 2 * c * t + t ^ 2) :=
  Real.le_sqrt_of_sq_le (dist_low hc h0)

theorem sqrt_high {t : ℝ} (h0 : 0 ≤ t) : Real.sqrt (1 - 2 * c * t + t ^ 2) ≤ 1 + t := by
  rw [Real.sqrt_le_left (by linarith)]; exact dist_high hc h0

omit hc in
/-- If `h' = e` with `|e| ≤ M n t^(n-1)` and `h 0 = 1`, then `h` is within `M t^n` of 1. -/
theorem grow_bound {h e : ℝ → ℝ} {T M : ℝ} {n : ℕ} (hT0 : 0 ≤ T) (hd : ∀ t, 0 ≤ t → t ≤ T → HasDerivAt h (e t) t) (h0 : h 0 = 1)
    (hb : ∀ t, 0 ≤ t → t ≤ T → |e t| ≤ M * ((n + 1 : ℕ) * t ^ n)) : |h T - 1| ≤ M * T ^ (n + 1) := by
  have := image_norm_le_of_norm_deriv_right_le_deriv_boundary (f := fun t => h t - 1) (f' := e) (a := 0) (b := T)
    (B := fun t => M * t ^ (n + 1)) (B' := fun t => M * ((n + 1 : ℕ) * t ^ n))
    (fun t ht => ((hd t ht.1 ht.2).sub_const 1).continuousAt.continuousWithinAt)
    (fun t ht => ((hd t ht.1 ht.2.le).sub_const 1).hasDerivWithinAt) (by simp [h0])
    (fun t => by simpa using (hasDerivAt_pow (n + 1) t).const_mul M)
    (fun t ht => by rw [Real.norm_eq_abs]; exact hb t ht.1 ht.2.le) (Set.right_mem_Icc.2 hT0)
  simpa [Real.norm_eq_abs] using this

theorem hasDeriv_sqrt {t : ℝ} (h0 : 0 ≤ t) (h1 : t < 1) :
    HasDerivAt (fun t => Real.sqrt (1 - 2 * c * t + t ^ 2)) ((t - c) / Real.sqrt (1 - 2 * c * t + t ^ 2)) t := by
  have hpos : 0 < 1 - 2 * c * t + t ^ 2 := lt_of_lt_of_le (by nlinarith) (dist_low hc h0)
  have hd : HasDerivAt (fun t => 1 - 2 * c * t + t ^ 2) (-(2 * c) + 2 * t) t := by
    have := ((hasDerivAt_id t).const_mul (2 * c)).const_sub 1 |>.add (hasDerivAt_pow 2 t)
    refine this.congr_deriv ?_
    simp
  refine (hd.sqrt hpos.ne').congr_deriv ?_
  have : Real.sqrt (1 - 2 * c * t + t ^ 2) ≠ 0 := (Real.sqrt_pos.2 hpos).ne'
  field_simp
  ring

theorem legendre_bound {t : ℝ} (h0 : 0 ≤ t) (h1 : t < 1) :
    |1 / Real.sqrt (1 - 2 * (c * t) + t ^ 2) - legSum (c * t) (t ^ 2)| ≤ t ^ 7 * (1 + t) / (1 - t) ^ 2 := by
  have ed : 1 - 2 * (c * t) + t ^ 2 = 1 - 2 * c * t + t ^ 2 := by ring
  rw [ed]
  set w : ℝ → ℝ := fun t => Real.sqrt (1 - 2 * c * t + t ^ 2) with hw
  have wpos : ∀ s, 0 ≤ s → s ≤ t → 0 < w s := fun s hs hst => lt_of_lt_of_le (by linarith) (sqrt_low hc hs (by linarith))
  have wsq : ∀ s, 0 ≤ s → s ≤ t → w s ^ 2 = 1 - 2 * c * s + s ^ 2 := fun s hs hst => by
    rw [hw]; exact Real.sq_sqrt (le_trans (sq_nonneg _) (dist_low hc hs))
  let p6 := (231 * c ^ 6 - 315 * c ^ 4 + 105 * c ^ 2 - 5) / 16
  let p7 := (429 * c ^ 7 - 693 * c ^ 5 + 315 * c ^ 3 - 35 * c) / 16
  let S' : ℝ → ℝ := fun s => c + (3 * c ^ 2 - 1) * s + 3 * (5 * c ^ 3 - 3 * c) / 2 * s ^ 2 + (35 * c ^ 4 - 30 * c ^ 2 + 3) / 2 * s ^ 3 +
    5 * (63 * c ^ 5 - 70 * c ^ 3 + 15 * c) / 8 * s ^ 4 + 6 * p6 * s ^ 5
  have hS : ∀ s, HasDerivAt (fun s => legSum (c * s) (s ^ 2)) (S' s) s := by
    intro s
    have e : (fun s => legSum (c * s) (s ^ 2)) = fun s => 1 + c * s + (3 * c ^ 2 - 1) / 2 * s ^ 2 + (5 * c ^ 3 - 3 * c) / 2 * s ^ 3 +
        (35 * c ^ 4 - 30 * c ^ 2 + 3) / 8 * s ^ 4 + (63 * c ^ 5 - 70 * c ^ 3 + 15 * c) / 8 * s ^ 5 + p6 * s ^ 6 := by
      funext s; unfold legSum; simp only [p6]; ring
    rw [e]
    have := ((((((hasDerivAt_const s (1 : ℝ)).add ((hasDerivAt_id s).const_mul c)).add ((hasDerivAt_pow 2 s).const_mul ((3 * c ^ 2 - 1) / 2))).add
      ((hasDerivAt_pow 3 s).const_mul ((5 * c ^ 3 - 3 * c) / 2))).add ((hasDerivAt_pow 4 s).const_mul ((35 * c ^ 4 - 30 * c ^ 2 + 3) / 8))).add
      ((hasDerivAt_pow 5 s).const_mul ((63 * c ^ 5 - 70 * c ^ 3 + 15 * c) / 8))).add ((hasDerivAt_pow 6 s).const_mul p6)
    refine this.congr_deriv ?_
    simp only [S']; push_cast; ring
  have key := grow_bound (h := fun s => legSum (c * s) (s ^ 2) * w s) (e := fun s => (-7 * p7 * s ^ 6 + 7 * p6 * s ^ 7) / w s) (T := t)
    (M := (1 + t) / (1 - t)) (n := 6) h0
    (fun s hs hst => by
      have h := (hS s).mul (hasDeriv_sqrt hc hs (by linarith))
      refine h.congr_deriv ?_
      have hp := (wpos s hs hst).ne'
      have h2 := wsq s hs hst
      change S' s * w s + legSum (c * s) (s ^ 2) * ((s - c) / w s) = _
      field_simp
      rw [h2]
      unfold legSum
      simp only [S', p6, p7]
      ring)
    (by simp [legSum, w]) (fun s hs hst => by
      have hl := sqrt_low hc hs (by linarith)
      have hp := wpos s hs hst
      have b6 := leg6_le hc
      have b7 := leg7_le hc
      rw [abs_div, abs_of_pos hp, div_le_iff₀ hp]
      have h6 : 0 ≤ s ^ 6 := by positivity
      have num : |-7 * p7 * s ^ 6 + 7 * p6 * s ^ 7| ≤ 7 * s ^ 6 * (1 + t) := by
        calc _ ≤ |-7 * p7 * s ^ 6| + |7 * p6 * s ^ 7| := abs_add_le _ _
          _ = 7 * |p7| * s ^ 6 + 7 * |p6| * (s ^ 6 * s) := by
              have e1 : |-7 * p7 * s ^ 6| = 7 * |p7| * s ^ 6 := by rw [abs_mul, abs_mul, abs_of_nonneg h6]; norm_num
              have e2 : |7 * p6 * s ^ 7| = 7 * |p6| * s ^ 7 := by rw [abs_mul, abs_mul, abs_of_nonneg (by positivity : 0 ≤ s ^ 7)]; norm_num
              rw [e1, e2]; ring
          _ ≤ 7 * 1 * s ^ 6 + 7 * 1 * (s ^ 6 * t) := by gcongr
          _ = _ := by ring
      refine num.trans ?_
      have : (1 : ℝ) ≤ w s / (1 - t) := by rw [le_div_iff₀ (by linarith)]; change _ ≤ Real.sqrt _; linarith
      calc 7 * s ^ 6 * (1 + t) ≤ 7 * s ^ 6 * (1 + t) * (w s / (1 - t)) := le_mul_of_one_le_right (by positivity) this
        _ = _ := by push_cast; ring)
  have hp := wpos t h0 le_rfl
  have hl := sqrt_low hc h0 h1
  have e : 1 / w t - legSum (c * t) (t ^ 2) = -(legSum (c * t) (t ^ 2) * w t - 1) / w t := by field_simp; ring
  change |1 / w t - _| ≤ _
  rw [e, abs_div, abs_neg, abs_of_pos hp, div_le_iff₀ hp]
  refine key.trans ?_
  have h1' : 0 < 1 - t := by linarith
  have : (1 : ℝ) ≤ w t / (1 - t) := by rw [le_div_iff₀ h1']; change _ ≤ Real.sqrt _; linarith
  calc (1 + t) / (1 - t) * t ^ (6 + 1) ≤ (1 + t) / (1 - t) * t ^ (6 + 1) * (w t / (1 - t)) := le_mul_of_one_le_right (by positivity) this
    _ = _ := by field_simp

/-- the common part of the next two bounds -/
theorem geg_bound {t : ℝ} (h0 : 0 ≤ t) (h1 : t < 1) {S S' : ℝ → ℝ} {x y M : ℝ} {n : ℕ} (hS : ∀ s, HasDerivAt S (S' s) s) (hS0 : S 0 = 1)
    (hode : ∀ s, S' s * (1 - 2 * c * s + s ^ 2) + 3 * S s * (s - c) = x * s ^ n + y * s ^ (n + 1))
    (hx : |x| ≤ M * (n + 1 : ℕ)) (hy : |y| ≤ M * (n + 1 : ℕ)) :
    |1 / Real.sqrt (1 - 2 * c * t + t ^ 2) ^ 3 - S t| ≤ M * t ^ (n + 1) * (1 + t) ^ 2 / (1 - t) ^ 3 := by
  set w : ℝ → ℝ := fun t => Real.sqrt (1 - 2 * c * t + t ^ 2) with hw
  have wpos : ∀ s, 0 ≤ s → s ≤ t → 0 < w s := fun s hs hst => lt_of_lt_of_le (by linarith) (sqrt_low hc hs (by linarith))
  have wsq : ∀ s, 0 ≤ s → s ≤ t → w s ^ 2 = 1 - 2 * c * s + s ^ 2 := fun s hs hst => by
    rw [hw]; exact Real.sq_sqrt (le_trans (sq_nonneg _) (dist_low hc hs))
  have hM : 0 ≤ M := by
    have h := (abs_nonneg x).trans hx
    have : (0 : ℝ) < (n + 1 : ℕ) := by positivity
    nlinarith
  have key := grow_bound (h := fun s => S s * w s ^ 3) (e := fun s => w s * (x * s ^ n + y * s ^ (n + 1))) (T := t)
    (M := M * (1 + t) ^ 2) (n := n) h0
    (fun s hs hst => by
      have h := (hS s).mul ((hasDeriv_sqrt hc hs (by linarith)).pow 3)
      refine h.congr_deriv ?_
      have hp := (wpos s hs hst).ne'
      have h2 := wsq s hs hst
      change S' s * w s ^ 3 + S s * ((3 : ℕ) * w s ^ (3 - 1) * ((s - c) / w s)) = _
      rw [← hode s, ← h2]
      field_simp
      push_cast
      ring)
    (by simp [hS0, w]) (fun s hs hst => by
      have hu := sqrt_high hc hs
      have hp := wpos s hs hst
      have hsn : 0 ≤ s ^ n := by positivity
      rw [abs_mul, abs_of_pos hp]
      have num : |x * s ^ n + y * s ^ (n + 1)| ≤ M * (n + 1 : ℕ) * s ^ n * (1 + t) := by
        calc _ ≤ |x * s ^ n| + |y * s ^ (n + 1)| := abs_add_le _ _
          _ = |x| * s ^ n + |y| * (s ^ n * s) := by
              rw [abs_mul, abs_mul, abs_of_nonneg hsn, abs_of_nonneg (by positivity : 0 ≤ s ^ (n + 1)), pow_succ]
          _ ≤ M * (n + 1 : ℕ) * s ^ n + M * (n + 1 : ℕ) * (s ^ n * t) := by gcongr
          _ = _ := by ring
      calc w s * |x * s ^ n + y * s ^ (n + 1)| ≤ (1 + t) * (M * (n + 1 : ℕ) * s ^ n * (1 + t)) := by
            refine mul_le_mul (hu.trans (by linarith)) num (abs_nonneg _) (by linarith)
        _ = _ := by ring)
  have hp := wpos t h0 le_rfl
  have hl := sqrt_low hc h0 h1
  have e : 1 / w t ^ 3 - S t = -(S t * w t ^ 3 - 1) / w t ^ 3 := by field_simp; ring
  change |1 / w t ^ 3 - _| ≤ _
  have hp3 : 0 < w t ^ 3 := by positivity
  rw [e, abs_div, abs_neg, abs_of_pos hp3, div_le_iff₀ hp3]
  refine key.trans ?_
  have h1' : 0 < 1 - t := by linarith
  have : (1 : ℝ) ≤ w t ^ 3 / (1 - t) ^ 3 := by
    rw [le_div_iff₀ (by positivity), one_mul]
    exact pow_le_pow_left₀ h1'.le hl 3
  calc M * (1 + t) ^ 2 * t ^ (n + 1) ≤ M * (1 + t) ^ 2 * t ^ (n + 1) * (w t ^ 3 / (1 - t) ^ 3) := le_mul_of_one_le_right (by positivity) this
    _ = _ := by field_simp

theorem gegenbauer5_bound {t : ℝ} (h0 : 0 ≤ t) (h1 : t < 1) :
    |1 / Real.sqrt (1 - 2 * (c * t) + t ^ 2) ^ 3 - gegSum5 (c * t) (t ^ 2)| ≤ 28 * t ^ 6 * (1 + t) ^ 2 / (1 - t) ^ 3 := by
  have ed : 1 - 2 * (c * t) + t ^ 2 = 1 - 2 * c * t + t ^ 2 := by ring
  rw [ed]
  have b5 := geg5_le hc
  have b6 := geg6_le hc
  refine geg_bound hc h0 h1 (S := fun s => gegSum5 (c * s) (s ^ 2))
    (S' := fun s => 3 * c + (15 * c ^ 2 - 3) * s + 3 * (35 * c ^ 3 - 15 * c) / 2 * s ^ 2 + (315 * c ^ 4 - 210 * c ^ 2 + 15) / 2 * s ^ 3 +
      5 * (693 * c ^ 5 - 630 * c ^ 3 + 105 * c) / 8 * s ^ 4)
    (x := -6 * ((3003 * c ^ 6 - 3465 * c ^ 4 + 945 * c ^ 2 - 35) / 16)) (y := 8 * ((693 * c ^ 5 - 630 * c ^ 3 + 105 * c) / 8)) (n := 5) ?_ (by simp [gegSum5]) ?_ ?_ ?_
  · intro s
    have e : (fun s => gegSum5 (c * s) (s ^ 2)) = fun s => 1 + (3 * c) * s + (15 * c ^ 2 - 3) / 2 * s ^ 2 + (35 * c ^ 3 - 15 * c) / 2 * s ^ 3 +
        (315 * c ^ 4 - 210 * c ^ 2 + 15) / 8 * s ^ 4 + (693 * c ^ 5 - 630 * c ^ 3 + 105 * c) / 8 * s ^ 5 := by
      funext s; unfold gegSum5; ring
    rw [e]
    have := (((((hasDerivAt_const s (1 : ℝ)).add ((hasDerivAt_id s).const_mul (3 * c))).add ((hasDerivAt_pow 2 s).const_mul ((15 * c ^ 2 - 3) / 2))).add
      ((hasDerivAt_pow 3 s).const_mul ((35 * c ^ 3 - 15 * c) / 2))).add ((hasDerivAt_pow 4 s).const_mul ((315 * c ^ 4 - 210 * c ^ 2 + 15) / 8))).add
      ((hasDerivAt_pow 5 s).const_mul ((693 * c ^ 5 - 630 * c ^ 3 + 105 * c) / 8))
    refine this.congr_deriv ?_
    push_cast; ring
  · intro s; unfold gegSum5; ring
  · rw [abs_mul]; norm_num; linarith
  · rw [abs_mul]; norm_num; linarith

theorem gegenbauer6_bound {t : ℝ} (h0 : 0 ≤ t) (h1 : t < 1) :
    |1 / Real.sqrt (1 - 2 * (c * t) + t ^ 2) ^ 3 - gegSum6 (c * t) (t ^ 2)| ≤ 36 * t ^ 7 * (1 + t) ^ 2 / (1 - t) ^ 3 := by
  have ed : 1 - 2 * (c * t) + t ^ 2 = 1 - 2 * c * t + t ^ 2 := by ring
  rw [ed]
  have b6 := geg6_le hc
  have b7 := geg7_le hc
  refine geg_bound hc h0 h1 (S := fun s => gegSum6 (c * s) (s ^ 2))
    (S' := fun s => 3 * c + (15 * c ^ 2 - 3) * s + 3 * (35 * c ^ 3 - 15 * c) / 2 * s ^ 2 + (315 * c ^ 4 - 210 * c ^ 2 + 15) / 2 * s ^ 3 +
      5 * (693 * c ^ 5 - 630 * c ^ 3 + 105 * c) / 8 * s ^ 4 + 6 * ((3003 * c ^ 6 - 3465 * c ^ 4 + 945 * c ^ 2 - 35) / 16) * s ^ 5)
    (x := -7 * ((6435 * c ^ 7 - 9009 * c ^ 5 + 3465 * c ^ 3 - 315 * c) / 16)) (y := 9 * ((3003 * c ^ 6 - 3465 * c ^ 4 + 945 * c ^ 2 - 35) / 16)) (n := 6) ?_ (by simp [gegSum6, gegSum5]) ?_ ?_ ?_
  · intro s
    have e : (fun s => gegSum6 (c * s) (s ^ 2)) = fun s => 1 + (3 * c) * s + (15 * c ^ 2 - 3) / 2 * s ^ 2 + (35 * c ^ 3 - 15 * c) / 2 * s ^ 3 +
        (315 * c ^ 4 - 210 * c ^ 2 + 15) / 8 * s ^ 4 + (693 * c ^ 5 - 630 * c ^ 3 + 105 * c) / 8 * s ^ 5 +
        (3003 * c ^ 6 - 3465 * c ^ 4 + 945 * c ^ 2 - 35) / 16 * s ^ 6 := by
      funext s; unfold gegSum6 gegSum5; ring
    rw [e]
    have := ((((((hasDerivAt_const s (1 : ℝ)).add ((hasDerivAt_id s).const_mul (3 * c))).add ((hasDerivAt_pow 2 s).const_mul ((15 * c ^ 2 - 3) / 2))).add
      ((hasDerivAt_pow 3 s).const_mul ((35 * c ^ 3 - 15 * c) / 2))).add ((hasDerivAt_pow 4 s).const_mul ((315 * c ^ 4 - 210 * c ^ 2 + 15) / 8))).add
      ((hasDerivAt_pow 5 s).const_mul ((693 * c ^ 5 - 630 * c ^ 3 + 105 * c) / 8))).add
      ((hasDerivAt_pow 6 s).const_mul ((3003 * c ^ 6 - 3465 * c ^ 4 + 945 * c ^ 2 - 35) / 16))
    refine this.congr_deriv ?_
    push_cast; ring
  · intro s; unfold gegSum6 gegSum5; ring
  · rw [abs_mul]; norm_num; linarith
  · rw [abs_mul]; norm_num; linarith

end
end Traceon
