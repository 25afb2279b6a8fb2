import Verif.Lemmas.Legendre
import Mathlib.Analysis.SpecialFunctions.Trigonometric.Inverse
import Mathlib.Algebra.BigOperators.Intervals

/-!
# The expansion of `1/r` to any order
-/
namespace Traceon
open Finset

/-- Legendre's polynomials, by their recurrence -/
noncomputable def leg : ℕ → ℝ → ℝ
  | 0, _ => 1
  | 1, c => c
  | n + 2, c => ((2 * n + 3) * c * leg (n + 1) c - (n + 1) * leg n c) / (n + 2)

theorem leg_rec (n : ℕ) (c : ℝ) : (n + 2) * leg (n + 2) c = (2 * n + 3) * c * leg (n + 1) c - (n + 1) * leg n c := by
  have h : (n + 2 : ℝ) ≠ 0 := by positivity
  rw [leg]; field_simp

theorem leg_neg (c : ℝ) : ∀ n, leg n (-c) = (-1) ^ n * leg n c
  | 0 => by simp [leg]
  | 1 => by simp [leg]
  | n + 2 => by
    rw [leg, leg, leg_neg c (n + 1), leg_neg c n]; ring

theorem leg_one : ∀ n, leg n 1 = 1
  | 0 => by simp [leg]
  | 1 => by simp [leg]
  | n + 2 => by
    rw [leg, leg_one (n + 1), leg_one n]
    have h : (n + 2 : ℝ) ≠ 0 := by positivity
    field_simp; ring

theorem leg_continuous : ∀ n, Continuous (leg n)
  | 0 => by
    have : leg 0 = fun _ => 1 := by funext c; rw [leg]
    rw [this]; fun_prop
  | 1 => by
    have : leg 1 = fun c => c := by funext c; rw [leg]
    rw [this]; fun_prop
  | n + 2 => by
    have h1 := leg_continuous (n + 1)
    have h2 := leg_continuous n
    have : leg (n + 2) = fun c => ((2 * n + 3) * c * leg (n + 1) c - (n + 1) * leg n c) / (n + 2) := by funext c; rw [leg]
    rw [this]
    fun_prop

/-- The coefficients of `(1 - x)^(-1/2)`. -/
noncomputable def halfCoeff : ℕ → ℝ
  | 0 => 1
  | k + 1 => halfCoeff k * ((2 * k + 1) / (2 * k + 2))

theorem halfCoeff_nonneg : ∀ k, 0 ≤ halfCoeff k
  | 0 => by simp [halfCoeff]
  | k + 1 => by rw [halfCoeff]; have := halfCoeff_nonneg k; positivity

/-- The sum of cosines. -/
noncomputable def cosSum (n : ℕ) (θ : ℝ) : ℝ := ∑ k ∈ range (n + 1), halfCoeff k * halfCoeff (n - k) * Real.cos (((n : ℝ) - 2 * k) * θ)

theorem cosSum_rec (n : ℕ) (θ : ℝ) : (n + 2) * cosSum (n + 2) θ = (2 * n + 3) * Real.cos θ * cosSum (n + 1) θ - (n + 1) * cosSum n θ := by
  -- the product with the cosine, as two sums over `range (n + 3)`
  have hprod : Real.cos θ * cosSum (n + 1) θ =
      ∑ k ∈ range (n + 2), halfCoeff k * halfCoeff (n + 1 - k) / 2 * Real.cos (((n + 2 : ℕ) - 2 * (k : ℝ)) * θ) +
      ∑ k ∈ range (n + 2), halfCoeff k * halfCoeff (n + 1 - k) / 2 * Real.cos (((n + 2 : ℕ) - 2 * ((k + 1 : ℕ) : ℝ)) * θ) := by
    unfold cosSum
    rw [mul_sum, ← sum_add_distrib]
    refine sum_congr rfl fun k _ => ?_
    have h1 : (((n + 2 : ℕ) : ℝ) - 2 * (k : ℝ)) * θ = (((n + 1 : ℕ) : ℝ) - 2 * k) * θ + θ := by push_cast; ring
    have h2 : (((n + 2 : ℕ) : ℝ) - 2 * ((k + 1 : ℕ) : ℝ)) * θ = (((n + 1 : ℕ) : ℝ) - 2 * k) * θ - θ := by push_cast; ring
    rw [h1, h2, Real.cos_add, Real.cos_sub]; ring
  have hold : cosSum n θ = ∑ k ∈ range (n + 1), halfCoeff k * halfCoeff (n - k) * Real.cos (((n + 2 : ℕ) - 2 * ((k + 1 : ℕ) : ℝ)) * θ) := by
    unfold cosSum
    refine sum_congr rfl fun k _ => ?_
    congr 2; push_cast; ring
  rw [mul_assoc, hprod, hold]
  unfold cosSum
  rw [sum_range_succ' _ (n + 2), sum_range_succ (fun k => halfCoeff k * halfCoeff (n + 1 - k) / 2 * Real.cos (((n + 2 : ℕ) - 2 * ((k + 1 : ℕ) : ℝ)) * θ)) (n + 1),
    sum_range_succ' (fun k => halfCoeff k * halfCoeff (n + 1 - k) / 2 * Real.cos (((n + 2 : ℕ) - 2 * (k : ℝ)) * θ)) (n + 1),
    sum_range_succ _ (n + 1)]
  have hmid : (n + 2 : ℝ) * ∑ k ∈ range (n + 1), halfCoeff (k + 1) * halfCoeff (n + 2 - (k + 1)) * Real.cos (((n + 2 : ℕ) - 2 * ((k + 1 : ℕ) : ℝ)) * θ) =
      (2 * n + 3) * (∑ k ∈ range (n + 1), halfCoeff (k + 1) * halfCoeff (n + 1 - (k + 1)) / 2 * Real.cos (((n + 2 : ℕ) - 2 * ((k + 1 : ℕ) : ℝ)) * θ) +
        ∑ k ∈ range (n + 1), halfCoeff k * halfCoeff (n + 1 - k) / 2 * Real.cos (((n + 2 : ℕ) - 2 * ((k + 1 : ℕ) : ℝ)) * θ)) -
      (n + 1) * ∑ k ∈ range (n + 1), halfCoeff k * halfCoeff (n - k) * Real.cos (((n + 2 : ℕ) - 2 * ((k + 1 : ℕ) : ℝ)) * θ) := by
    rw [← sum_add_distrib, mul_sum, mul_sum, mul_sum, ← sum_sub_distrib]
    refine sum_congr rfl fun k hk => ?_
    obtain ⟨j, hj⟩ : ∃ j, n = k + j := ⟨n - k, by have := mem_range.1 hk; omega⟩
    subst hj
    rw [show k + j + 2 - (k + 1) = j + 1 by omega, show k + j + 1 - (k + 1) = j by omega, show k + j + 1 - k = j + 1 by omega, show k + j - k = j by omega]
    rw [halfCoeff, halfCoeff]
    generalize Real.cos _ = C
    generalize halfCoeff k = a
    generalize halfCoeff j = b
    push_cast
    field_simp
    ring
  push_cast at hmid ⊢
  have h0 : halfCoeff 0 = 1 := rfl
  have hlast : halfCoeff (n + 2) = halfCoeff (n + 1) * ((2 * n + 3) / (2 * n + 4)) := by
    have : halfCoeff (n + 2) = halfCoeff (n + 1) * ((2 * ((n + 1 : ℕ) : ℝ) + 1) / (2 * ((n + 1 : ℕ) : ℝ) + 2)) := rfl
    rw [this]; push_cast
    congr 2 <;> ring
  simp only [Nat.sub_self, Nat.sub_zero, h0, mul_one, one_mul, mul_zero, sub_zero] at *
  have e1 : (n + 2 : ℝ) * (halfCoeff (n + 1) * ((2 * n + 3) / (2 * n + 4))) = (2 * n + 3) * halfCoeff (n + 1) / 2 := by field_simp; ring
  rw [hlast]
  have e2 : ((n : ℝ) + 2 - 2 * (n + 1 + 1)) * θ = (n + 2 - 2 * (n + 1 + 1)) * θ := rfl
  generalize Real.cos (((n : ℝ) + 2) * θ) = C0 at *
  generalize Real.cos (((n : ℝ) + 2 - 2 * (n + 1 + 1)) * θ) = C1 at *
  linear_combination hmid + (C0 + C1) * e1

theorem leg_cos (θ : ℝ) : ∀ n, leg n (Real.cos θ) = cosSum n θ
  | 0 => by simp [leg, cosSum, halfCoeff]
  | 1 => by
    unfold cosSum
    have h0 : halfCoeff 0 = 1 := rfl
    have h1 : halfCoeff 1 = 1 / 2 := by
      have : halfCoeff 1 = halfCoeff 0 * ((2 * ((0 : ℕ) : ℝ) + 1) / (2 * ((0 : ℕ) : ℝ) + 2)) := rfl
      rw [this, h0]; norm_num
    rw [sum_range_succ, sum_range_one, leg, h0, h1]
    rw [show (((1 : ℕ) : ℝ) - 2 * ((0 : ℕ) : ℝ)) * θ = θ by push_cast; ring, show (((1 : ℕ) : ℝ) - 2 * ((1 : ℕ) : ℝ)) * θ = -θ by push_cast; ring, Real.cos_neg]; ring
  | n + 2 => by
    have h1 := leg_rec n (Real.cos θ)
    rw [leg_cos θ (n + 1), leg_cos θ n, ← cosSum_rec] at h1
    exact mul_left_cancel₀ (by positivity) h1

theorem leg_abs_le {c : ℝ} (hc : |c| ≤ 1) (n : ℕ) : |leg n c| ≤ 1 := by
  obtain ⟨h1, h2⟩ := abs_le.1 hc
  have e : c = Real.cos (Real.arccos c) := (Real.cos_arccos h1 h2).symm
  rw [e, leg_cos]
  have hone : cosSum n 0 = 1 := by rw [← leg_cos, Real.cos_zero, leg_one]
  rw [← hone]
  unfold cosSum
  refine (abs_sum_le_sum_abs _ _).trans (sum_le_sum fun k _ => ?_)
  rw [abs_mul, abs_of_nonneg (mul_nonneg (halfCoeff_nonneg k) (halfCoeff_nonneg (n - k))), mul_zero, Real.cos_zero]
  exact mul_le_mul_of_nonneg_left (Real.abs_cos_le_one _) (mul_nonneg (halfCoeff_nonneg k) (halfCoeff_nonneg (n - k)))

/-- The first `N` terms. -/
noncomputable def legPartial (N : ℕ) (c t : ℝ) : ℝ := ∑ n ∈ range N, leg n c * t ^ n

noncomputable def legPartial' (N : ℕ) (c t : ℝ) : ℝ := ∑ n ∈ range N, leg n c * (n * t ^ (n - 1))

theorem legPartial_deriv (N : ℕ) (c t : ℝ) : HasDerivAt (fun t => legPartial N c t) (legPartial' N c t) t := by
  unfold legPartial legPartial'
  exact HasDerivAt.fun_sum fun n _ => (hasDerivAt_pow n t).const_mul (leg n c)

theorem leg_telescope (N : ℕ) (c t : ℝ) : (1 - 2 * c * t + t ^ 2) * legPartial' (N + 1) c t + (t - c) * legPartial (N + 1) c t =
    -((N + 1) * leg (N + 1) c * t ^ N) + (N + 1) * leg N c * t ^ (N + 1) := by
  induction N with
  | zero => simp [legPartial, legPartial', leg]; ring
  | succ N ih =>
    unfold legPartial legPartial' at *
    rw [sum_range_succ _ (N + 1), sum_range_succ _ (N + 1), mul_add, mul_add]
    have h := leg_rec N c
    have e : ((N : ℝ) + 1 + 1) = N + 2 := by ring
    push_cast
    have : t ^ (N + 1) = t ^ N * t := pow_succ _ _
    have h2 : t ^ (N + 1 + 1) = t ^ N * t * t := by rw [pow_succ, pow_succ]
    rw [h2, this] at *
    linear_combination ih + t ^ N * t * h

theorem legendre_bound_all (N : ℕ) {c : ℝ} (hc : |c| ≤ 1) {t : ℝ} (h0 : 0 ≤ t) (h1 : t < 1) :
    |1 / Real.sqrt (1 - 2 * (c * t) + t ^ 2) - legPartial (N + 1) c t| ≤ t ^ (N + 1) * (1 + t) / (1 - t) ^ 2 := by
  have ed : 1 - 2 * (c * t) + t ^ 2 = 1 - 2 * c * t + t ^ 2 := by ring
  rw [ed]
  set w : ℝ → ℝ := fun t => Real.sqrt (1 - 2 * c * t + t ^ 2) with hw
  have wpos : ∀ s, 0 ≤ s → s ≤ t → 0 < w s := fun s hs hst => lt_of_lt_of_le (by linarith) (sqrt_low hc hs (by linarith))
  have wsq : ∀ s, 0 ≤ s → s ≤ t → w s ^ 2 = 1 - 2 * c * s + s ^ 2 := fun s hs hst => by
    rw [hw]; exact Real.sq_sqrt (le_trans (sq_nonneg _) (dist_low hc hs))
  have key := grow_bound (h := fun s => legPartial (N + 1) c s * w s) (e := fun s => (-((N + 1) * leg (N + 1) c * s ^ N) + (N + 1) * leg N c * s ^ (N + 1)) / w s) (T := t)
    (M := (1 + t) / (1 - t)) (n := N) h0
    (fun s hs hst => by
      have h := (legPartial_deriv (N + 1) c s).mul (hasDeriv_sqrt hc hs (by linarith))
      refine h.congr_deriv ?_
      have hp := (wpos s hs hst).ne'
      have h2 := wsq s hs hst
      change legPartial' (N + 1) c s * w s + legPartial (N + 1) c s * ((s - c) / w s) = _
      rw [← leg_telescope, ← h2]
      field_simp)
    (by simp [legPartial, w, sum_range_succ', leg]) (fun s hs hst => by
      have hl := sqrt_low hc hs (by linarith)
      have hp := wpos s hs hst
      have b6 := leg_abs_le hc N
      have b7 := leg_abs_le hc (N + 1)
      rw [abs_div, abs_of_pos hp, div_le_iff₀ hp]
      have h6 : 0 ≤ s ^ N := by positivity
      have num : |-((N + 1) * leg (N + 1) c * s ^ N) + (N + 1) * leg N c * s ^ (N + 1)| ≤ (N + 1) * s ^ N * (1 + t) := by
        have e1 : |-((N + 1) * leg (N + 1) c * s ^ N)| = (N + 1) * |leg (N + 1) c| * s ^ N := by
          rw [abs_neg, abs_mul, abs_mul, abs_of_nonneg h6, abs_of_nonneg (by positivity : (0 : ℝ) ≤ N + 1)]
        have e2 : |(N + 1) * leg N c * s ^ (N + 1)| = (N + 1) * |leg N c| * (s ^ N * s) := by
          rw [abs_mul, abs_mul, abs_of_nonneg (by positivity : 0 ≤ s ^ (N + 1)), abs_of_nonneg (by positivity : (0 : ℝ) ≤ N + 1), pow_succ]
        calc _ ≤ _ := abs_add_le _ _
          _ = (N + 1) * |leg (N + 1) c| * s ^ N + (N + 1) * |leg N c| * (s ^ N * s) := by rw [e1, e2]
          _ ≤ (N + 1) * 1 * s ^ N + (N + 1) * 1 * (s ^ N * t) := by gcongr
          _ = _ := by ring
      refine num.trans ?_
      have ht1 : 0 < 1 - t := by linarith
      have hlow : 1 - t ≤ w s := by have : 1 - s ≤ w s := hl; linarith
      have h3 : (1 + t) / (1 - t) * ((N + 1 : ℕ) * s ^ N) * w s = ((N + 1 : ℕ) * s ^ N * (1 + t)) * (w s / (1 - t)) := by field_simp
      rw [h3]
      push_cast
      exact le_mul_of_one_le_right (by positivity) ((one_le_div ht1).2 hlow))
  have wt := wpos t h0 le_rfl
  have hl := sqrt_low hc h0 h1
  have e : 1 / w t - legPartial (N + 1) c t = -(legPartial (N + 1) c t * w t - 1) / w t := by field_simp; ring
  have : |1 / w t - legPartial (N + 1) c t| ≤ t ^ (N + 1) * (1 + t) / (1 - t) ^ 2 := by
    rw [e, abs_div, abs_neg, abs_of_pos wt, div_le_iff₀ wt]
    refine key.trans ?_
    have ht1 : 0 < 1 - t := by linarith
    have h3 : t ^ (N + 1) * (1 + t) / (1 - t) ^ 2 * w t = (1 + t) / (1 - t) * t ^ (N + 1) * (w t / (1 - t)) := by field_simp
    rw [h3]
    exact le_mul_of_one_le_right (by positivity) ((one_le_div ht1).2 hl)
  exact this

/-- The same for negative `t`. -/
theorem legendre_bound_abs (N : ℕ) {c : ℝ} (hc : |c| ≤ 1) {t : ℝ} (h1 : |t| < 1) :
    |1 / Real.sqrt (1 - 2 * (c * t) + t ^ 2) - legPartial (N + 1) c t| ≤ |t| ^ (N + 1) * (1 + |t|) / (1 - |t|) ^ 2 := by
  rcases le_total 0 t with h | h
  · rw [abs_of_nonneg h] at *; exact legendre_bound_all N hc h h1
  · rw [abs_of_nonpos h] at *
    have := legendre_bound_all N (c := -c) (by rwa [abs_neg]) (t := -t) (by linarith) h1
    rw [neg_mul_neg, neg_sq] at this
    have e : legPartial (N + 1) (-c) (-t) = legPartial (N + 1) c t := by
      unfold legPartial
      refine sum_congr rfl fun n _ => ?_
      rw [leg_neg, neg_pow t]
      have : ((-1 : ℝ) ^ n) * (-1) ^ n = 1 := by rw [← mul_pow]; norm_num
      linear_combination leg n c * t ^ n * this
    rwa [e] at this

end Traceon
