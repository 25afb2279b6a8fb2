import Verif.Lemmas.LegendreAll
import Verif.Spec.Accuracy
import Mathlib.Analysis.Normed.Ring.InfiniteSum
import Mathlib.Analysis.SpecificLimits.Basic
import Mathlib.Analysis.SpecificLimits.Normed

/-!
# The cube of a power series, and the error of its partial sums
-/
namespace Traceon
open Finset Spec

/-- The coefficients of a product of two series. -/
def cauchy (a b : ℕ → ℝ) (n : ℕ) : ℝ := ∑ x ∈ antidiagonal n, a x.1 * b x.2

/-- The coefficients of the cube of a series. -/
def cubic (a : ℕ → ℝ) : ℕ → ℝ := cauchy (cauchy a a) a

theorem cauchy_le {a b A B : ℕ → ℝ} (ha : ∀ n, |a n| ≤ A n) (hb : ∀ n, |b n| ≤ B n) (n : ℕ) : |cauchy a b n| ≤ cauchy A B n := by
  refine (abs_sum_le_sum_abs _ _).trans (sum_le_sum fun x _ => ?_)
  rw [abs_mul]
  exact mul_le_mul (ha _) (hb _) (abs_nonneg _) ((abs_nonneg _).trans (ha _))

theorem cauchy_sum {a b : ℕ → ℝ} {f g : ℝ} (ha : HasSum a f) (hb : HasSum b g) (ha' : Summable fun n => ‖a n‖) (hb' : Summable fun n => ‖b n‖) :
    HasSum (cauchy a b) (f * g) ∧ Summable fun n => ‖cauchy a b n‖ := by
  have h := summable_norm_sum_mul_antidiagonal_of_summable_norm ha' hb'
  refine ⟨?_, h⟩
  have e := tsum_mul_tsum_eq_tsum_sum_antidiagonal_of_summable_norm ha' hb'
  rw [ha.tsum_eq, hb.tsum_eq] at e
  rw [e]
  exact h.of_norm.hasSum

theorem cubic_sum {a : ℕ → ℝ} {f : ℝ} (ha : HasSum a f) (ha' : Summable fun n => ‖a n‖) : HasSum (cubic a) (f ^ 3) ∧ Summable fun n => ‖cubic a n‖ := by
  obtain ⟨h1, h2⟩ := cauchy_sum ha ha ha' ha'
  obtain ⟨h3, h4⟩ := cauchy_sum h1 ha h2 ha'
  exact ⟨by rw [show f ^ 3 = f * f * f by ring]; exact h3, h4⟩

theorem cubic_pow (ρ : ℝ) (n : ℕ) : cubic (fun n : ℕ => ρ ^ n) n = (n + 1) * (n + 2) / 2 * ρ ^ n := by
  have h1 : cauchy (fun n : ℕ => ρ ^ n) (fun n : ℕ => ρ ^ n) = fun n : ℕ => ((n : ℝ) + 1) * ρ ^ n := by
    funext n
    unfold cauchy
    rw [sum_congr rfl (g := fun _ => ρ ^ n) fun x hx => by rw [← pow_add, mem_antidiagonal.1 hx]]
    simp
  unfold cubic
  rw [h1]
  unfold cauchy
  rw [sum_congr rfl (g := fun x : ℕ × ℕ => ((x.1 : ℝ) + 1) * ρ ^ n) fun x hx => by
    rw [mul_assoc, ← pow_add, mem_antidiagonal.1 hx], ← sum_mul]
  congr 1
  rw [Nat.sum_antidiagonal_eq_sum_range_succ_mk]
  induction n with
  | zero => norm_num
  | succ n ih =>
    rw [sum_range_succ, ih]
    push_cast
    ring

theorem cubic_geometric {ρ : ℝ} (h0 : 0 ≤ ρ) (h1 : ρ < 1) : HasSum (cubic fun n : ℕ => ρ ^ n) (1 / (1 - ρ) ^ 3) ∧ Summable fun n => ‖cubic (fun n : ℕ => ρ ^ n) n‖ := by
  have h := hasSum_geometric_of_lt_one h0 h1
  have hn : Summable fun n : ℕ => ‖ρ ^ n‖ := by
    refine h.summable.congr fun n => ?_
    rw [Real.norm_eq_abs, abs_of_nonneg (pow_nonneg h0 n)]
  have := cubic_sum h hn
  rw [inv_pow, inv_eq_one_div] at this
  exact this

/-- The error of a partial sum of the cube of a series whose terms are bounded by those of the geometric series, and a bound for the partial sum. -/
theorem cube_series {a : ℕ → ℝ} {f ρ : ℝ} (ha : ∀ n, |a n| ≤ ρ ^ n) (h0 : 0 ≤ ρ) (h1 : ρ < 1) (hf : HasSum a f) (N : ℕ) :
    |f ^ 3 - ∑ n ∈ range N, cubic a n| ≤ cubeTail N ρ ∧ |∑ n ∈ range N, cubic a n| ≤ 1 / (1 - ρ) ^ 3 := by
  obtain ⟨g1, g2⟩ := cubic_geometric h0 h1
  have hn : Summable fun n => ‖a n‖ := Summable.of_nonneg_of_le (fun _ => norm_nonneg _) ha (summable_geometric_of_lt_one h0 h1)
  obtain ⟨c1, c2⟩ := cubic_sum hf hn
  have hle : ∀ n, |cubic a n| ≤ cubic (fun n : ℕ => ρ ^ n) n := fun n => cauchy_le (cauchy_le ha ha) ha n
  have hpos : ∀ n, 0 ≤ cubic (fun n : ℕ => ρ ^ n) n := fun n => (abs_nonneg _).trans (hle n)
  constructor
  · have e := c1.summable.sum_add_tsum_nat_add N
    rw [c1.tsum_eq] at e
    have e' := g1.summable.sum_add_tsum_nat_add N
    rw [g1.tsum_eq] at e'
    have k : f ^ 3 - ∑ n ∈ range N, cubic a n = ∑' n, cubic a (n + N) := by rw [← e]; ring
    have k' : cubeTail N ρ = ∑' n, cubic (fun n : ℕ => ρ ^ n) (n + N) := by
      unfold cubeTail
      rw [← e', sum_congr rfl fun n _ => cubic_pow ρ n]
      ring
    rw [k, k']
    have hs := (summable_nat_add_iff N).2 g1.summable
    exact tsum_of_norm_bounded hs.hasSum fun n => by rw [Real.norm_eq_abs]; exact hle (n + N)
  · calc _ ≤ ∑ n ∈ range N, |cubic a n| := abs_sum_le_sum_abs _ _
      _ ≤ ∑ n ∈ range N, cubic (fun n : ℕ => ρ ^ n) n := sum_le_sum fun n _ => hle n
      _ ≤ _ := by rw [← g1.tsum_eq]; exact g1.summable.sum_le_tsum _ fun n _ => hpos n

/-- The expansion of the inverse distance in Legendre polynomials. -/
theorem legendre_sum {c : ℝ} (hc : |c| ≤ 1) {t : ℝ} (h0 : 0 ≤ t) (h1 : t < 1) : HasSum (fun n => leg n c * t ^ n) (1 / Real.sqrt (1 - 2 * (c * t) + t ^ 2)) := by
  have hs : Summable fun n => leg n c * t ^ n := Summable.of_norm_bounded (summable_geometric_of_lt_one h0 h1) fun n => by
    rw [Real.norm_eq_abs, abs_mul, abs_of_nonneg (pow_nonneg h0 n)]
    exact mul_le_of_le_one_left (pow_nonneg h0 n) (leg_abs_le hc n)
  rw [hs.hasSum_iff_tendsto_nat]
  have hz : Filter.Tendsto (fun N : ℕ => t ^ N * ((1 + t) / (1 - t) ^ 2)) Filter.atTop (nhds 0) := by
    simpa using (tendsto_pow_atTop_nhds_zero_of_lt_one h0 h1).mul_const ((1 + t) / (1 - t) ^ 2)
  rw [← Filter.tendsto_add_atTop_iff_nat 1]
  refine tendsto_iff_norm_sub_tendsto_zero.2 (squeeze_zero (fun _ => norm_nonneg _) (fun N => ?_) ((Filter.tendsto_add_atTop_iff_nat 1).2 hz))
  rw [Real.norm_eq_abs, abs_sub_comm]
  refine (legendre_bound_all N hc h0 h1).trans (le_of_eq ?_)
  ring

end Traceon
