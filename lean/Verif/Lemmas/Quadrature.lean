import Verif.Model.MatrixRadial
import Verif.Spec.MatrixRadial
import Verif.Spec.Matrix3D
import Mathlib.Analysis.SpecialFunctions.Integrals.Basic
import Mathlib.MeasureTheory.Integral.IntervalIntegral.IntegrationByParts
import Mathlib.Topology.Algebra.Polynomial
import Mathlib.Algebra.Polynomial.Eval.SMul

/-!
# The 16-point rule on an interval and the 12-point rule on a triangle
-/
namespace Traceon
open Spec

/-- the value of the 16-point rule -/
noncomputable def gaussSum (f : ℝ → ℝ) : ℝ := (gaussRule.map fun g => g.1 * f g.2).sum

/-- the value of the 12-point rule on the standard triangle -/
noncomputable def triSum (f : ℝ → ℝ → ℝ) : ℝ := (quadRule.map fun q => q.1 * f q.2.1 q.2.2).sum

/-- the integral over the standard triangle -/
noncomputable def triInt (f : ℝ → ℝ → ℝ) : ℝ := ∫ v in (0 : ℝ)..1, ∫ u in (0 : ℝ)..(1 - v), f u v

theorem gauss_moment : ∀ k ≤ 31, |gaussSum (fun x => x ^ k) - ∫ t in (-1 : ℝ)..1, t ^ k| ≤ 1 / 10 ^ 16 := by
  intro k hk
  rw [integral_pow]
  interval_cases k <;>
    · simp only [gaussSum, gaussRule, List.map_cons, List.map_nil, List.sum_cons, List.sum_nil]
      rw [abs_le]
      constructor <;> norm_num

theorem gaussSum_add (f g : ℝ → ℝ) : gaussSum (fun x => f x + g x) = gaussSum f + gaussSum g := by
  unfold gaussSum
  rw [← List.sum_map_add]
  simp only [mul_add]

theorem gaussSum_smul (a : ℝ) (f : ℝ → ℝ) : gaussSum (fun x => a * f x) = a * gaussSum f := by
  unfold gaussSum
  rw [← List.sum_map_mul_left]
  congr 1
  exact List.map_congr_left fun g _ => by ring

theorem gaussSum_sum {ι : Type _} (S : Finset ι) (f : ι → ℝ → ℝ) :
    gaussSum (fun x => ∑ i ∈ S, f i x) = ∑ i ∈ S, gaussSum (f i) := by
  classical
  induction S using Finset.induction_on with
  | empty => have := gaussSum_smul 0 (fun _ => 0); simpa using this
  | insert i S hi ih => simp only [Finset.sum_insert hi]; rw [gaussSum_add, ih]

/-- the nodes are in the interval, the weights are positive and add up to 2 -/
theorem gauss_nodes : (∀ g ∈ gaussRule, 0 < g.1 ∧ -1 < g.2 ∧ g.2 < 1) ∧ (gaussRule.map Prod.fst).sum = 2 := by
  constructor
  · unfold gaussRule; simp only [List.forall_mem_cons]; norm_num
  · unfold gaussRule; simp only [List.map_cons, List.map_nil, List.sum_cons, List.sum_nil]; norm_num

theorem abs_gaussSum_le {f : ℝ → ℝ} {ε : ℝ} (h : ∀ x, -1 ≤ x → x ≤ 1 → |f x| ≤ ε) : |gaussSum f| ≤ 2 * ε := by
  have key : ∀ l : List (ℝ × ℝ), (∀ g ∈ l, 0 < g.1 ∧ -1 < g.2 ∧ g.2 < 1) →
      |(l.map fun g => g.1 * f g.2).sum| ≤ (l.map Prod.fst).sum * ε := by
    intro l hl
    induction l with
    | nil => simp
    | cons g l ih =>
      simp only [List.map_cons, List.sum_cons]
      have h1 := ih fun x hx => hl x (List.mem_cons_of_mem _ hx)
      obtain ⟨a, b, c⟩ := hl g List.mem_cons_self
      have h2 := h g.2 b.le c.le
      calc _ ≤ |g.1 * f g.2| + |(l.map fun g => g.1 * f g.2).sum| := abs_add_le _ _
        _ ≤ g.1 * ε + (l.map Prod.fst).sum * ε := by
            rw [abs_mul, abs_of_pos a]
            exact add_le_add (mul_le_mul_of_nonneg_left h2 a.le) h1
        _ = _ := by ring
  have := key gaussRule gauss_nodes.1
  rwa [gauss_nodes.2] at this

theorem triSum_add (f g : ℝ → ℝ → ℝ) : triSum (fun u v => f u v + g u v) = triSum f + triSum g := by
  unfold triSum
  rw [← List.sum_map_add]
  simp only [mul_add]

theorem triSum_smul (a : ℝ) (f : ℝ → ℝ → ℝ) : triSum (fun u v => a * f u v) = a * triSum f := by
  unfold triSum
  rw [← List.sum_map_mul_left]
  congr 1
  exact List.map_congr_left fun g _ => by ring

theorem quad_nodes : (∀ q ∈ quadRule, 0 < q.1 ∧ 0 < q.2.1 ∧ 0 < q.2.2 ∧ q.2.1 + q.2.2 < 1) ∧
    (quadRule.map Prod.fst).sum = 1.000000000000002 / 2 := by
  constructor
  · unfold quadRule; simp only [List.forall_mem_cons]; norm_num
  · unfold quadRule; simp only [List.map_cons, List.map_nil, List.sum_cons, List.sum_nil]; norm_num

theorem abs_triSum_le {f : ℝ → ℝ → ℝ} {ε : ℝ} (h : ∀ u v, 0 ≤ u → 0 ≤ v → u + v ≤ 1 → |f u v| ≤ ε) :
    |triSum f| ≤ 1.000000000000002 / 2 * ε := by
  have key : ∀ l : List (ℝ × ℝ × ℝ), (∀ q ∈ l, 0 < q.1 ∧ 0 < q.2.1 ∧ 0 < q.2.2 ∧ q.2.1 + q.2.2 < 1) →
      |(l.map fun q => q.1 * f q.2.1 q.2.2).sum| ≤ (l.map Prod.fst).sum * ε := by
    intro l hl
    induction l with
    | nil => simp
    | cons g l ih =>
      simp only [List.map_cons, List.sum_cons]
      have h1 := ih fun x hx => hl x (List.mem_cons_of_mem _ hx)
      obtain ⟨a, b, c, d⟩ := hl g List.mem_cons_self
      have h2 := h g.2.1 g.2.2 b.le c.le d.le
      calc _ ≤ |g.1 * f g.2.1 g.2.2| + |(l.map fun q => q.1 * f q.2.1 q.2.2).sum| := abs_add_le _ _
        _ ≤ g.1 * ε + (l.map Prod.fst).sum * ε := by
            rw [abs_mul, abs_of_pos a]
            exact add_le_add (mul_le_mul_of_nonneg_left h2 a.le) h1
        _ = _ := by ring
  have := key quadRule quad_nodes.1
  rwa [quad_nodes.2] at this

/-- The integral of a monomial over the standard triangle. -/
theorem triInt_monomial (i j : ℕ) : triInt (fun u v => u ^ i * v ^ j) = ∫ v in (0 : ℝ)..1, (1 - v) ^ (i + 1) / (i + 1) * v ^ j := by
  unfold triInt
  congr 1
  funext v
  rw [intervalIntegral.integral_mul_const, integral_pow]
  simp

theorem tri_moment : ∀ i j : ℕ, i + j ≤ 6 → |triSum (fun u v => u ^ i * v ^ j) - triInt (fun u v => u ^ i * v ^ j)| ≤ 1 / 10 ^ 15 := by
  intro i j hij
  have hi : i ≤ 6 := by omega
  have hj : j ≤ 6 := by omega
  have hint : ∀ (c : ℕ → ℝ), ∫ v in (0 : ℝ)..1, (∑ k ∈ Finset.range 8, c k * v ^ k) = ∑ k ∈ Finset.range 8, c k / (k + 1) := by
    intro c
    rw [intervalIntegral.integral_finset_sum (fun k _ => Continuous.intervalIntegrable (by fun_prop) _ _)]
    refine Finset.sum_congr rfl fun k _ => ?_
    rw [intervalIntegral.integral_const_mul, integral_pow]
    simp [div_eq_mul_inv]
  have e : ∃ c : ℕ → ℝ, (∀ v : ℝ, (1 - v) ^ (i + 1) / (i + 1) * v ^ j = ∑ k ∈ Finset.range 8, c k * v ^ k) ∧
      |triSum (fun u v => u ^ i * v ^ j) - ∑ k ∈ Finset.range 8, c k / (k + 1)| ≤ 1 / 10 ^ 15 := by
    refine ⟨fun k => if k < j then 0 else (-1) ^ (k - j) * ((i + 1).choose (k - j)) / (i + 1), ?_, ?_⟩
    · intro v
      interval_cases i <;> interval_cases j <;> first
        | (exfalso; omega)
        | (simp only [Finset.sum_range_succ, Finset.sum_range_zero, Nat.choose]; norm_num; ring)
    · interval_cases i <;> interval_cases j <;> first
        | (exfalso; omega)
        | (simp only [Finset.sum_range_succ, Finset.sum_range_zero, Nat.choose, triSum, quadRule, List.map_cons, List.map_nil, List.sum_cons, List.sum_nil]
           rw [abs_le]; constructor <;> norm_num)
  obtain ⟨c, h1, h2⟩ := e
  rw [triInt_monomial]
  simp only [h1]
  rw [hint]
  exact h2

end Traceon
