import Verif.Props.Kronrod2
import Mathlib.Analysis.SpecialFunctions.Integrals.Basic

/-!
# Chebyshev polynomials, and the error of the Kronrod rule for a bounded polynomial
-/
namespace Traceon
open Finset

/-- Chebyshev polynomials -/
noncomputable def chb : ℕ → ℝ → ℝ
  | 0, _ => 1
  | 1, x => x
  | n + 2, x => 2 * x * chb (n + 1) x - chb n x

theorem chb_cos (θ : ℝ) : ∀ n : ℕ, chb n (Real.cos θ) = Real.cos (n * θ)
  | 0 => by simp [chb]
  | 1 => by simp [chb]
  | n + 2 => by
    rw [chb, chb_cos θ (n + 1), chb_cos θ n]
    have e1 : ((n + 2 : ℕ) : ℝ) * θ = ((n + 1 : ℕ) : ℝ) * θ + θ := by push_cast; ring
    have e2 : (n : ℝ) * θ = ((n + 1 : ℕ) : ℝ) * θ - θ := by push_cast; ring
    rw [e1, e2, Real.cos_add, Real.cos_sub]
    ring

theorem chb_continuous : ∀ n, Continuous (chb n)
  | 0 => by
    have : chb 0 = fun _ => 1 := by funext c; rw [chb]
    rw [this]; fun_prop
  | 1 => by
    have : chb 1 = fun c => c := by funext c; rw [chb]
    rw [this]; fun_prop
  | n + 2 => by
    have h1 := chb_continuous (n + 1)
    have h2 := chb_continuous n
    have : chb (n + 2) = fun c => 2 * c * chb (n + 1) c - chb n c := by funext c; rw [chb]
    rw [this]; fun_prop

/-- Combinations of the first `N` Chebyshev polynomials -/
def ChbSpan (N : ℕ) (f : ℝ → ℝ) : Prop := ∃ c : ℕ → ℝ, ∀ x, f x = ∑ k ∈ range N, c k * chb k x

theorem ChbSpan.add {N : ℕ} {f g : ℝ → ℝ} (hf : ChbSpan N f) (hg : ChbSpan N g) : ChbSpan N fun x => f x + g x := by
  obtain ⟨c, hc⟩ := hf
  obtain ⟨d, hd⟩ := hg
  exact ⟨fun k => c k + d k, fun x => by simp only [hc, hd, ← sum_add_distrib]; exact sum_congr rfl fun k _ => by ring⟩

theorem ChbSpan.smul {N : ℕ} {f : ℝ → ℝ} (hf : ChbSpan N f) (a : ℝ) : ChbSpan N fun x => a * f x := by
  obtain ⟨c, hc⟩ := hf
  exact ⟨fun k => a * c k, fun x => by simp only [hc, mul_sum]; exact sum_congr rfl fun k _ => by ring⟩

theorem ChbSpan.zero (N : ℕ) : ChbSpan N fun _ => 0 := ⟨fun _ => 0, fun x => by simp⟩

theorem ChbSpan.sum {ι : Type} {N : ℕ} (S : Finset ι) (f : ι → ℝ → ℝ) (h : ∀ i ∈ S, ChbSpan N (f i)) : ChbSpan N fun x => ∑ i ∈ S, f i x := by
  classical
  induction S using Finset.induction_on with
  | empty => simpa using ChbSpan.zero N
  | insert i S hi ih =>
    simp only [sum_insert hi]
    exact (h i (by simp)).add (ih fun j hj => h j (by simp [hj]))

theorem ChbSpan.chb {N k : ℕ} (h : k < N) : ChbSpan N (Traceon.chb k) :=
  ⟨fun j => if j = k then 1 else 0, fun x => by simp [h]⟩

theorem ChbSpan.mono {N M : ℕ} {f : ℝ → ℝ} (h : ChbSpan N f) (hNM : N ≤ M) : ChbSpan M f := by
  obtain ⟨c, hc⟩ := h
  have : f = fun x => ∑ k ∈ range N, c k * Traceon.chb k x := funext hc
  rw [this]
  exact ChbSpan.sum _ _ fun k hk => (ChbSpan.chb ((mem_range.1 hk).trans_le hNM)).smul _

theorem ChbSpan.mul_x {N : ℕ} {f : ℝ → ℝ} (h : ChbSpan N f) : ChbSpan (N + 1) fun x => x * f x := by
  obtain ⟨c, hc⟩ := h
  have : (fun x => x * f x) = fun x => ∑ k ∈ range N, c k * (x * Traceon.chb k x) := by
    funext x; rw [hc, mul_sum]; exact sum_congr rfl fun k _ => by ring
  rw [this]
  refine ChbSpan.sum _ _ fun k hk => ChbSpan.smul ?_ _
  have hk := mem_range.1 hk
  match k with
  | 0 =>
    have e : (fun x => x * Traceon.chb 0 x) = Traceon.chb 1 := by funext x; simp [Traceon.chb]
    rw [e]; exact ChbSpan.chb (by omega)
  | k + 1 =>
    have e : (fun x => x * Traceon.chb (k + 1) x) = fun x => 1 / 2 * Traceon.chb (k + 2) x + 1 / 2 * Traceon.chb k x := by
      funext x; simp only [Traceon.chb]; ring
    rw [e]
    exact ((ChbSpan.chb (by omega)).smul _).add ((ChbSpan.chb (by omega)).smul _)

theorem ChbSpan.pow : ∀ n, ChbSpan (n + 1) fun x => x ^ n
  | 0 => by
    have e : (fun x : ℝ => x ^ 0) = Traceon.chb 0 := by funext x; simp [Traceon.chb]
    rw [e]; exact ChbSpan.chb (by omega)
  | n + 1 => by
    have e : (fun x : ℝ => x ^ (n + 1)) = fun x => x * x ^ n := by funext x; rw [pow_succ]; ring
    rw [e]; exact (ChbSpan.pow n).mul_x

theorem ChbSpan.polynomial {N : ℕ} (p : Polynomial ℝ) (h : p.natDegree < N) : ChbSpan N fun x => p.eval x := by
  have e : (fun x => p.eval x) = fun x => ∑ k ∈ range (p.natDegree + 1), p.coeff k * x ^ k := by
    funext x; exact Polynomial.eval_eq_sum_range x
  rw [e]
  exact ChbSpan.sum _ _ fun k hk => ((ChbSpan.pow k).mono (by have := mem_range.1 hk; omega)).smul _

theorem integral_cos_mul (m : ℤ) (hm : m ≠ 0) : ∫ θ in (0 : ℝ)..Real.pi, Real.cos (m * θ) = 0 := by
  have hm' : (m : ℝ) ≠ 0 := by exact_mod_cast hm
  rw [intervalIntegral.integral_comp_mul_left (fun x => Real.cos x) hm', integral_cos]
  simp [Real.sin_int_mul_pi]

theorem integral_cos_cos (j k : ℕ) : ∫ θ in (0 : ℝ)..Real.pi, Real.cos (j * θ) * Real.cos (k * θ) = if j = k then (if k = 0 then Real.pi else Real.pi / 2) else 0 := by
  have e : ∀ θ : ℝ, Real.cos (j * θ) * Real.cos (k * θ) = 1 / 2 * Real.cos (((j - k : ℤ) : ℝ) * θ) + 1 / 2 * Real.cos (((j + k : ℤ) : ℝ) * θ) := by
    intro θ
    have e1 : ((j - k : ℤ) : ℝ) * θ = j * θ - k * θ := by push_cast; ring
    have e2 : ((j + k : ℤ) : ℝ) * θ = j * θ + k * θ := by push_cast; ring
    rw [e1, e2, Real.cos_add, Real.cos_sub]
    ring
  simp only [e]
  rw [intervalIntegral.integral_add (Continuous.intervalIntegrable (by fun_prop) _ _) (Continuous.intervalIntegrable (by fun_prop) _ _),
    intervalIntegral.integral_const_mul, intervalIntegral.integral_const_mul]
  split
  · rename_i h
    subst h
    split
    · rename_i h
      subst h
      simp
      ring
    · rw [integral_cos_mul (j + j : ℤ) (by omega)]
      simp
      ring
  · rw [integral_cos_mul (j - k : ℤ) (by omega), integral_cos_mul (j + k : ℤ) (by omega)]
    ring

/-- The coefficients of a bounded combination are bounded. -/
theorem chb_coeff {N : ℕ} {c : ℕ → ℝ} {B : ℝ} (h : ∀ x ∈ Set.Icc (-1 : ℝ) 1, |∑ k ∈ range N, c k * chb k x| ≤ B) {j : ℕ} (hj : j < N) : |c j| ≤ 2 * B := by
  have hB : 0 ≤ B := (abs_nonneg _).trans (h 0 (by simp))
  have hpi := Real.pi_pos
  have e : ∫ θ in (0 : ℝ)..Real.pi, (∑ k ∈ range N, c k * chb k (Real.cos θ)) * Real.cos (j * θ) = c j * (if j = 0 then Real.pi else Real.pi / 2) := by
    simp only [chb_cos, sum_mul]
    rw [intervalIntegral.integral_finsetSum (fun i _ => Continuous.intervalIntegrable (by fun_prop) _ _)]
    simp only [mul_assoc, intervalIntegral.integral_const_mul, integral_cos_cos]
    rw [sum_eq_single j (fun b _ hb => by rw [if_neg hb, mul_zero]) (fun h => by simp [hj] at h), if_pos rfl]
  have hb : ‖∫ θ in (0 : ℝ)..Real.pi, (∑ k ∈ range N, c k * chb k (Real.cos θ)) * Real.cos (j * θ)‖ ≤ B * |Real.pi - 0| := by
    refine intervalIntegral.norm_integral_le_of_norm_le_const fun θ _ => ?_
    rw [Real.norm_eq_abs, abs_mul]
    calc _ ≤ B * 1 := mul_le_mul (h _ ⟨Real.neg_one_le_cos θ, Real.cos_le_one θ⟩) (Real.abs_cos_le_one _) (abs_nonneg _) hB
      _ = B := mul_one B
  rw [e, Real.norm_eq_abs, sub_zero, abs_mul, abs_of_pos hpi] at hb
  have h2 : Real.pi / 2 ≤ |if j = 0 then Real.pi else Real.pi / 2| := by
    split
    · rw [abs_of_pos hpi]; linarith
    · rw [abs_of_pos (by linarith)]
  have h3 := mul_le_mul_of_nonneg_left h2 (abs_nonneg (c j))
  have h4 : |c j| * (Real.pi / 2) ≤ (2 * B) * (Real.pi / 2) := by linarith
  exact le_of_mul_le_mul_right h4 (by linarith)

end Traceon
