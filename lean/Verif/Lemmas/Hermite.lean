import Verif.Lemmas.CubicSpline
import Mathlib.Data.Nat.Factorial.Basic

/-!
# The error of quintic Hermite interpolation
-/
namespace Traceon.CubicSpline

theorem hasDerivAt_mono (c a : ℝ) (k : ℕ) (t : ℝ) : HasDerivAt (fun t => c * (t - a) ^ (k + 1) / (k + 1).factorial) (c * (t - a) ^ k / k.factorial) t := by
  have h := ((((hasDerivAt_id t).sub_const a).pow (k + 1)).const_mul c).div_const ((k + 1).factorial : ℝ)
  refine h.congr_deriv ?_
  rw [Nat.factorial_succ]
  have h1 : ((k : ℝ) + 1) ≠ 0 := by positivity
  have h2 : (k.factorial : ℝ) ≠ 0 := by positivity
  simp only [Nat.add_sub_cancel, mul_one, id]
  push_cast
  field_simp

/-- A function with zeros of order three at both ends of an interval, and a bounded sixth derivative. -/
theorem hermite_error {a b F : ℝ} (hab : a < b) {e e1 e2 e3 e4 e5 e6 : ℝ → ℝ} (d1 : ∀ t, a ≤ t → t ≤ b → HasDerivAt e (e1 t) t) (d2 : ∀ t, a ≤ t → t ≤ b → HasDerivAt e1 (e2 t) t)
    (d3 : ∀ t, a ≤ t → t ≤ b → HasDerivAt e2 (e3 t) t) (d4 : ∀ t, a ≤ t → t ≤ b → HasDerivAt e3 (e4 t) t) (d5 : ∀ t, a ≤ t → t ≤ b → HasDerivAt e4 (e5 t) t) (d6 : ∀ t, a ≤ t → t ≤ b → HasDerivAt e5 (e6 t) t)
    (hF : ∀ t, a ≤ t → t ≤ b → |e6 t| ≤ F) (a0 : e a = 0) (a1 : e1 a = 0) (a2 : e2 a = 0) (b0 : e b = 0) (b1 : e1 b = 0) (b2 : e2 b = 0) {t : ℝ} (ht : a ≤ t) (ht' : t ≤ b) : |e t| ≤ F * (b - a) ^ 6 := by
  have hF0 : 0 ≤ F := (abs_nonneg _).trans (hF t ht ht')
  have hp := sub_pos.2 hab
  set c3 := e3 a with hc3
  set c4 := e4 a with hc4
  set c5 := e5 a with hc5
  have m := hasDerivAt_mono
  -- the remainders
  have r5 : ∀ t, a ≤ t → t ≤ b → |e5 t - c5| ≤ F * (t - a) ^ 1 := by
    intro t h1 h2
    have := bound_right (C := F) 0 (fun t h1 h2 => (d6 t h1 h2).sub_const c5) (by simp [hc5]) (fun t h1 h2 => by simpa using hF t h1 h2) h1 h2
    simpa using this
  have r4 : ∀ t, a ≤ t → t ≤ b → |e4 t - (c4 + c5 * (t - a) ^ (0 + 1) / (0 + 1).factorial)| ≤ F / 2 * (t - a) ^ 2 := by
    intro t h1 h2
    have := bound_right (g := fun t => e4 t - (c4 + c5 * (t - a) ^ (0 + 1) / (0 + 1).factorial)) (C := F) 1 (fun t h1 h2 => (d5 t h1 h2).sub ((m c5 a 0 t).const_add c4)) (by simp [hc4]) (fun t h1 h2 => by simpa using r5 t h1 h2) h1 h2
    refine this.trans_eq ?_
    norm_num; ring
  have r3 : ∀ t, a ≤ t → t ≤ b → |e3 t - (c3 + c4 * (t - a) ^ (0 + 1) / (0 + 1).factorial + c5 * (t - a) ^ (1 + 1) / (1 + 1).factorial)| ≤ F / 6 * (t - a) ^ 3 := by
    intro t h1 h2
    have := bound_right (g := fun t => e3 t - (c3 + c4 * (t - a) ^ (0 + 1) / (0 + 1).factorial + c5 * (t - a) ^ (1 + 1) / (1 + 1).factorial)) (C := F / 2) 2
      (fun t h1 h2 => (d4 t h1 h2).sub (((m c4 a 0 t).const_add c3).add (m c5 a 1 t))) (by simp [hc3]) (fun t h1 h2 => by simpa using r4 t h1 h2) h1 h2
    refine this.trans_eq ?_
    norm_num; ring
  have r2 : ∀ t, a ≤ t → t ≤ b → |e2 t - (c3 * (t - a) ^ (0 + 1) / (0 + 1).factorial + c4 * (t - a) ^ (1 + 1) / (1 + 1).factorial + c5 * (t - a) ^ (2 + 1) / (2 + 1).factorial)| ≤ F / 24 * (t - a) ^ 4 := by
    intro t h1 h2
    have := bound_right (g := fun t => e2 t - (c3 * (t - a) ^ (0 + 1) / (0 + 1).factorial + c4 * (t - a) ^ (1 + 1) / (1 + 1).factorial + c5 * (t - a) ^ (2 + 1) / (2 + 1).factorial)) (C := F / 6) 3
      (fun t h1 h2 => (d3 t h1 h2).sub (((m c3 a 0 t).add (m c4 a 1 t)).add (m c5 a 2 t))) (by simp [a2]) (fun t h1 h2 => by simpa using r3 t h1 h2) h1 h2
    refine this.trans_eq ?_
    norm_num; ring
  have r1 : ∀ t, a ≤ t → t ≤ b → |e1 t - (c3 * (t - a) ^ (1 + 1) / (1 + 1).factorial + c4 * (t - a) ^ (2 + 1) / (2 + 1).factorial + c5 * (t - a) ^ (3 + 1) / (3 + 1).factorial)| ≤ F / 120 * (t - a) ^ 5 := by
    intro t h1 h2
    have := bound_right (g := fun t => e1 t - (c3 * (t - a) ^ (1 + 1) / (1 + 1).factorial + c4 * (t - a) ^ (2 + 1) / (2 + 1).factorial + c5 * (t - a) ^ (3 + 1) / (3 + 1).factorial)) (C := F / 24) 4
      (fun t h1 h2 => (d2 t h1 h2).sub (((m c3 a 1 t).add (m c4 a 2 t)).add (m c5 a 3 t))) (by simp [a1]) r2 h1 h2
    refine this.trans_eq ?_
    norm_num; ring
  have r0 : ∀ t, a ≤ t → t ≤ b → |e t - (c3 * (t - a) ^ (2 + 1) / (2 + 1).factorial + c4 * (t - a) ^ (3 + 1) / (3 + 1).factorial + c5 * (t - a) ^ (4 + 1) / (4 + 1).factorial)| ≤ F / 720 * (t - a) ^ 6 := by
    intro t h1 h2
    have := bound_right (g := fun t => e t - (c3 * (t - a) ^ (2 + 1) / (2 + 1).factorial + c4 * (t - a) ^ (3 + 1) / (3 + 1).factorial + c5 * (t - a) ^ (4 + 1) / (4 + 1).factorial)) (C := F / 120) 5
      (fun t h1 h2 => (d1 t h1 h2).sub (((m c3 a 2 t).add (m c4 a 3 t)).add (m c5 a 4 t))) (by simp [a0]) r1 h1 h2
    refine this.trans_eq ?_
    norm_num; ring
  -- the values at the end
  have q0 := r0 b hab.le le_rfl
  have q1 := r1 b hab.le le_rfl
  have q2 := r2 b hab.le le_rfl
  have q := r0 t ht ht'
  rw [b0] at q0
  rw [b1] at q1
  rw [b2] at q2
  norm_num [Nat.factorial] at q0 q1 q2 q
  generalize hh : b - a = h at *
  obtain ⟨σ, hσ⟩ : ∃ σ, t - a = σ * h := ⟨(t - a) / h, by field_simp⟩
  have hσ0 : 0 ≤ σ := by
    by_contra hc
    push Not at hc
    nlinarith
  have hσ1 : σ ≤ 1 := by
    by_contra hc
    push Not at hc
    nlinarith
  set A3 := c3 * h ^ 3 / 6 with hA3
  set A4 := c4 * h ^ 4 / 24 with hA4
  set A5 := c5 * h ^ 5 / 120 with hA5
  set W := F * h ^ 6 with hW
  have hW0 : 0 ≤ W := by positivity
  have p0 : |A3 + A4 + A5| ≤ W / 720 := by
    rw [← abs_neg]
    refine le_of_eq_of_le (congrArg _ ?_) (q0.trans_eq ?_)
    · rw [hA3, hA4, hA5]; ring
    · rw [hW]; ring
  have p1 : |3 * A3 + 4 * A4 + 5 * A5| ≤ W / 120 := by
    have := mul_le_mul_of_nonneg_left q1 hp.le
    rw [← abs_of_pos hp, ← abs_mul, abs_of_pos hp, ← abs_neg] at this
    refine le_of_eq_of_le (congrArg _ ?_) (this.trans_eq ?_)
    · rw [hA3, hA4, hA5]; ring
    · rw [hW]; ring
  have p2 : |6 * A3 + 12 * A4 + 20 * A5| ≤ W / 24 := by
    have := mul_le_mul_of_nonneg_left q2 (pow_pos hp 2).le
    rw [← abs_of_pos (pow_pos hp 2), ← abs_mul, abs_of_pos (pow_pos hp 2), ← abs_neg] at this
    refine le_of_eq_of_le (congrArg _ ?_) (this.trans_eq ?_)
    · rw [hA3, hA4, hA5]; ring
    · rw [hW]; ring
  have s3 : |A3| ≤ W / 10 := by
    rw [abs_le] at p0 p1 p2 ⊢
    constructor <;> linarith
  have s4 : |A4| ≤ W / 6 := by
    rw [abs_le] at p0 p1 p2 ⊢
    constructor <;> linarith
  have s5 : |A5| ≤ W / 12 := by
    rw [abs_le] at p0 p1 p2 ⊢
    constructor <;> linarith
  rw [hσ] at q
  have hq : |e t - (A3 * σ ^ 3 + A4 * σ ^ 4 + A5 * σ ^ 5)| ≤ W / 720 := by
    refine le_of_eq_of_le (congrArg _ ?_) (q.trans ?_)
    · rw [hA3, hA4, hA5]; ring
    · rw [hW, mul_pow, show F / 720 * (σ ^ 6 * h ^ 6) = σ ^ 6 * (F * h ^ 6 / 720) by ring]
      exact mul_le_of_le_one_left (by positivity) (pow_le_one₀ hσ0 hσ1)
  have small : ∀ (A : ℝ) (k : ℕ), |A * σ ^ k| ≤ |A| := by
    intro A k
    rw [abs_mul, abs_of_nonneg (pow_nonneg hσ0 k)]
    exact mul_le_of_le_one_right (abs_nonneg _) (pow_le_one₀ hσ0 hσ1)
  have t3 := (small A3 3).trans s3
  have t4 := (small A4 4).trans s4
  have t5 := (small A5 5).trans s5
  rw [abs_le] at hq t3 t4 t5 ⊢
  constructor <;> linarith

end Traceon.CubicSpline
