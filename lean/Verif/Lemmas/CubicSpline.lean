import Mathlib.Analysis.Calculus.MeanValue
import Mathlib.Analysis.Calculus.LocalExtr.Rolle
import Mathlib.Analysis.Calculus.Deriv.Pow
import Mathlib.Tactic.Positivity
import Mathlib.Tactic.FieldSimp
import Mathlib.Tactic.Linarith

/-!
# The error of cubic splines

Stability of the equations for the second derivatives of a cubic spline with the "not-a-knot" end conditions, and the error of the spline through the values of a function with four bounded derivatives.
-/
namespace Traceon.CubicSpline

/-- A function that vanishes at `a`, with a derivative of order `(t-a)^k`. -/
theorem bound_right {g g' : ℝ → ℝ} {a b C : ℝ} (k : ℕ) (hg : ∀ t, a ≤ t → t ≤ b → HasDerivAt g (g' t) t) (h0 : g a = 0) (hb : ∀ t, a ≤ t → t ≤ b → |g' t| ≤ C * (t - a) ^ k) {t : ℝ} (ht : a ≤ t) (ht' : t ≤ b) :
    |g t| ≤ C * (t - a) ^ (k + 1) / (k + 1 : ℕ) := by
  have hk : ((k + 1 : ℕ) : ℝ) ≠ 0 := by positivity
  have hB : ∀ x : ℝ, HasDerivAt (fun t => C * (t - a) ^ (k + 1) / (k + 1 : ℕ)) (C * (x - a) ^ k) x := by
    intro x
    have h := ((((hasDerivAt_id x).sub_const a).pow (k + 1)).const_mul C).div_const ((k + 1 : ℕ) : ℝ)
    refine h.congr_deriv ?_
    simp only [Nat.add_sub_cancel, mul_one, id]
    field_simp
  refine image_norm_le_of_norm_deriv_right_le_deriv_boundary' (f := g) (f' := g') (a := a) (b := b) (B := fun t => C * (t - a) ^ (k + 1) / (k + 1 : ℕ)) (B' := fun x => C * (x - a) ^ k)
    (fun x hx => (hg x hx.1 hx.2).continuousAt.continuousWithinAt) (fun x hx => (hg x hx.1 hx.2.le).hasDerivWithinAt) ?_ (fun x _ => (hB x).continuousAt.continuousWithinAt)
    (fun x _ => (hB x).hasDerivWithinAt) (fun x hx => hb x hx.1 hx.2.le) ⟨ht, ht'⟩
  simp [h0]

/-- As `bound_right`, to the left of a zero. -/
theorem bound_left {g g' : ℝ → ℝ} {a b C : ℝ} (k : ℕ) (hg : ∀ t, a ≤ t → t ≤ b → HasDerivAt g (g' t) t) (h0 : g b = 0) (hb : ∀ t, a ≤ t → t ≤ b → |g' t| ≤ C * (b - t) ^ k) {t : ℝ} (ht : a ≤ t) (ht' : t ≤ b) :
    |g t| ≤ C * (b - t) ^ (k + 1) / (k + 1 : ℕ) := by
  have h := bound_right (g := fun t => g (-t)) (g' := fun t => -g' (-t)) (a := -b) (b := -a) (C := C) k (fun t h1 h2 => by
    have := (hg (-t) (by linarith) (by linarith)).comp t (hasDerivAt_neg t)
    exact this.congr_deriv (by ring)) (by simpa using h0) (fun t h1 h2 => by
    rw [abs_neg]; have := hb (-t) (by linarith) (by linarith); rwa [show b - -t = t - -b by ring] at this) (t := -t) (by linarith) (by linarith)
  simpa [show -t + b = b - t by ring] using h

/-- A function with zeros at both ends of an interval and a bounded second derivative. -/
theorem two_zeros {g g1 g2 : ℝ → ℝ} {a b C : ℝ} (hab : a < b) (h1 : ∀ t, a ≤ t → t ≤ b → HasDerivAt g (g1 t) t) (h2 : ∀ t, a ≤ t → t ≤ b → HasDerivAt g1 (g2 t) t) (ha : g a = 0) (hb : g b = 0)
    (hC : ∀ t, a ≤ t → t ≤ b → |g2 t| ≤ C) {t : ℝ} (ht : a ≤ t) (ht' : t ≤ b) : |g1 t| ≤ C * (b - a) ∧ |g t| ≤ C * (b - a) * (t - a) ∧ |g t| ≤ C * (b - a) * (b - t) := by
  have hC0 : 0 ≤ C := le_trans (abs_nonneg _) (hC a le_rfl hab.le)
  obtain ⟨ξ, hξ, hz⟩ : ∃ ξ ∈ Set.Ioo a b, g1 ξ = 0 :=
    exists_hasDerivAt_eq_zero hab (fun x hx => (h1 x hx.1 hx.2).continuousAt.continuousWithinAt) (by rw [ha, hb]) (fun x hx => h1 x hx.1.le hx.2.le)
  have hg1 : ∀ t, a ≤ t → t ≤ b → |g1 t| ≤ C * (b - a) := by
    intro t ht ht'
    rcases le_total ξ t with h | h
    · have := bound_right (g := g1) (g' := g2) (a := ξ) (b := b) (C := C) 0 (fun s hs hs' => h2 s (hξ.1.le.trans hs) hs') hz (fun s hs hs' => by simpa using hC s (hξ.1.le.trans hs) hs') h ht'
      refine this.trans ?_
      simp only [zero_add, pow_one, Nat.cast_one, div_one]
      exact mul_le_mul_of_nonneg_left (by linarith [hξ.1]) hC0
    · have := bound_left (g := g1) (g' := g2) (a := a) (b := ξ) (C := C) 0 (fun s hs hs' => h2 s hs (hs'.trans hξ.2.le)) hz (fun s hs hs' => by simpa using hC s hs (hs'.trans hξ.2.le)) ht h
      refine this.trans ?_
      simp only [zero_add, pow_one, Nat.cast_one, div_one]
      exact mul_le_mul_of_nonneg_left (by linarith [hξ.2]) hC0
  refine ⟨hg1 t ht ht', ?_, ?_⟩
  · simpa using bound_right (g := g) (g' := g1) (C := C * (b - a)) 0 h1 ha (fun s hs hs' => by simpa using hg1 s hs hs') ht ht'
  · simpa using bound_left (g := g) (g' := g1) (C := C * (b - a)) 0 h1 hb (fun s hs hs' => by simpa using hg1 s hs hs') ht ht'

/-- The end of the equations: the first row, with the end condition inserted. -/
theorem stability_end {h0 h1 e0 e1 e2 R ρ : ℝ} (p0 : 0 < h0) (p1 : 0 < h1) (hρ : 0 ≤ ρ) (row : |h0 * e0 + 2 * (h0 + h1) * e1 + h1 * e2| ≤ R * (h0 + h1))
    (fin : |h1 * e0 - ((h0 + h1) * e1 - h0 * e2)| ≤ ρ * h1) (hE : |e2| ≤ |e1|) : |e1| ≤ R + ρ := by
  have h : |(h0 + h1) * ((h0 + 2 * h1) * e1 + (h1 - h0) * e2)| ≤ R * (h0 + h1) * h1 + h0 * (ρ * h1) := by
    rw [show (h0 + h1) * ((h0 + 2 * h1) * e1 + (h1 - h0) * e2) = h1 * (h0 * e0 + 2 * (h0 + h1) * e1 + h1 * e2) - h0 * (h1 * e0 - ((h0 + h1) * e1 - h0 * e2)) by ring]
    refine (abs_sub _ _).trans ?_
    rw [abs_mul, abs_mul h0, abs_of_pos p1, abs_of_pos p0]
    have a1 := mul_le_mul_of_nonneg_left row p1.le
    have a2 := mul_le_mul_of_nonneg_left fin p0.le
    linarith
  have h' : |(h0 + 2 * h1) * e1 + (h1 - h0) * e2| ≤ R * h1 + ρ * h1 := by
    have hp : 0 < h0 + h1 := by positivity
    rw [abs_mul, abs_of_pos hp] at h
    refine le_of_mul_le_mul_left (h.trans ?_) hp
    nlinarith [mul_nonneg hρ (mul_pos p1 p1).le]
  have h3 : (h0 + 2 * h1) * |e1| - |h1 - h0| * |e1| ≤ R * h1 + ρ * h1 := by
    have b1 : |(h0 + 2 * h1) * e1| - |(h1 - h0) * e2| ≤ |(h0 + 2 * h1) * e1 + (h1 - h0) * e2| := by
      have := abs_sub_abs_le_abs_sub ((h0 + 2 * h1) * e1) (-((h1 - h0) * e2))
      rwa [abs_neg, sub_neg_eq_add] at this
    rw [abs_mul, abs_mul (h1 - h0), abs_of_pos (by positivity : 0 < h0 + 2 * h1)] at b1
    have b2 := mul_le_mul_of_nonneg_left hE (abs_nonneg (h1 - h0))
    linarith
  have h4 : h1 * |e1| ≤ h1 * (R + ρ) := by
    have c : h1 ≤ h0 + 2 * h1 - |h1 - h0| := by
      rcases abs_cases (h1 - h0) with ⟨e, _⟩ | ⟨e, _⟩ <;> rw [e] <;> linarith
    have := mul_le_mul_of_nonneg_right c (abs_nonneg e1)
    linarith
  exact le_of_mul_le_mul_left h4 p1

/-- Stability of the equations for the second derivatives. -/
theorem stability {n : ℕ} (hn : 3 ≤ n) {h e : ℕ → ℝ} {R ρ : ℝ} (hh : ∀ i, i < n → 0 < h i) (hρ : 0 ≤ ρ)
    (rows : ∀ i, i + 1 < n → |h i * e i + 2 * (h i + h (i + 1)) * e (i + 1) + h (i + 1) * e (i + 2)| ≤ R * (h i + h (i + 1)))
    (left : |h 1 * e 0 - ((h 0 + h 1) * e 1 - h 0 * e 2)| ≤ ρ * h 1)
    (right : |h (n - 2) * e n - ((h (n - 1) + h (n - 2)) * e (n - 1) - h (n - 1) * e (n - 2))| ≤ ρ * h (n - 2)) :
    ∀ i, 1 ≤ i → i < n → |e i| ≤ R + ρ := by
  obtain ⟨j, hj, hmax⟩ := Finset.exists_max_image (Finset.Ico 1 n) (fun i => |e i|) ⟨1, by simp; omega⟩
  rw [Finset.mem_Ico] at hj
  have hmax' : ∀ i, 1 ≤ i → i < n → |e i| ≤ |e j| := fun i h1 h2 => hmax i (by simp [h1, h2])
  suffices |e j| ≤ R + ρ from fun i h1 h2 => (hmax' i h1 h2).trans this
  rcases Nat.lt_or_ge j 2 with h1 | h1
  · obtain rfl : j = 1 := by omega
    exact stability_end (hh 0 (by omega)) (hh 1 (by omega)) hρ (rows 0 (by omega)) left (hmax' 2 (by omega) (by omega))
  rcases Nat.lt_or_ge (j + 1) n with h2 | h2
  · obtain ⟨i, rfl⟩ : ∃ i, j = i + 1 := ⟨j - 1, by omega⟩
    have p0 := hh i (by omega)
    have p1 := hh (i + 1) (by omega)
    have r := rows i (by omega)
    have m0 := mul_le_mul_of_nonneg_left (hmax' i (by omega) (by omega)) p0.le
    have m2 := mul_le_mul_of_nonneg_left (hmax' (i + 2) (by omega) (by omega)) p1.le
    have b : 2 * (h i + h (i + 1)) * |e (i + 1)| ≤ R * (h i + h (i + 1)) + h i * |e i| + h (i + 1) * |e (i + 2)| := by
      rw [← abs_of_pos (by positivity : 0 < 2 * (h i + h (i + 1))), ← abs_mul, show 2 * (h i + h (i + 1)) * e (i + 1) = (h i * e i + 2 * (h i + h (i + 1)) * e (i + 1) + h (i + 1) * e (i + 2)) - h i * e i - h (i + 1) * e (i + 2) by ring]
      refine (abs_sub _ _).trans (add_le_add ((abs_sub _ _).trans (add_le_add r ?_)) ?_)
      · rw [abs_mul, abs_of_pos p0]
      · rw [abs_mul, abs_of_pos p1]
    have : (h i + h (i + 1)) * |e (i + 1)| ≤ (h i + h (i + 1)) * R := by linarith
    have := le_of_mul_le_mul_left this (by positivity)
    linarith
  · obtain ⟨i, rfl⟩ : ∃ i, n = i + 3 := ⟨n - 3, by omega⟩
    obtain rfl : j = i + 2 := by omega
    have e1 : i + 3 - 2 = i + 1 := by omega
    have e2 : i + 3 - 1 = i + 2 := by omega
    rw [e1, e2] at right
    have r := rows (i + 1) (by omega)
    refine stability_end (h0 := h (i + 2)) (h1 := h (i + 1)) (e0 := e (i + 3)) (e2 := e (i + 1)) (hh _ (by omega)) (hh _ (by omega)) hρ ?_ right (hmax' _ (by omega) (by omega))
    rw [show h (i + 2) * e (i + 3) + 2 * (h (i + 2) + h (i + 1)) * e (i + 2) + h (i + 1) * e (i + 1) = h (i + 1) * e (i + 1) + 2 * (h (i + 1) + h (i + 1 + 1)) * e (i + 1 + 1) + h (i + 1 + 1) * e (i + 1 + 2) by ring,
      add_comm (h (i + 2))]
    exact r

end Traceon.CubicSpline
