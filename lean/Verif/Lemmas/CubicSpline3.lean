import Verif.Lemmas.CubicSpline2

/-!
# The error of cubic splines for smooth functions
-/
namespace Traceon.CubicSpline

/-- Linear extrapolation over an interval. -/
theorem extrapolate {g g1 g2 : ℝ → ℝ} {a m b F : ℝ} (hm : a < m) (hb : m < b) (h1 : ∀ t, a ≤ t → t ≤ b → HasDerivAt g (g1 t) t) (h2 : ∀ t, a ≤ t → t ≤ b → HasDerivAt g1 (g2 t) t)
    (hF : ∀ t, a ≤ t → t ≤ b → |g2 t| ≤ F) : |(b - m) * g a - ((m - a + (b - m)) * g m - (m - a) * g b)| ≤ F * (b - a) ^ 2 * (b - m) := by
  have hab : a < b := hm.trans hb
  have hp := sub_pos.2 hab
  have h := (two_zeros (g := fun t => g t - lin a b (g a) (g b) t) (g1 := fun t => g1 t - (g b - g a) / (b - a)) (g2 := g2) (C := F) hab (fun t ht ht' => (h1 t ht ht').sub (hasDerivAt_lin a b (g a) (g b) t))
    (fun t ht ht' => by simpa using (h2 t ht ht').sub_const ((g b - g a) / (b - a))) (by rw [lin_left, sub_self]) (by rw [lin_right hab, sub_self]) hF hm.le hb.le).2.2
  rw [show (b - m) * g a - ((m - a + (b - m)) * g m - (m - a) * g b) = -((b - a) * (g m - lin a b (g a) (g b) m)) by unfold lin; field_simp; ring, abs_neg, abs_mul, abs_of_pos hp]
  have := mul_le_mul_of_nonneg_left h hp.le
  linarith

@[inherit_doc extrapolate]
theorem extrapolate' {g g1 g2 : ℝ → ℝ} {a m b F : ℝ} (hm : a < m) (hb : m < b) (h1 : ∀ t, a ≤ t → t ≤ b → HasDerivAt g (g1 t) t) (h2 : ∀ t, a ≤ t → t ≤ b → HasDerivAt g1 (g2 t) t)
    (hF : ∀ t, a ≤ t → t ≤ b → |g2 t| ≤ F) : |(m - a) * g b - ((b - m + (m - a)) * g m - (b - m) * g a)| ≤ F * (b - a) ^ 2 * (m - a) := by
  have hab : a < b := hm.trans hb
  have hp := sub_pos.2 hab
  have h := (two_zeros (g := fun t => g t - lin a b (g a) (g b) t) (g1 := fun t => g1 t - (g b - g a) / (b - a)) (g2 := g2) (C := F) hab (fun t ht ht' => (h1 t ht ht').sub (hasDerivAt_lin a b (g a) (g b) t))
    (fun t ht ht' => by simpa using (h2 t ht ht').sub_const ((g b - g a) / (b - a))) (by rw [lin_left, sub_self]) (by rw [lin_right hab, sub_self]) hF hm.le hb.le).2.1
  rw [show (m - a) * g b - ((b - m + (m - a)) * g m - (b - m) * g a) = -((b - a) * (g m - lin a b (g a) (g b) m)) by unfold lin; field_simp; ring, abs_neg, abs_mul, abs_of_pos hp]
  have := mul_le_mul_of_nonneg_left h hp.le
  linarith

variable {x : ℕ → ℝ} {n : ℕ} (hn : 3 ≤ n) (hx : ∀ i, i < n → x i < x (i + 1)) {s s1 s2 : ℝ → ℝ} (hs : IsSpline x n s s1 s2)

include hn hx hs

/-- The error of the spline through the values of a function with four derivatives. -/
theorem error4 {f f1 f2 f3 f4 : ℝ → ℝ} (hf1 : ∀ t, x 0 ≤ t → t ≤ x n → HasDerivAt f (f1 t) t) (hf2 : ∀ t, x 0 ≤ t → t ≤ x n → HasDerivAt f1 (f2 t) t) (hf3 : ∀ t, x 0 ≤ t → t ≤ x n → HasDerivAt f2 (f3 t) t)
    (hf4 : ∀ t, x 0 ≤ t → t ≤ x n → HasDerivAt f3 (f4 t) t) {F : ℝ} (hF : ∀ t, x 0 ≤ t → t ≤ x n → |f4 t| ≤ F) (hval : ∀ i, i ≤ n → s (x i) = f (x i)) {κ h : ℝ}
    (hk : x 1 - x 0 ≤ κ * (x 2 - x 1)) (hk' : x n - x (n - 1) ≤ κ * (x (n - 1) - x (n - 2))) (hh : ∀ i, i < n → x (i + 1) - x i ≤ h) {t : ℝ} (ht : x 0 ≤ t) (ht' : t ≤ x n) :
    |s2 t - f2 t| ≤ (12 + 14 * κ) * F * h ^ 2 ∧ |s1 t - f1 t| ≤ (12 + 14 * κ) * F * h ^ 3 ∧ |s t - f t| ≤ (12 + 14 * κ) * F * h ^ 4 := by
  have hF0 : 0 ≤ F := (abs_nonneg _).trans (hF t ht ht')
  have hin : ∀ i j, i ≤ j → j ≤ n → ∀ t, x i ≤ t → t ≤ x j → x 0 ≤ t ∧ t ≤ x n := fun i j hij hj t h1 h2 =>
    ⟨(knots_mono hx (Nat.zero_le i) (by omega)).trans h1, h2.trans (knots_mono hx hj le_rfl)⟩
  have hh0 : 0 ≤ h := (sub_pos.2 (hx 0 (by omega))).le.trans (hh 0 (by omega))
  have two : ∀ i, i + 2 ≤ n → (x (i + 2) - x i) ^ 2 ≤ 4 * h ^ 2 := by
    intro i hi
    have a := hh i (by omega)
    have b := hh (i + 1) (by omega)
    have p := hx i (by omega)
    have q := hx (i + 1) (by omega)
    rw [show i + 1 + 1 = i + 2 from rfl] at b q
    nlinarith
  have e := error hn hx hs hf1 hf2 hval (G := F * h ^ 2) (ρ := 4 * F * h ^ 2) (κ := κ) (h := h) (by positivity)
    (fun i hi t h1 h2 => by
      have hz := (two_zeros (g := fun t => f2 t - lin (x i) (x (i + 1)) (f2 (x i)) (f2 (x (i + 1))) t) (g1 := fun t => f3 t - (f2 (x (i + 1)) - f2 (x i)) / (x (i + 1) - x i)) (g2 := f4) (C := F) (hx i hi)
        (fun t h1 h2 => (hf3 t (hin i (i + 1) (by omega) hi t h1 h2).1 (hin i (i + 1) (by omega) hi t h1 h2).2).sub (hasDerivAt_lin _ _ _ _ t))
        (fun t h1 h2 => by simpa using (hf4 t (hin i (i + 1) (by omega) hi t h1 h2).1 (hin i (i + 1) (by omega) hi t h1 h2).2).sub_const ((f2 (x (i + 1)) - f2 (x i)) / (x (i + 1) - x i)))
        (by rw [lin_left, sub_self]) (by rw [lin_right (hx i hi), sub_self]) (fun t h1 h2 => hF t (hin i (i + 1) (by omega) hi t h1 h2).1 (hin i (i + 1) (by omega) hi t h1 h2).2) h1 h2).2.1
      refine hz.trans ?_
      rw [mul_assoc]
      refine mul_le_mul_of_nonneg_left ?_ hF0
      have a := hh i hi
      rw [pow_two]
      exact mul_le_mul a (by linarith) (by linarith) hh0)
    (by
      have a := extrapolate (g := f2) (g1 := f3) (g2 := f4) (a := x 0) (m := x 1) (b := x 2) (F := F) (hx 0 (by omega)) (hx 1 (by omega)) (fun t h1 h2 => hf3 t h1 (hin 0 2 (by omega) (by omega) t h1 h2).2)
        (fun t h1 h2 => hf4 t h1 (hin 0 2 (by omega) (by omega) t h1 h2).2) (fun t h1 h2 => hF t h1 (hin 0 2 (by omega) (by omega) t h1 h2).2)
      refine a.trans (mul_le_mul_of_nonneg_right ?_ (sub_pos.2 (hx 1 (by omega))).le)
      have := mul_le_mul_of_nonneg_left (two 0 (by omega)) hF0
      norm_num at this ⊢
      linarith)
    (by
      have q0 := hx (n - 2) (by omega)
      have q1 := hx (n - 1) (by omega)
      rw [show n - 2 + 1 = n - 1 by omega] at q0
      rw [show n - 1 + 1 = n by omega] at q1
      have a := extrapolate' (g := f2) (g1 := f3) (g2 := f4) (a := x (n - 2)) (m := x (n - 1)) (b := x n) (F := F) q0 q1 (fun t h1 h2 => hf3 t (hin (n - 2) n (by omega) (by omega) t h1 h2).1 h2)
        (fun t h1 h2 => hf4 t (hin (n - 2) n (by omega) (by omega) t h1 h2).1 h2) (fun t h1 h2 => hF t (hin (n - 2) n (by omega) (by omega) t h1 h2).1 h2)
      refine a.trans (mul_le_mul_of_nonneg_right ?_ (sub_pos.2 q0).le)
      have := mul_le_mul_of_nonneg_left (two (n - 2) (by omega)) hF0
      rw [show n - 2 + 2 = n by omega] at this
      linarith)
    hk hk' hh ht ht'
  rw [show (1 + 2 * κ) * (3 * (F * h ^ 2) + 4 * F * h ^ 2) + 4 * F * h ^ 2 + F * h ^ 2 = (12 + 14 * κ) * F * h ^ 2 by ring] at e
  refine ⟨e.1, e.2.1.trans_eq (by ring), e.2.2.trans_eq (by ring)⟩

/-- The error of the spline through the values of a function with two derivatives. -/
theorem error2 {f f1 f2 : ℝ → ℝ} (hf1 : ∀ t, x 0 ≤ t → t ≤ x n → HasDerivAt f (f1 t) t) (hf2 : ∀ t, x 0 ≤ t → t ≤ x n → HasDerivAt f1 (f2 t) t)
    {F : ℝ} (hF : ∀ t, x 0 ≤ t → t ≤ x n → |f2 t| ≤ F) (hval : ∀ i, i ≤ n → s (x i) = f (x i)) {κ h : ℝ}
    (hk : x 1 - x 0 ≤ κ * (x 2 - x 1)) (hk' : x n - x (n - 1) ≤ κ * (x (n - 1) - x (n - 2))) (hh : ∀ i, i < n → x (i + 1) - x i ≤ h) {t : ℝ} (ht : x 0 ≤ t) (ht' : t ≤ x n) :
    |s2 t - f2 t| ≤ (12 + 20 * κ + 4 * κ ^ 2) * F ∧ |s1 t - f1 t| ≤ (12 + 20 * κ + 4 * κ ^ 2) * F * h ∧ |s t - f t| ≤ (12 + 20 * κ + 4 * κ ^ 2) * F * h ^ 2 := by
  have hF0 : 0 ≤ F := (abs_nonneg _).trans (hF t ht ht')
  have hin : ∀ i j, i ≤ j → j ≤ n → ∀ t, x i ≤ t → t ≤ x j → x 0 ≤ t ∧ t ≤ x n := fun i j hij hj t h1 h2 =>
    ⟨(knots_mono hx (Nat.zero_le i) (by omega)).trans h1, h2.trans (knots_mono hx hj le_rfl)⟩
  have hat : ∀ i, i ≤ n → |f2 (x i)| ≤ F := fun i hi => hF _ (hin i i le_rfl hi _ le_rfl le_rfl).1 (hin i i le_rfl hi _ le_rfl le_rfl).2
  have hκ : 0 ≤ κ := by
    have h0 := sub_pos.2 (hx 0 (by omega))
    have h1 := sub_pos.2 (hx 1 (by omega))
    by_contra hc
    push Not at hc
    have := mul_neg_of_neg_of_pos hc h1
    norm_num at *
    linarith
  have ext : ∀ {A B u v w : ℝ}, 0 < A → 0 < B → B ≤ κ * A → |u| ≤ F → |v| ≤ F → |w| ≤ F → |A * u - ((B + A) * v - B * w)| ≤ (2 + 2 * κ) * F * A := by
    intro A B u v w pA pB hBA hu hv hw
    have h1 : |A * u| ≤ A * F := by rw [abs_mul, abs_of_pos pA]; exact mul_le_mul_of_nonneg_left hu pA.le
    have h2 : |(B + A) * v| ≤ (B + A) * F := by rw [abs_mul, abs_of_pos (by positivity)]; exact mul_le_mul_of_nonneg_left hv (by positivity)
    have h3 : |B * w| ≤ B * F := by rw [abs_mul, abs_of_pos pB]; exact mul_le_mul_of_nonneg_left hw pB.le
    have h4 := mul_le_mul_of_nonneg_right hBA hF0
    have := (abs_sub (A * u) ((B + A) * v - B * w)).trans (add_le_add h1 ((abs_sub _ _).trans (add_le_add h2 h3)))
    nlinarith
  have e := error hn hx hs hf1 hf2 hval (G := 2 * F) (ρ := (2 + 2 * κ) * F) (κ := κ) (h := h) (by positivity)
    (fun i hi t h1 h2 => by
      have a := hF t (hin i (i + 1) (by omega) hi t h1 h2).1 (hin i (i + 1) (by omega) hi t h1 h2).2
      have b := lin_le (hx i hi) h1 h2 (hat i (by omega)) (hat (i + 1) (by omega))
      exact (abs_sub _ _).trans (by linarith))
    (ext (sub_pos.2 (hx 1 (by omega))) (sub_pos.2 (hx 0 (by omega))) hk (hat 0 (by omega)) (hat 1 (by omega)) (hat 2 (by omega)))
    (by
      have q0 := hx (n - 2) (by omega)
      have q1 := hx (n - 1) (by omega)
      rw [show n - 2 + 1 = n - 1 by omega] at q0
      rw [show n - 1 + 1 = n by omega] at q1
      exact ext (sub_pos.2 q0) (sub_pos.2 q1) hk' (hat n le_rfl) (hat _ (by omega)) (hat _ (by omega)))
    hk hk' hh ht ht'
  rw [show (1 + 2 * κ) * (3 * (2 * F) + (2 + 2 * κ) * F) + (2 + 2 * κ) * F + 2 * F = (12 + 20 * κ + 4 * κ ^ 2) * F by ring] at e
  exact e

end Traceon.CubicSpline
