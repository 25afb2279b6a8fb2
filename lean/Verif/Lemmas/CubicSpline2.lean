import Verif.Lemmas.CubicSpline

/-!
# The error of cubic splines, continued
-/
namespace Traceon.CubicSpline

/-- The linear function with the values `u` at `a` and `v` at `b`. -/
noncomputable def lin (a b u v t : ℝ) : ℝ := u + (t - a) / (b - a) * (v - u)

theorem lin_sub (a b u v u' v' t : ℝ) : lin a b u v t - lin a b u' v' t = lin a b (u - u') (v - v') t := by unfold lin; ring

theorem lin_left (a b u v : ℝ) : lin a b u v a = u := by unfold lin; simp

theorem lin_right {a b : ℝ} (h : a < b) (u v : ℝ) : lin a b u v b = v := by
  unfold lin; rw [div_self (sub_pos.2 h).ne']; ring

theorem lin_le {a b u v t E : ℝ} (h : a < b) (ht : a ≤ t) (ht' : t ≤ b) (hu : |u| ≤ E) (hv : |v| ≤ E) : |lin a b u v t| ≤ E := by
  have hp := sub_pos.2 h
  have c0 : 0 ≤ (t - a) / (b - a) := div_nonneg (by linarith) hp.le
  have c1 : (t - a) / (b - a) ≤ 1 := (div_le_one hp).2 (by linarith)
  unfold lin
  rw [show u + (t - a) / (b - a) * (v - u) = (1 - (t - a) / (b - a)) * u + (t - a) / (b - a) * v by ring]
  rw [abs_le] at hu hv ⊢
  constructor
  · nlinarith
  · nlinarith

theorem hasDerivAt_lin (a b u v t : ℝ) : HasDerivAt (lin a b u v) ((v - u) / (b - a)) t := by
  have h := ((((hasDerivAt_id t).sub_const a).div_const (b - a)).mul_const (v - u)).const_add u
  refine h.congr_deriv ?_
  ring

/-- The values at the ends of an interval of a function whose second derivative is nearly linear. -/
theorem expand_right {q q1 q2 : ℝ → ℝ} {a b G : ℝ} (hab : a < b) (h1 : ∀ t, a ≤ t → t ≤ b → HasDerivAt q (q1 t) t) (h2 : ∀ t, a ≤ t → t ≤ b → HasDerivAt q1 (q2 t) t)
    (hG : ∀ t, a ≤ t → t ≤ b → |q2 t - lin a b (q2 a) (q2 b) t| ≤ G) : |q b - q a - q1 a * (b - a) - (b - a) ^ 2 * (2 * q2 a + q2 b) / 6| ≤ G * (b - a) ^ 2 / 2 := by
  have hp := (sub_pos.2 hab).ne'
  have d1 : ∀ t, HasDerivAt (fun t => q1 a + q2 a * (t - a) + (q2 b - q2 a) / (b - a) * (t - a) ^ 2 / 2) (lin a b (q2 a) (q2 b) t) t := by
    intro t
    have hs := (hasDerivAt_id t).sub_const a
    have h := ((hs.const_mul (q2 a)).const_add (q1 a)).add ((((hs.pow 2).const_mul ((q2 b - q2 a) / (b - a)))).div_const 2)
    refine h.congr_deriv ?_
    simp only [lin, id]; ring
  have d0 : ∀ t, HasDerivAt (fun t => q a + q1 a * (t - a) + q2 a * (t - a) ^ 2 / 2 + (q2 b - q2 a) / (b - a) * (t - a) ^ 3 / 6) (q1 a + q2 a * (t - a) + (q2 b - q2 a) / (b - a) * (t - a) ^ 2 / 2) t := by
    intro t
    have hs := (hasDerivAt_id t).sub_const a
    have h := (((hs.const_mul (q1 a)).const_add (q a)).add ((((hs.pow 2).const_mul (q2 a))).div_const 2)).add ((((hs.pow 3).const_mul ((q2 b - q2 a) / (b - a)))).div_const 6)
    refine h.congr_deriv ?_
    simp only [id]; push_cast; ring
  have b1 : ∀ t, a ≤ t → t ≤ b → |q1 t - (q1 a + q2 a * (t - a) + (q2 b - q2 a) / (b - a) * (t - a) ^ 2 / 2)| ≤ G * (t - a) ^ 1 := by
    intro t ht ht'
    have := bound_right (C := G) 0 (fun t ht ht' => (h2 t ht ht').sub (d1 t)) (by simp) (fun t ht ht' => by simpa using hG t ht ht') ht ht'
    simpa using this
  have b2 := bound_right (C := G) 1 (fun t ht ht' => (h1 t ht ht').sub (d0 t)) (by simp) b1 hab.le le_rfl
  norm_num at b2
  refine le_of_eq_of_le (congrArg _ ?_) b2
  field_simp
  ring

@[inherit_doc expand_right]
theorem expand_left {q q1 q2 : ℝ → ℝ} {a b G : ℝ} (hab : a < b) (h1 : ∀ t, a ≤ t → t ≤ b → HasDerivAt q (q1 t) t) (h2 : ∀ t, a ≤ t → t ≤ b → HasDerivAt q1 (q2 t) t)
    (hG : ∀ t, a ≤ t → t ≤ b → |q2 t - lin a b (q2 a) (q2 b) t| ≤ G) : |q a - q b + q1 b * (b - a) - (b - a) ^ 2 * (2 * q2 b + q2 a) / 6| ≤ G * (b - a) ^ 2 / 2 := by
  have h := expand_right (q := fun t => q (-t)) (q1 := fun t => -q1 (-t)) (q2 := fun t => q2 (-t)) (a := -b) (b := -a) (G := G) (by linarith)
    (fun t ht ht' => by
      have := (h1 (-t) (by linarith) (by linarith)).comp t (hasDerivAt_neg t)
      exact this.congr_deriv (by ring))
    (fun t ht ht' => by
      have := ((h2 (-t) (by linarith) (by linarith)).comp t (hasDerivAt_neg t)).neg
      exact this.congr_deriv (by ring))
    (fun t ht ht' => by
      have := hG (-t) (by linarith) (by linarith)
      have hp := (sub_pos.2 hab).ne'
      refine le_of_eq_of_le (congrArg _ ?_) this
      simp only [neg_neg]
      unfold lin
      rw [show -a - -b = b - a by ring]
      field_simp
      ring)
  simp only [neg_neg] at h
  rw [show -a - -b = b - a by ring] at h
  refine le_of_eq_of_le (congrArg _ ?_) h
  ring

/-- A cubic spline `s` with knots `x 0`, …, `x n` and "not-a-knot" end conditions, with its first two derivatives: the second derivative is linear between the knots, on the first two and last two intervals together. -/
structure IsSpline (x : ℕ → ℝ) (n : ℕ) (s s1 s2 : ℝ → ℝ) : Prop where
  d1 : ∀ t, x 0 ≤ t → t ≤ x n → HasDerivAt s (s1 t) t
  d2 : ∀ t, x 0 ≤ t → t ≤ x n → HasDerivAt s1 (s2 t) t
  linear : ∀ i, i < n → ∀ t, x i ≤ t → t ≤ x (i + 1) → s2 t = lin (x i) (x (i + 1)) (s2 (x i)) (s2 (x (i + 1))) t
  left : (x 2 - x 1) * s2 (x 0) = (x 1 - x 0 + (x 2 - x 1)) * s2 (x 1) - (x 1 - x 0) * s2 (x 2)
  right : (x (n - 1) - x (n - 2)) * s2 (x n) = (x n - x (n - 1) + (x (n - 1) - x (n - 2))) * s2 (x (n - 1)) - (x n - x (n - 1)) * s2 (x (n - 2))

theorem knots_mono {x : ℕ → ℝ} {n : ℕ} (hx : ∀ i, i < n → x i < x (i + 1)) {i j : ℕ} (hij : i ≤ j) (hj : j ≤ n) : x i ≤ x j := by
  induction j with
  | zero => rw [Nat.le_zero.1 hij]
  | succ j ih =>
    rcases Nat.lt_or_ge i (j + 1) with h | h
    · exact (ih (by omega) (by omega)).trans (hx j (by omega)).le
    · rw [Nat.le_antisymm hij h]

theorem exists_interval {x : ℕ → ℝ} {n : ℕ} {t : ℝ} (h0 : x 0 ≤ t) (hn : t ≤ x n) (hp : 0 < n) : ∃ i, i < n ∧ x i ≤ t ∧ t ≤ x (i + 1) := by
  induction n with
  | zero => omega
  | succ n ih =>
    rcases le_total t (x n) with h | h
    · rcases Nat.eq_zero_or_pos n with rfl | hp'
      · exact ⟨0, by omega, h0, hn⟩
      · obtain ⟨i, a, b⟩ := ih h hp'
        exact ⟨i, by omega, b⟩
    · exact ⟨n, by omega, h, hn⟩

/-- The error of a spline through the values of `f` at its knots. The second derivative of `f` is within `G` of linear on the intervals, and within `ρ` of the linear extrapolation at the ends;
the first and the last interval are at most `κ` times as long as their neighbours. -/
theorem error {x : ℕ → ℝ} {n : ℕ} (hn : 3 ≤ n) (hx : ∀ i, i < n → x i < x (i + 1)) {s s1 s2 : ℝ → ℝ} (hs : IsSpline x n s s1 s2) {f f1 f2 : ℝ → ℝ}
    (hf1 : ∀ t, x 0 ≤ t → t ≤ x n → HasDerivAt f (f1 t) t) (hf2 : ∀ t, x 0 ≤ t → t ≤ x n → HasDerivAt f1 (f2 t) t) (hval : ∀ i, i ≤ n → s (x i) = f (x i)) {G ρ κ h : ℝ} (hρ : 0 ≤ ρ)
    (hG : ∀ i, i < n → ∀ t, x i ≤ t → t ≤ x (i + 1) → |f2 t - lin (x i) (x (i + 1)) (f2 (x i)) (f2 (x (i + 1))) t| ≤ G)
    (hl : |(x 2 - x 1) * f2 (x 0) - ((x 1 - x 0 + (x 2 - x 1)) * f2 (x 1) - (x 1 - x 0) * f2 (x 2))| ≤ ρ * (x 2 - x 1))
    (hr : |(x (n - 1) - x (n - 2)) * f2 (x n) - ((x n - x (n - 1) + (x (n - 1) - x (n - 2))) * f2 (x (n - 1)) - (x n - x (n - 1)) * f2 (x (n - 2)))| ≤ ρ * (x (n - 1) - x (n - 2)))
    (hk : x 1 - x 0 ≤ κ * (x 2 - x 1)) (hk' : x n - x (n - 1) ≤ κ * (x (n - 1) - x (n - 2))) (hh : ∀ i, i < n → x (i + 1) - x i ≤ h) {t : ℝ} (ht : x 0 ≤ t) (ht' : t ≤ x n) :
    |s2 t - f2 t| ≤ (1 + 2 * κ) * (3 * G + ρ) + ρ + G ∧ |s1 t - f1 t| ≤ ((1 + 2 * κ) * (3 * G + ρ) + ρ + G) * h ∧ |s t - f t| ≤ ((1 + 2 * κ) * (3 * G + ρ) + ρ + G) * h ^ 2 := by
  have hG0 : 0 ≤ G := le_trans (abs_nonneg _) (hG 0 (by omega) (x 0) le_rfl (hx 0 (by omega)).le)
  have hκ : 0 ≤ κ := by
    have h0 := sub_pos.2 (hx 0 (by omega))
    have h1 := sub_pos.2 (hx 1 (by omega))
    by_contra hc
    push Not at hc
    have := mul_neg_of_neg_of_pos hc h1
    norm_num at *
    linarith
  have hin : ∀ i, i < n → ∀ t, x i ≤ t → t ≤ x (i + 1) → x 0 ≤ t ∧ t ≤ x n := fun i hi t h1 h2 =>
    ⟨(knots_mono hx (Nat.zero_le i) (by omega)).trans h1, h2.trans (knots_mono hx (by omega) le_rfl)⟩
  -- the errors at the knots
  have hlin : ∀ i, i < n → ∀ t, x i ≤ t → t ≤ x (i + 1) → |(s2 t - f2 t) - lin (x i) (x (i + 1)) (s2 (x i) - f2 (x i)) (s2 (x (i + 1)) - f2 (x (i + 1))) t| ≤ G := by
    intro i hi t h1 h2
    rw [← lin_sub, hs.linear i hi t h1 h2, abs_sub_comm]
    refine le_of_eq_of_le (congrArg _ ?_) (hG i hi t h1 h2)
    ring
  have hrows : ∀ i, i + 1 < n → |(x (i + 1) - x i) * (s2 (x i) - f2 (x i)) + 2 * ((x (i + 1) - x i) + (x (i + 1 + 1) - x (i + 1))) * (s2 (x (i + 1)) - f2 (x (i + 1))) +
      (x (i + 1 + 1) - x (i + 1)) * (s2 (x (i + 2)) - f2 (x (i + 2)))| ≤ 3 * G * ((x (i + 1) - x i) + (x (i + 1 + 1) - x (i + 1))) := by
    intro i hi
    have p0 := sub_pos.2 (hx i (by omega))
    have p1 := sub_pos.2 (hx (i + 1) hi)
    have a := expand_left (q := fun t => s t - f t) (q1 := fun t => s1 t - f1 t) (q2 := fun t => s2 t - f2 t) (hx i (by omega))
      (fun t h1 h2 => (hs.d1 t (hin i (by omega) t h1 h2).1 (hin i (by omega) t h1 h2).2).sub (hf1 t (hin i (by omega) t h1 h2).1 (hin i (by omega) t h1 h2).2))
      (fun t h1 h2 => (hs.d2 t (hin i (by omega) t h1 h2).1 (hin i (by omega) t h1 h2).2).sub (hf2 t (hin i (by omega) t h1 h2).1 (hin i (by omega) t h1 h2).2)) (hlin i (by omega))
    have b := expand_right (q := fun t => s t - f t) (q1 := fun t => s1 t - f1 t) (q2 := fun t => s2 t - f2 t) (hx (i + 1) hi)
      (fun t h1 h2 => (hs.d1 t (hin (i + 1) hi t h1 h2).1 (hin (i + 1) hi t h1 h2).2).sub (hf1 t (hin (i + 1) hi t h1 h2).1 (hin (i + 1) hi t h1 h2).2))
      (fun t h1 h2 => (hs.d2 t (hin (i + 1) hi t h1 h2).1 (hin (i + 1) hi t h1 h2).2).sub (hf2 t (hin (i + 1) hi t h1 h2).1 (hin (i + 1) hi t h1 h2).2)) (hlin (i + 1) hi)
    have v0 : s (x i) - f (x i) = 0 := sub_eq_zero.2 (hval i (by omega))
    have v1 : s (x (i + 1)) - f (x (i + 1)) = 0 := sub_eq_zero.2 (hval (i + 1) (by omega))
    have v2 : s (x (i + 1 + 1)) - f (x (i + 1 + 1)) = 0 := sub_eq_zero.2 (hval (i + 1 + 1) (by omega))
    simp only [v0, v1, v2] at a b
    have e2 : i + 2 = i + 1 + 1 := rfl
    rw [e2]
    generalize s2 (x i) - f2 (x i) = e0 at *
    generalize s2 (x (i + 1)) - f2 (x (i + 1)) = e1 at *
    generalize s2 (x (i + 1 + 1)) - f2 (x (i + 1 + 1)) = e2 at *
    generalize s1 (x (i + 1)) - f1 (x (i + 1)) = d at *
    generalize x (i + 1) - x i = k0 at *
    generalize x (i + 1 + 1) - x (i + 1) = k1 at *
    have a' : |d - k0 * (2 * e1 + e0) / 6| ≤ G * k0 / 2 := by
      refine le_of_mul_le_mul_left ?_ p0
      rw [← abs_of_pos p0, ← abs_mul, abs_of_pos p0]
      refine le_of_eq_of_le (congrArg _ ?_) (a.trans_eq ?_) <;> ring
    have b' : |-d - k1 * (2 * e1 + e2) / 6| ≤ G * k1 / 2 := by
      refine le_of_mul_le_mul_left ?_ p1
      rw [← abs_of_pos p1, ← abs_mul, abs_of_pos p1]
      refine le_of_eq_of_le (congrArg _ ?_) (b.trans_eq ?_) <;> ring
    rw [abs_le] at a' b' ⊢
    constructor <;> linarith
  have hend : ∀ {A B s0 u0 sa ua sb ub : ℝ}, A * s0 = (B + A) * sa - B * sb → |A * u0 - ((B + A) * ua - B * ub)| ≤ ρ * A → |A * (s0 - u0) - ((B + A) * (sa - ua) - B * (sb - ub))| ≤ ρ * A := by
    intro A B s0 u0 sa ua sb ub h1 h2
    rw [abs_sub_comm] at h2
    refine le_of_eq_of_le (congrArg _ ?_) h2
    linarith
  have hstab := stability hn (h := fun i => x (i + 1) - x i) (e := fun i => s2 (x i) - f2 (x i)) (R := 3 * G) (ρ := ρ) (fun i hi => sub_pos.2 (hx i hi)) hρ hrows (hend hs.left hl) (by
    have h := hend hs.right hr
    have e1 : n - 2 + 1 = n - 1 := by omega
    have e2 : n - 1 + 1 = n := by omega
    simp only [e1, e2]
    exact h)
  have hE0 : 0 ≤ 3 * G + ρ := by positivity
  have hends : ∀ {A B e0 e1 e2 : ℝ}, 0 < A → 0 < B → B ≤ κ * A → |A * e0 - ((B + A) * e1 - B * e2)| ≤ ρ * A → |e1| ≤ 3 * G + ρ → |e2| ≤ 3 * G + ρ → |e0| ≤ (1 + 2 * κ) * (3 * G + ρ) + ρ := by
    intro A B e0 e1 e2 pA pB hBA h h1 h2
    refine le_of_mul_le_mul_left ?_ pA
    rw [← abs_of_pos pA, ← abs_mul, abs_of_pos pA]
    have : |A * e0| ≤ ρ * A + ((B + A) * (3 * G + ρ) + B * (3 * G + ρ)) := by
      rw [show A * e0 = (A * e0 - ((B + A) * e1 - B * e2)) + ((B + A) * e1 - B * e2) by ring]
      refine (abs_add_le _ _).trans (add_le_add h ((abs_sub _ _).trans ?_))
      rw [abs_mul, abs_mul B, abs_of_pos (by positivity : 0 < B + A), abs_of_pos pB]
      have := mul_le_mul_of_nonneg_left h1 (by positivity : 0 ≤ B + A)
      have := mul_le_mul_of_nonneg_left h2 pB.le
      linarith
    have := mul_le_mul_of_nonneg_right hBA hE0
    nlinarith
  have hall : ∀ i, i ≤ n → |s2 (x i) - f2 (x i)| ≤ (1 + 2 * κ) * (3 * G + ρ) + ρ := by
    intro i hi
    rcases Nat.eq_zero_or_pos i with rfl | h0
    · exact hends (sub_pos.2 (hx 1 (by omega))) (sub_pos.2 (hx 0 (by omega))) hk (hend hs.left hl) (hstab 1 (by omega) (by omega)) (hstab 2 (by omega) (by omega))
    rcases Nat.lt_or_ge i n with h1 | h1
    · refine (hstab i h0 h1).trans ?_
      nlinarith [mul_nonneg hκ hE0]
    · obtain rfl : i = n := by omega
      have p1 := hx (i - 2) (by omega)
      have p0 := hx (i - 1) (by omega)
      rw [show i - 2 + 1 = i - 1 by omega] at p1
      rw [show i - 1 + 1 = i by omega] at p0
      exact hends (sub_pos.2 p1) (sub_pos.2 p0) hk' (hend hs.right hr) (hstab _ (by omega) (by omega)) (hstab _ (by omega) (by omega))
  have hs2 : ∀ i, i < n → ∀ t, x i ≤ t → t ≤ x (i + 1) → |s2 t - f2 t| ≤ (1 + 2 * κ) * (3 * G + ρ) + ρ + G := by
    intro i hi t h1 h2
    rw [show s2 t - f2 t = lin (x i) (x (i + 1)) (s2 (x i) - f2 (x i)) (s2 (x (i + 1)) - f2 (x (i + 1))) t + ((s2 t - f2 t) - lin (x i) (x (i + 1)) (s2 (x i) - f2 (x i)) (s2 (x (i + 1)) - f2 (x (i + 1))) t) by ring]
    exact (abs_add_le _ _).trans (add_le_add (lin_le (hx i hi) h1 h2 (hall i (by omega)) (hall (i + 1) (by omega))) (hlin i hi t h1 h2))
  obtain ⟨i, hi, h1, h2⟩ := exists_interval ht ht' (by omega)
  have hz := two_zeros (g := fun t => s t - f t) (g1 := fun t => s1 t - f1 t) (g2 := fun t => s2 t - f2 t) (hx i hi)
    (fun t h1 h2 => (hs.d1 t (hin i hi t h1 h2).1 (hin i hi t h1 h2).2).sub (hf1 t (hin i hi t h1 h2).1 (hin i hi t h1 h2).2))
    (fun t h1 h2 => (hs.d2 t (hin i hi t h1 h2).1 (hin i hi t h1 h2).2).sub (hf2 t (hin i hi t h1 h2).1 (hin i hi t h1 h2).2))
    (sub_eq_zero.2 (hval i (by omega))) (sub_eq_zero.2 (hval (i + 1) (by omega))) (hs2 i hi) h1 h2
  have hK : 0 ≤ (1 + 2 * κ) * (3 * G + ρ) + ρ + G := by positivity
  have hp := sub_pos.2 (hx i hi)
  refine ⟨hs2 i hi t h1 h2, hz.1.trans (mul_le_mul_of_nonneg_left (hh i hi) hK), hz.2.1.trans ?_⟩
  rw [mul_assoc]
  refine mul_le_mul_of_nonneg_left ?_ hK
  have a1 := hh i hi
  rw [pow_two]
  exact mul_le_mul a1 (by linarith) (by linarith) (by linarith)

end Traceon.CubicSpline
