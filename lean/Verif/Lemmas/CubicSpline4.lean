import Verif.Lemmas.CubicSpline3
import Mathlib.Analysis.Calculus.Deriv.Inverse
import Mathlib.Analysis.Calculus.Deriv.Inv
import Mathlib.Analysis.Calculus.Deriv.MeanValue
import Mathlib.MeasureTheory.Integral.IntervalIntegral.FundThmCalculus

/-!
# Cubic splines: the influence of the data, and the inverse of an increasing function
-/
namespace Traceon.CubicSpline

theorem IsSpline.sub {x : ℕ → ℝ} {n : ℕ} {s s1 s2 q q1 q2 : ℝ → ℝ} (hs : IsSpline x n s s1 s2) (hq : IsSpline x n q q1 q2) :
    IsSpline x n (fun t => s t - q t) (fun t => s1 t - q1 t) (fun t => s2 t - q2 t) where
  d1 t h1 h2 := (hs.d1 t h1 h2).sub (hq.d1 t h1 h2)
  d2 t h1 h2 := (hs.d2 t h1 h2).sub (hq.d2 t h1 h2)
  linear i hi t h1 h2 := by rw [← lin_sub, ← hs.linear i hi t h1 h2, ← hq.linear i hi t h1 h2]
  left := by
    have := hs.left; have := hq.left
    linarith
  right := by
    have := hs.right; have := hq.right
    linarith

/-- With equal distances, a spline with small values at the knots is small. -/
theorem perturb {x : ℕ → ℝ} {n : ℕ} (hn : 3 ≤ n) {h : ℝ} (hh0 : 0 < h) (hh : ∀ i, i < n → x (i + 1) - x i = h) {s s1 s2 : ℝ → ℝ} (hs : IsSpline x n s s1 s2) {ν : ℝ} (hν : ∀ i, i ≤ n → |s (x i)| ≤ ν) {t : ℝ}
    (ht : x 0 ≤ t) (ht' : t ≤ x n) : |s1 t| ≤ 38 * ν / h ∧ |s t| ≤ 37 * ν := by
  have hx : ∀ i, i < n → x i < x (i + 1) := fun i hi => by have := hh i hi; linarith
  have hν0 : 0 ≤ ν := (abs_nonneg _).trans (hν 0 (by omega))
  have hin : ∀ i, i < n → ∀ t, x i ≤ t → t ≤ x (i + 1) → x 0 ≤ t ∧ t ≤ x n := fun i hi t h1 h2 =>
    ⟨(knots_mono hx (Nat.zero_le i) (by omega)).trans h1, h2.trans (knots_mono hx (by omega) le_rfl)⟩
  have hlin : ∀ i, i < n → ∀ t, x i ≤ t → t ≤ x (i + 1) → |s2 t - lin (x i) (x (i + 1)) (s2 (x i)) (s2 (x (i + 1))) t| ≤ 0 := by
    intro i hi t h1 h2
    rw [hs.linear i hi t h1 h2, sub_self, abs_zero]
  have hrows : ∀ i, i + 1 < n → |(x (i + 1) - x i) * s2 (x i) + 2 * ((x (i + 1) - x i) + (x (i + 1 + 1) - x (i + 1))) * s2 (x (i + 1)) + (x (i + 1 + 1) - x (i + 1)) * s2 (x (i + 2))| ≤
      12 * ν / h ^ 2 * ((x (i + 1) - x i) + (x (i + 1 + 1) - x (i + 1))) := by
    intro i hi
    have a := expand_left (q := s) (q1 := s1) (q2 := s2) (hx i (by omega)) (fun t h1 h2 => hs.d1 t (hin i (by omega) t h1 h2).1 (hin i (by omega) t h1 h2).2)
      (fun t h1 h2 => hs.d2 t (hin i (by omega) t h1 h2).1 (hin i (by omega) t h1 h2).2) (hlin i (by omega))
    have b := expand_right (q := s) (q1 := s1) (q2 := s2) (hx (i + 1) hi) (fun t h1 h2 => hs.d1 t (hin (i + 1) hi t h1 h2).1 (hin (i + 1) hi t h1 h2).2)
      (fun t h1 h2 => hs.d2 t (hin (i + 1) hi t h1 h2).1 (hin (i + 1) hi t h1 h2).2) (hlin (i + 1) hi)
    have v0 := hν i (by omega)
    have v1 := hν (i + 1) (by omega)
    have v2 := hν (i + 1 + 1) (by omega)
    have e2 : i + 2 = i + 1 + 1 := rfl
    rw [e2]
    rw [hh i (by omega)] at a ⊢
    rw [hh (i + 1) hi] at b ⊢
    generalize s2 (x i) = e0 at *
    generalize s2 (x (i + 1)) = e1 at *
    generalize s2 (x (i + 1 + 1)) = e2 at *
    generalize s (x i) = w0 at *
    generalize s (x (i + 1)) = w1 at *
    generalize s (x (i + 1 + 1)) = w2 at *
    generalize s1 (x (i + 1)) = d at *
    have a' := abs_nonpos_iff.1 (a.trans_eq (by ring))
    have b' := abs_nonpos_iff.1 (b.trans_eq (by ring))
    have e : h * e0 + 2 * (h + h) * e1 + h * e2 = 6 * (w0 - 2 * w1 + w2) / h := by
      field_simp
      linear_combination -6 * a' - 6 * b'
    rw [e, show 12 * ν / h ^ 2 * (h + h) = 24 * ν / h by field_simp; ring, abs_div, abs_of_pos hh0]
    refine div_le_div_of_nonneg_right ?_ hh0.le
    rw [abs_le] at v0 v1 v2 ⊢
    constructor <;> linarith
  have hR : 0 ≤ 12 * ν / h ^ 2 := by positivity
  have hstab := stability hn (h := fun i => x (i + 1) - x i) (e := fun i => s2 (x i)) (R := 12 * ν / h ^ 2) (ρ := 0) (fun i hi => sub_pos.2 (hx i hi)) le_rfl hrows
    (by rw [show x (0 + 1) = x 1 from rfl, show x (1 + 1) = x 2 from rfl, hs.left, sub_self]; simp) (by
      have e1 : n - 2 + 1 = n - 1 := by omega
      have e2 : n - 1 + 1 = n := by omega
      simp only [e1, e2]
      rw [hs.right, sub_self]; simp)
  have hall : ∀ i, i ≤ n → |s2 (x i)| ≤ 36 * ν / h ^ 2 := by
    intro i hi
    have e36 : 36 * ν / h ^ 2 = 3 * (12 * ν / h ^ 2) := by ring
    rw [e36]
    rcases Nat.eq_zero_or_pos i with rfl | h0
    · have l := hs.left
      have q0 := hh 0 (by omega)
      have q1 := hh 1 (by omega)
      rw [show x (0 + 1) = x 1 from rfl] at q0
      rw [show x (1 + 1) = x 2 from rfl] at q1
      rw [q0, q1] at l
      have l' : s2 (x 0) = 2 * s2 (x 1) - s2 (x 2) := mul_left_cancel₀ hh0.ne' (by linarith)
      have a := hstab 1 (by omega) (by omega)
      have b := hstab 2 (by omega) (by omega)
      simp only [add_zero] at a b
      rw [l']
      rw [abs_le] at a b ⊢
      constructor <;> linarith
    rcases Nat.lt_or_ge i n with h1 | h1
    · have a := hstab i h0 h1
      simp only [add_zero] at a
      linarith
    · obtain rfl : i = n := by omega
      have l := hs.right
      have q0 := hh (i - 1) (by omega)
      have q1 := hh (i - 2) (by omega)
      rw [show i - 1 + 1 = i by omega] at q0
      rw [show i - 2 + 1 = i - 1 by omega] at q1
      rw [q0, q1] at l
      have l' : s2 (x i) = 2 * s2 (x (i - 1)) - s2 (x (i - 2)) := mul_left_cancel₀ hh0.ne' (by linarith)
      have a := hstab (i - 1) (by omega) (by omega)
      have b := hstab (i - 2) (by omega) (by omega)
      simp only [add_zero] at a b
      rw [l']
      rw [abs_le] at a b ⊢
      constructor <;> linarith
  obtain ⟨i, hi, h1, h2⟩ := exists_interval ht ht' (by omega)
  have hb := hh i hi
  have hz := two_zeros (g := fun t => s t - lin (x i) (x (i + 1)) (s (x i)) (s (x (i + 1))) t) (g1 := fun t => s1 t - (s (x (i + 1)) - s (x i)) / (x (i + 1) - x i)) (g2 := s2) (C := 36 * ν / h ^ 2) (hx i hi)
    (fun t a b => (hs.d1 t (hin i hi t a b).1 (hin i hi t a b).2).sub (hasDerivAt_lin _ _ _ _ t))
    (fun t a b => by simpa using (hs.d2 t (hin i hi t a b).1 (hin i hi t a b).2).sub_const ((s (x (i + 1)) - s (x i)) / (x (i + 1) - x i)))
    (by rw [lin_left, sub_self]) (by rw [lin_right (hx i hi), sub_self])
    (fun t a b => by rw [hs.linear i hi t a b]; exact lin_le (hx i hi) a b (hall i (by omega)) (hall (i + 1) (by omega))) h1 h2
  have hl := lin_le (hx i hi) h1 h2 (hν i (by omega)) (hν (i + 1) (by omega))
  have v0 := hν i (by omega)
  have v1 := hν (i + 1) (by omega)
  constructor
  · have z1 := hz.1
    rw [hb, show 36 * ν / h ^ 2 * h = 36 * ν / h by field_simp] at z1
    have d : |(s (x (i + 1)) - s (x i)) / h| ≤ 2 * ν / h := by
      rw [abs_div, abs_of_pos hh0]
      refine div_le_div_of_nonneg_right ?_ hh0.le
      rw [abs_le] at v0 v1 ⊢
      constructor <;> linarith
    have e : 38 * ν / h = 36 * ν / h + 2 * ν / h := by ring
    rw [e]
    rw [abs_le] at z1 d ⊢
    constructor <;> linarith
  · have z2 := hz.2.1
    have h0 : 0 ≤ 36 * ν / h ^ 2 := by positivity
    have : 36 * ν / h ^ 2 * (x (i + 1) - x i) * (t - x i) ≤ 36 * ν := by
      calc _ ≤ 36 * ν / h ^ 2 * h * h := by
            rw [hb]
            exact mul_le_mul_of_nonneg_left (by linarith) (by positivity)
        _ = 36 * ν := by field_simp
    have z := z2.trans this
    rw [abs_le] at z hl ⊢
    constructor <;> linarith

/-- The inverse of the antiderivative of a positive function, and its derivatives. -/
theorem exists_inverse {S S1 : ℝ → ℝ} (hS : Continuous S) (hS1 : ∀ t, 0 ≤ t → t ≤ 1 → HasDerivAt S (S1 t) t) (hpos : ∀ t, 0 ≤ t → t ≤ 1 → 0 < S t) :
    ∃ Λ : ℝ → ℝ, ∀ y, 0 ≤ y → y ≤ ∫ x in (0 : ℝ)..1, S x → (0 ≤ Λ y ∧ Λ y ≤ 1 ∧ ∫ x in (0 : ℝ)..Λ y, S x = y) ∧ HasDerivAt Λ (1 / S (Λ y)) y ∧ HasDerivAt (fun y => 1 / S (Λ y)) (-(S1 (Λ y)) / S (Λ y) ^ 3) y := by
  set P : ℝ → ℝ := fun t => ∫ x in (0 : ℝ)..t, S x with hP
  have hPd : ∀ t, HasDerivAt P (S t) t := fun t => intervalIntegral.integral_hasDerivAt_right (hS.intervalIntegrable _ _) (hS.stronglyMeasurableAtFilter _ _) hS.continuousAt
  have hPc : Continuous P := continuous_iff_continuousAt.2 fun t => (hPd t).continuousAt
  -- a larger interval
  obtain ⟨ε, hε, hpos'⟩ : ∃ ε : ℝ, 0 < ε ∧ ∀ t, -ε ≤ t → t ≤ 1 + ε → 0 < S t := by
    have h0 := Metric.eventually_nhds_iff.1 (hS.continuousAt.eventually (lt_mem_nhds (hpos 0 le_rfl zero_le_one)))
    have h1 := Metric.eventually_nhds_iff.1 (hS.continuousAt.eventually (lt_mem_nhds (hpos 1 zero_le_one le_rfl)))
    obtain ⟨a, ha, h0⟩ := h0
    obtain ⟨b, hb, h1⟩ := h1
    refine ⟨min a b / 2, by positivity, fun t ht ht' => ?_⟩
    have m1 := min_le_left a b
    have m2 := min_le_right a b
    have m0 : 0 < min a b := lt_min ha hb
    rcases lt_or_ge t 0 with h | h
    · exact h0 (by rw [Real.dist_eq, sub_zero, abs_of_neg h]; linarith)
    rcases le_or_gt t 1 with h' | h'
    · exact hpos t h h'
    · exact h1 (by rw [Real.dist_eq, abs_of_pos (by linarith)]; linarith)
  obtain ⟨c, hc, hmin⟩ := (isCompact_Icc (a := -ε) (b := 1 + ε)).exists_isMinOn ⟨0, by constructor <;> linarith⟩ hS.continuousOn
  set m := S c with hm
  have hm0 : 0 < m := hpos' c hc.1 hc.2
  have hslope : ∀ a b, -ε ≤ a → a ≤ b → b ≤ 1 + ε → m * (b - a) ≤ P b - P a := by
    intro a b ha hab hb
    rcases hab.eq_or_lt with rfl | hab
    · simp
    obtain ⟨ξ, hξ, h⟩ := exists_hasDerivAt_eq_slope P S hab hPc.continuousOn (fun x _ => hPd x)
    have hmξ : m ≤ S ξ := hmin ⟨by linarith [hξ.1], by linarith [hξ.2]⟩
    rw [h, le_div_iff₀ (sub_pos.2 hab)] at hmξ
    exact hmξ
  have hP0 : P 0 = 0 := by simp [hP]
  have hsurj : ∀ y, P (-ε) ≤ y → y ≤ P (1 + ε) → ∃ t, (-ε ≤ t ∧ t ≤ 1 + ε) ∧ P t = y := by
    intro y h1 h2
    obtain ⟨t, ht, he⟩ := intermediate_value_Icc (show -ε ≤ 1 + ε by linarith) hPc.continuousOn ⟨h1, h2⟩
    exact ⟨t, ht, he⟩
  classical
  let Λ : ℝ → ℝ := fun y => if h : ∃ t, (-ε ≤ t ∧ t ≤ 1 + ε) ∧ P t = y then h.choose else 0
  have hΛ : ∀ y, P (-ε) ≤ y → y ≤ P (1 + ε) → (-ε ≤ Λ y ∧ Λ y ≤ 1 + ε) ∧ P (Λ y) = y := by
    intro y h1 h2
    have h := hsurj y h1 h2
    simp only [Λ, dif_pos h]
    exact h.choose_spec
  have hε0 : P (-ε) < 0 := by
    have := hslope (-ε) 0 le_rfl (by linarith) (by linarith)
    rw [hP0] at this
    nlinarith
  have hε1 : P 1 < P (1 + ε) := by
    have := hslope 1 (1 + ε) (by linarith) (by linarith) le_rfl
    nlinarith
  have hlip : ∀ y z, P (-ε) ≤ y → y ≤ P (1 + ε) → P (-ε) ≤ z → z ≤ P (1 + ε) → |Λ y - Λ z| ≤ |y - z| / m := by
    intro y z a1 a2 b1 b2
    obtain ⟨⟨u1, u2⟩, u⟩ := hΛ y a1 a2
    obtain ⟨⟨w1, w2⟩, w⟩ := hΛ z b1 b2
    rw [le_div_iff₀ hm0]
    rcases le_total (Λ y) (Λ z) with h | h
    · have := hslope _ _ u1 h w2
      rw [u, w] at this
      rw [abs_sub_comm, abs_of_nonneg (by linarith), abs_sub_comm]
      exact (by linarith : (Λ z - Λ y) * m ≤ z - y).trans (le_abs_self _)
    · have := hslope _ _ w1 h u2
      rw [u, w] at this
      rw [abs_of_nonneg (by linarith)]
      exact (by linarith : (Λ y - Λ z) * m ≤ y - z).trans (le_abs_self _)
  refine ⟨Λ, fun y hy0 hy1 => ?_⟩
  change y ≤ P 1 at hy1
  obtain ⟨⟨u1, u2⟩, u⟩ := hΛ y (by linarith) (by linarith)
  have hl0 : 0 ≤ Λ y := by
    by_contra hn
    push Not at hn
    have := hslope _ _ u1 hn.le (by linarith)
    rw [u, hP0] at this
    nlinarith
  have hl1 : Λ y ≤ 1 := by
    by_contra hn
    push Not at hn
    have := hslope _ _ (by linarith) hn.le u2
    rw [u] at this
    nlinarith
  have hmem : ∀ᶠ z in nhds y, P (-ε) ≤ z ∧ z ≤ P (1 + ε) := by
    filter_upwards [Ioo_mem_nhds (show P (-ε) < y by linarith) (show y < P (1 + ε) by linarith)] with z hz using ⟨hz.1.le, hz.2.le⟩
  have hcont : ContinuousAt Λ y := by
    rw [Metric.continuousAt_iff']
    intro δ hδ
    filter_upwards [hmem, Metric.ball_mem_nhds y (show 0 < δ * m by positivity)] with z hz hz'
    rw [Real.dist_eq]
    refine (hlip z y hz.1 hz.2 (by linarith) (by linarith)).trans_lt ?_
    rw [div_lt_iff₀ hm0]
    exact hz'
  have hSp := hpos _ hl0 hl1
  have hd : HasDerivAt Λ (1 / S (Λ y)) y := by
    rw [one_div]
    exact HasDerivAt.of_local_left_inverse hcont (hPd (Λ y)) hSp.ne' (hmem.mono fun z hz => (hΛ z hz.1 hz.2).2)
  refine ⟨⟨hl0, hl1, u⟩, hd, ?_⟩
  have h2 := ((hS1 _ hl0 hl1).comp y hd).fun_inv hSp.ne'
  have e : (fun y => 1 / S (Λ y)) = fun y => ((S ∘ Λ) y)⁻¹ := by funext y; simp
  rw [e]
  refine h2.congr_deriv ?_
  simp only [Function.comp]
  field_simp

end Traceon.CubicSpline
