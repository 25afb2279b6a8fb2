import Verif.Lemmas.Chebyshev
import Mathlib.Analysis.Complex.ExponentialBounds

/-!
# C56: the accuracy of the adaptive integration for functions that are close to polynomials
-/
namespace Traceon
open Spec Finset MeasureTheory

/-! ## The moments of the Chebyshev polynomials -/

/-- The value of the Chebyshev polynomials of degree `n` and `n + 1`, over the rationals -/
def chbPair (x : ℚ) : ℕ → ℚ × ℚ
  | 0 => (1, x)
  | n + 1 => ((chbPair x n).2, 2 * x * (chbPair x n).2 - (chbPair x n).1)

theorem chbPair_eq (x : ℚ) : ∀ n, ((chbPair x n).1 : ℝ) = chb n x ∧ ((chbPair x n).2 : ℝ) = chb (n + 1) x
  | 0 => by simp [chbPair, chb]
  | n + 1 => by
    obtain ⟨h1, h2⟩ := chbPair_eq x n
    refine ⟨h2, ?_⟩
    simp only [chbPair]
    push_cast
    rw [h1, h2]
    simp only [chb]

/-- The weights and nodes of the Kronrod rule, both signs -/
def k15Q : List (ℚ × ℚ) :=
  [(209482141084728 / 1000000000000000, 0),
   (204432940075299 / 1000000000000000, 207784955007898 / 1000000000000000), (204432940075299 / 1000000000000000, -207784955007898 / 1000000000000000),
   (190350578064785 / 1000000000000000, 405845151377397 / 1000000000000000), (190350578064785 / 1000000000000000, -405845151377397 / 1000000000000000),
   (169004726639268 / 1000000000000000, 586087235467691 / 1000000000000000), (169004726639268 / 1000000000000000, -586087235467691 / 1000000000000000),
   (140653259715526 / 1000000000000000, 741531185599394 / 1000000000000000), (140653259715526 / 1000000000000000, -741531185599394 / 1000000000000000),
   (104790010322250 / 1000000000000000, 864864423359769 / 1000000000000000), (104790010322250 / 1000000000000000, -864864423359769 / 1000000000000000),
   (63092092629979 / 1000000000000000, 949107912342759 / 1000000000000000), (63092092629979 / 1000000000000000, -949107912342759 / 1000000000000000),
   (22935322010529 / 1000000000000000, 991455371120813 / 1000000000000000), (22935322010529 / 1000000000000000, -991455371120813 / 1000000000000000)]

theorem k15_sum (f : ℝ → ℝ) : intervalRule k15Table f (-1) 1 = (k15Q.map fun w => (w.1 : ℝ) * f (w.2 : ℝ)).sum := by
  simp only [intervalRule, k15Table, List.foldl, k15Q, List.map, List.sum_cons, List.sum_nil]
  have e1 : ((-1 : ℝ) + 1) / 2 = 0 := by norm_num
  have e2 : ((1 : ℝ) - -1) / 2 = 1 := by norm_num
  rw [e1, e2]
  simp only [one_mul, zero_sub, zero_add]
  push_cast
  norm_num
  ring

/-- The integral of a Chebyshev polynomial -/
def chbInt (n : ℕ) : ℚ := if n % 2 = 1 then 0 else 2 / (1 - n * n)

theorem integral_sin_mul (m : ℤ) (hm : m ≠ 0) : ∫ θ in (0 : ℝ)..Real.pi, Real.sin (m * θ) = (1 - (-1) ^ m) / m := by
  have hm' : (m : ℝ) ≠ 0 := by exact_mod_cast hm
  rw [intervalIntegral.integral_comp_mul_left (fun x => Real.sin x) hm', integral_sin]
  simp only [mul_zero, Real.cos_zero, smul_eq_mul]
  rw [Real.cos_int_mul_pi]
  field_simp

theorem integral_chb (n : ℕ) : ∫ x in (-1 : ℝ)..1, chb n x = chbInt n := by
  have hsub : ∫ x in (-1 : ℝ)..1, chb n x = ∫ θ in (0 : ℝ)..Real.pi, Real.cos (n * θ) * Real.sin θ := by
    have := intervalIntegral.integral_comp_mul_deriv (a := 0) (b := Real.pi) (f := Real.cos) (f' := fun θ => -Real.sin θ) (g := chb n) (fun θ _ => Real.hasDerivAt_cos θ)
      (by fun_prop) (chb_continuous n)
    rw [Real.cos_zero, Real.cos_pi] at this
    rw [intervalIntegral.integral_symm 1 (-1), ← this, ← intervalIntegral.integral_neg]
    refine intervalIntegral.integral_congr fun θ _ => ?_
    simp only [Function.comp_apply, chb_cos]
    ring
  rw [hsub]
  have e : ∀ θ : ℝ, Real.cos (n * θ) * Real.sin θ = 1 / 2 * Real.sin (((n + 1 : ℤ) : ℝ) * θ) - 1 / 2 * Real.sin (((n - 1 : ℤ) : ℝ) * θ) := by
    intro θ
    have e1 : ((n + 1 : ℤ) : ℝ) * θ = n * θ + θ := by push_cast; ring
    have e2 : ((n - 1 : ℤ) : ℝ) * θ = n * θ - θ := by push_cast; ring
    rw [e1, e2, Real.sin_add, Real.sin_sub]
    ring
  simp only [e]
  rw [intervalIntegral.integral_sub (Continuous.intervalIntegrable (by fun_prop) _ _) (Continuous.intervalIntegrable (by fun_prop) _ _),
    intervalIntegral.integral_const_mul, intervalIntegral.integral_const_mul, integral_sin_mul _ (by omega)]
  unfold chbInt
  by_cases h1 : n = 1
  · subst h1
    norm_num
  · have hn1 : (n - 1 : ℝ) ≠ 0 := by
      intro h
      exact h1 (by exact_mod_cast (sub_eq_zero.1 h))
    have hn2 : (n + 1 : ℝ) ≠ 0 := by positivity
    rw [integral_sin_mul _ (by omega)]
    rcases Nat.even_or_odd n with h | h
    · rw [if_neg (by rw [Nat.even_iff] at h; omega)]
      have o1 : Odd (n + 1 : ℤ) := by have : Even (n : ℤ) := by exact_mod_cast h
                                      exact this.add_one
      have o2 : Odd (n - 1 : ℤ) := by have : Even (n : ℤ) := by exact_mod_cast h
                                      exact this.sub_odd odd_one
      rw [o1.neg_one_zpow, o2.neg_one_zpow]
      push_cast
      have : (1 - (n : ℝ) * n) ≠ 0 := by
        have : (1 - (n : ℝ) * n) = -((n - 1) * (n + 1)) := by ring
        rw [this]
        exact neg_ne_zero.2 (mul_ne_zero hn1 hn2)
      rw [show (1 : ℝ) - n * n = -((n - 1) * (n + 1)) by ring]
      field_simp
      ring
    · rw [if_pos (by rw [Nat.odd_iff] at h; omega)]
      have o1 : Even (n + 1 : ℤ) := by have : Odd (n : ℤ) := by exact_mod_cast h
                                       exact this.add_odd odd_one
      have o2 : Even (n - 1 : ℤ) := by have : Odd (n : ℤ) := by exact_mod_cast h
                                       exact this.sub_odd odd_one
      rw [o1.neg_one_zpow, o2.neg_one_zpow]
      simp

/-- The error of the rule for a Chebyshev polynomial -/
def chbErrQ (n : ℕ) : ℚ := (k15Q.map fun w => w.1 * (chbPair w.2 n).1).sum - chbInt n

theorem chbErr_eq (n : ℕ) : intervalRule k15Table (chb n) (-1) 1 - ∫ x in (-1 : ℝ)..1, chb n x = (chbErrQ n : ℝ) := by
  rw [k15_sum, integral_chb]
  unfold chbErrQ
  push_cast
  congr 1
  generalize k15Q = l
  induction l with
  | nil => simp
  | cons a l ih =>
    simp only [List.map_cons, List.sum_cons]
    push_cast
    rw [ih, (chbPair_eq a.2 n).1]

theorem chbErr_total : ∑ n ∈ range 24, |chbErrQ n| ≤ 23 / 1000000000000000 := by
  decide +kernel

/-! ## Polynomials and functions close to them -/

/-- The values of the function on the interval bound those of the rule. -/
theorem k15_abs_le {f : ℝ → ℝ} {s e ε : ℝ} (hse : s ≤ e) (h : ∀ x ∈ Set.Icc s e, |f x| ≤ ε) : |intervalRule k15Table f s e| ≤ (e - s) * ε := by
  rw [intervalRule_subst, abs_mul, abs_of_nonneg (by linarith : 0 ≤ (e - s) / 2), k15_sum]
  have hb : ∀ l : List (ℚ × ℚ), (∀ w ∈ l, 0 ≤ w.1 ∧ -1 ≤ w.2 ∧ w.2 ≤ 1) →
      |(l.map fun w => (w.1 : ℝ) * f ((s + e) / 2 + (e - s) / 2 * (w.2 : ℝ))).sum| ≤ ((l.map fun w => w.1).sum : ℚ) * ε := by
    intro l
    induction l with
    | nil => intro _; simp
    | cons w l ih =>
      intro hl
      obtain ⟨h1, h2, h3⟩ := hl w (by simp)
      have h1' : (0 : ℝ) ≤ w.1 := by exact_mod_cast h1
      have h2' : (-1 : ℝ) ≤ w.2 := by exact_mod_cast h2
      have h3' : (w.2 : ℝ) ≤ 1 := by exact_mod_cast h3
      simp only [List.map_cons, List.sum_cons]
      push_cast
      refine (abs_add_le _ _).trans ?_
      rw [add_mul]
      refine add_le_add ?_ (by simpa using ih fun w hw => hl w (by simp [hw]))
      rw [abs_mul, abs_of_nonneg h1']
      refine mul_le_mul_of_nonneg_left (h _ ⟨?_, ?_⟩) h1' <;> nlinarith
  have hq : ∀ w ∈ k15Q, 0 ≤ w.1 ∧ -1 ≤ w.2 ∧ w.2 ≤ 1 := by decide +kernel
  have hs : (k15Q.map fun w => w.1).sum = 2 := by decide +kernel
  have := hb k15Q hq
  rw [hs] at this
  have h0 : 0 ≤ (e - s) / 2 := by linarith
  calc _ ≤ (e - s) / 2 * (((2 : ℚ) : ℝ) * ε) := mul_le_mul_of_nonneg_left this h0
    _ = (e - s) * ε := by push_cast; ring

/-- The error of the rule for a polynomial of degree at most 23 that is bounded on the interval. -/
theorem k15_bounded {s e B : ℝ} (hse : s ≤ e) (p : Polynomial ℝ) (hdeg : p.natDegree ≤ 23) (hB : ∀ x ∈ Set.Icc s e, |p.eval x| ≤ B) :
    |intervalRule k15Table (fun x => p.eval x) s e - ∫ x in s..e, p.eval x| ≤ 2.3e-14 * (e - s) * B := by
  rw [intervalRule_subst, integral_subst (fun x => p.eval x), ← mul_sub, abs_mul, abs_of_nonneg (by linarith : 0 ≤ (e - s) / 2)]
  -- the polynomial on [-1, 1]
  obtain ⟨c, hc⟩ := ChbSpan.polynomial (N := 24) (p.comp (Polynomial.C ((s + e) / 2) + Polynomial.C ((e - s) / 2) * Polynomial.X)) (by
    refine lt_of_le_of_lt Polynomial.natDegree_comp_le ?_
    have : (Polynomial.C ((s + e) / 2) + Polynomial.C ((e - s) / 2) * Polynomial.X).natDegree ≤ 1 := by
      rw [add_comm]; exact Polynomial.natDegree_linear_le
    calc _ ≤ 23 * 1 := Nat.mul_le_mul hdeg this
      _ < 24 := by norm_num)
  have hc' : ∀ t, p.eval ((s + e) / 2 + (e - s) / 2 * t) = ∑ k ∈ range 24, c k * chb k t := by
    intro t
    rw [← hc t]
    simp [Polynomial.eval_comp]
  have hcoef : ∀ k < 24, |c k| ≤ 2 * B := fun k hk => chb_coeff (N := 24) (fun t ht => by
    rw [← hc' t]
    exact hB _ ⟨by nlinarith [ht.1, ht.2], by nlinarith [ht.1, ht.2]⟩) hk
  have hci : ∀ i, IntervalIntegrable (fun t => c i * chb i t) volume (-1) 1 := fun i => (continuous_const.mul (chb_continuous i)).intervalIntegrable _ _
  simp only [hc']
  rw [intervalRule_sum, intervalIntegral.integral_finsetSum (f := fun k t => c k * chb k t) (fun i _ => hci i), ← sum_sub_distrib]
  have hB0 : 0 ≤ B := (abs_nonneg _).trans (hB s ⟨le_rfl, hse⟩)
  have hsum : |∑ k ∈ range 24, (intervalRule k15Table (fun x => c k * chb k x) (-1) 1 - ∫ x in (-1 : ℝ)..1, c k * chb k x)| ≤ 2 * B * (23 / 1000000000000000) := by
    refine (abs_sum_le_sum_abs _ _).trans ?_
    have ht : ((∑ n ∈ range 24, |chbErrQ n| : ℚ) : ℝ) ≤ ((23 / 1000000000000000 : ℚ) : ℝ) := by exact_mod_cast chbErr_total
    push_cast at ht
    calc _ ≤ ∑ k ∈ range 24, 2 * B * |(chbErrQ k : ℝ)| := by
          refine sum_le_sum fun k hk => ?_
          rw [intervalRule_smul, intervalIntegral.integral_const_mul, ← mul_sub, abs_mul, chbErr_eq]
          exact mul_le_mul_of_nonneg_right (hcoef k (mem_range.1 hk)) (abs_nonneg _)
      _ = 2 * B * ∑ k ∈ range 24, |(chbErrQ k : ℝ)| := by rw [mul_sum]
      _ ≤ _ := mul_le_mul_of_nonneg_left ht (by linarith)
  have h0 : 0 ≤ (e - s) / 2 := by linarith
  calc _ ≤ (e - s) / 2 * (2 * B * (23 / 1000000000000000)) := mul_le_mul_of_nonneg_left hsum h0
    _ = _ := by norm_num; ring

theorem sum_map_sub' {α : Type} (l : List α) (f g : α → ℝ) : (l.map f).sum - (l.map g).sum = (l.map fun i => f i - g i).sum := by
  induction l with
  | nil => simp
  | cons a l ih => simp only [List.map_cons, List.sum_cons]; rw [← ih]; ring

theorem sum_map_abs_le {α : Type} (l : List α) (f g : α → ℝ) (h : ∀ i ∈ l, |f i| ≤ g i) : |(l.map f).sum| ≤ (l.map g).sum := by
  induction l with
  | nil => simp
  | cons a l ih =>
    simp only [List.map_cons, List.sum_cons]
    exact (abs_add_le _ _).trans (add_le_add (h a (by simp)) (ih fun i hi => h i (by simp [hi])))

/-- **C56** (accuracy). If a polynomial of degree at most 23 is within `ε` of the integrand, then whatever the tolerances and however the interval is divided, the returned value is within
`(2 ε + 2.3e-14 B) (b - a)` of the integral, `B` being a bound for the polynomial. -/
theorem C56_accuracy {f : ℝ → ℝ} {a b absTol relTol r ε B : ℝ} (hab : a ≤ b) (hf : IntervalIntegrable f volume a b) (p : Polynomial ℝ) (hdeg : p.natDegree ≤ 23)
    (hε : ∀ x ∈ Set.Icc a b, |f x - p.eval x| ≤ ε) (hB : ∀ x ∈ Set.Icc a b, |p.eval x| ≤ B) (h : KronrodReturns f a b absTol relTol r) :
    |r - ∫ x in a..b, f x| ≤ (b - a) * (2 * ε + 2.3e-14 * B) := by
  obtain ⟨xs, hp, -, hr⟩ := C56_partition hab h
  obtain ⟨hint, hlen⟩ := partition_intervals hp
  have h1 : |r - ((intervals xs).map fun i => intervalRule k15Table (fun x => p.eval x) i.1 i.2).sum| ≤ (b - a) * ε := by
    rw [hr, sum_map_sub']
    refine (sum_map_abs_le _ _ (fun i => (i.2 - i.1) * ε) fun i hi => ?_).trans (le_of_eq ?_)
    · obtain ⟨k1, k2, k3⟩ := hint i hi
      have e : intervalRule k15Table f i.1 i.2 - intervalRule k15Table (fun x => p.eval x) i.1 i.2 = intervalRule k15Table (fun x => f x + -1 * p.eval x) i.1 i.2 := by
        rw [intervalRule_add, intervalRule_smul]; ring
      rw [e]
      refine k15_abs_le k2.le fun x hx => ?_
      have := hε x ⟨k1.trans hx.1, hx.2.trans k3⟩
      rwa [show f x + -1 * p.eval x = f x - p.eval x by ring]
    · rw [List.sum_map_mul_right, hlen]
  have h2 : |((intervals xs).map fun i => intervalRule k15Table (fun x => p.eval x) i.1 i.2).sum - ∫ x in a..b, p.eval x| ≤ (b - a) * (2.3e-14 * B) := by
    rw [← partition_integral p.continuous xs a b hp, sum_map_sub']
    refine (sum_map_abs_le _ _ (fun i => (i.2 - i.1) * (2.3e-14 * B)) fun i hi => ?_).trans (le_of_eq ?_)
    · obtain ⟨k1, k2, k3⟩ := hint i hi
      refine (k15_bounded k2.le p hdeg fun x hx => hB x ⟨k1.trans hx.1, hx.2.trans k3⟩).trans (le_of_eq ?_)
      ring
    · rw [List.sum_map_mul_right, hlen]
  have h3 : |(∫ x in a..b, p.eval x) - ∫ x in a..b, f x| ≤ (b - a) * ε := by
    rw [← intervalIntegral.integral_sub (p.continuous.intervalIntegrable _ _) hf]
    have := intervalIntegral.norm_integral_le_of_norm_le_const (a := a) (b := b) (f := fun x => p.eval x - f x) (C := ε) fun x hx => by
      rw [Set.uIoc_of_le hab] at hx
      rw [Real.norm_eq_abs, abs_sub_comm]
      exact hε x ⟨hx.1.le, hx.2⟩
    rw [Real.norm_eq_abs, abs_of_nonneg (by linarith : 0 ≤ b - a), mul_comm] at this
    exact this
  rw [abs_le] at *
  constructor <;> nlinarith [h1.1, h1.2, h2.1, h2.2, h3.1, h3.2]

/-- A case meeting the hypotheses: the exponential function on `[0, 1]`, with any positive absolute tolerance, even one as loose as 1. -/
theorem C56_accuracy_example : ∃ r, KronrodReturns Real.exp 0 1 1 1 r ∧ |r - (Real.exp 1 - 1)| ≤ 1e-13 := by
  obtain ⟨r, hr⟩ := C56_returns (f := Real.exp) (a := 0) (b := 1) (absTol := 1) (relTol := 1) (M := Real.exp 1) one_pos
    (fun x _ h1 => by rw [abs_of_pos (Real.exp_pos x)]; exact Real.exp_le_exp.2 h1)
  refine ⟨r, hr, ?_⟩
  set p : Polynomial ℝ := ∑ m ∈ range 24, Polynomial.C ((m.factorial : ℝ)⁻¹) * Polynomial.X ^ m with hp
  have he : ∀ x, p.eval x = ∑ m ∈ range 24, x ^ m / m.factorial := by
    intro x
    rw [hp, Polynomial.eval_finset_sum]
    refine sum_congr rfl fun m _ => ?_
    rw [Polynomial.eval_mul, Polynomial.eval_C, Polynomial.eval_pow, Polynomial.eval_X, div_eq_mul_inv, mul_comm]
  have hdeg : p.natDegree ≤ 23 := by
    refine Polynomial.natDegree_sum_le_of_forall_le _ _ fun m hm => ?_
    exact (Polynomial.natDegree_C_mul_X_pow_le _ _).trans (by have := mem_range.1 hm; omega)
  have hε : ∀ x ∈ Set.Icc (0 : ℝ) 1, |Real.exp x - p.eval x| ≤ 1e-20 := by
    rintro x ⟨h0, h1⟩
    rw [he]
    have hx : |x| ≤ 1 := by rw [abs_of_nonneg h0]; exact h1
    refine (Real.exp_bound hx (n := 24) (Nat.succ_pos 23)).trans ?_
    have h2 : |x| ^ 24 ≤ 1 := pow_le_one₀ (abs_nonneg _) hx
    have h3 : (((24 : ℕ).succ : ℝ) / ((24 : ℕ).factorial * (24 : ℕ))) ≤ 1e-20 := by norm_num [Nat.factorial]
    calc _ ≤ 1 * (((24 : ℕ).succ : ℝ) / ((24 : ℕ).factorial * (24 : ℕ))) := mul_le_mul_of_nonneg_right h2 (by positivity)
      _ ≤ _ := by linarith
  have hexp : Real.exp 1 ≤ 2.8 := by have := Real.exp_one_lt_d9; norm_num at this ⊢; linarith
  have hB : ∀ x ∈ Set.Icc (0 : ℝ) 1, |p.eval x| ≤ 3 := by
    rintro x ⟨h0, h1⟩
    have h2 := hε x ⟨h0, h1⟩
    have h3 := Real.exp_le_exp.2 h1
    have h4 := Real.exp_pos x
    rw [abs_le] at h2 ⊢
    norm_num at h2 hexp
    constructor <;> linarith [h2.1, h2.2]
  have := C56_accuracy zero_le_one (Real.continuous_exp.intervalIntegrable 0 1) p hdeg hε hB hr
  rw [integral_exp, Real.exp_zero] at this
  refine this.trans ?_
  norm_num

end Traceon
