import Verif.Props.Kronrod
import Mathlib.MeasureTheory.Integral.IntervalIntegral.IntegrationByParts
import Mathlib.Topology.Algebra.Polynomial

namespace Traceon
open Spec

/-! ## Accuracy -/

/-- The moments of a rule on the interval from -1 to 1. -/
noncomputable def quadMoment (table : List (ℝ × ℝ)) (k : ℕ) : ℝ := intervalRule table (fun x => x ^ k) (-1) 1

/-- A rule is linear in the integrand. -/
theorem intervalRule_add (table : List (ℝ × ℝ)) (f g : ℝ → ℝ) (s e : ℝ) :
    intervalRule table (fun x => f x + g x) s e = intervalRule table f s e + intervalRule table g s e := by
  cases table with
  | nil => simp [intervalRule]
  | cons wx rest =>
    simp only [intervalRule]
    rw [mul_add]
    generalize (e - s) / 2 * wx.1 * f ((s + e) / 2) = A
    generalize (e - s) / 2 * wx.1 * g ((s + e) / 2) = B
    induction rest generalizing A B with
    | nil => rfl
    | cons y ys ih =>
      simp only [List.foldl]
      rw [← ih]
      congr 1
      ring

theorem intervalRule_smul (table : List (ℝ × ℝ)) (a : ℝ) (f : ℝ → ℝ) (s e : ℝ) :
    intervalRule table (fun x => a * f x) s e = a * intervalRule table f s e := by
  cases table with
  | nil => simp [intervalRule]
  | cons wx rest =>
    simp only [intervalRule]
    rw [show (e - s) / 2 * wx.1 * (a * f ((s + e) / 2)) = a * ((e - s) / 2 * wx.1 * f ((s + e) / 2)) by ring]
    generalize (e - s) / 2 * wx.1 * f ((s + e) / 2) = A
    induction rest generalizing A with
    | nil => rfl
    | cons y ys ih =>
      simp only [List.foldl]
      rw [← ih]
      congr 1
      ring

theorem intervalRule_sum {ι : Type _} (table : List (ℝ × ℝ)) (S : Finset ι) (f : ι → ℝ → ℝ) (s e : ℝ) :
    intervalRule table (fun x => ∑ i ∈ S, f i x) s e = ∑ i ∈ S, intervalRule table (f i) s e := by
  classical
  induction S using Finset.induction_on with
  | empty =>
    have := intervalRule_smul table 0 (fun _ => 0) s e
    simpa using this
  | insert i S hi ih =>
    simp only [Finset.sum_insert hi]
    rw [intervalRule_add, ih]

/-- A rule on any interval, by substitution. -/
theorem intervalRule_subst (table : List (ℝ × ℝ)) (f : ℝ → ℝ) (s e : ℝ) :
    intervalRule table f s e = (e - s) / 2 * intervalRule table (fun t => f ((s + e) / 2 + (e - s) / 2 * t)) (-1) 1 := by
  cases table with
  | nil => simp [intervalRule]
  | cons wx rest =>
    simp only [intervalRule]
    have e1 : ((-1 : ℝ) + 1) / 2 = 0 := by norm_num
    have e2 : ((1 : ℝ) - -1) / 2 = 1 := by norm_num
    simp only [e1, e2, mul_zero, add_zero, one_mul, zero_sub, zero_add, mul_neg, ← sub_eq_add_neg]
    generalize hA : wx.1 * f ((s + e) / 2) = A
    rw [show (e - s) / 2 * wx.1 * f ((s + e) / 2) = (e - s) / 2 * A by rw [← hA]; ring]
    clear hA
    induction rest generalizing A with
    | nil => rfl
    | cons y ys ih =>
      simp only [List.foldl]
      rw [← ih]
      congr 1
      ring

theorem k15_moment : ∀ k ≤ 23, |quadMoment k15Table k - ∫ t in (-1 : ℝ)..1, t ^ k| ≤ 1 / 10 ^ 15 := by
  intro k hk
  rw [integral_pow]
  interval_cases k <;>
    · simp only [quadMoment, intervalRule, k15Table, List.foldl]
      rw [abs_le]
      constructor <;> norm_num

theorem integral_subst (f : ℝ → ℝ) (s e : ℝ) :
    ∫ x in s..e, f x = (e - s) / 2 * ∫ t in (-1 : ℝ)..1, f ((s + e) / 2 + (e - s) / 2 * t) := by
  rw [intervalIntegral.mul_integral_comp_add_mul]
  congr 1 <;> ring

/-- The Kronrod rule integrates powers up to degree 23 almost exactly (the weights and nodes are rounded). -/
theorem k15_pow {s e : ℝ} (hse : s ≤ e) {n : ℕ} (hn : n ≤ 23) :
    |intervalRule k15Table (fun x => x ^ n) s e - ∫ x in s..e, x ^ n| ≤
      1 / 10 ^ 15 * ((e - s) / 2) * (max |s| |e|) ^ n := by
  set c := (s + e) / 2 with hc
  set h := (e - s) / 2 with hh
  have hh0 : 0 ≤ h := by rw [hh]; linarith
  rw [intervalRule_subst, integral_subst (fun x => x ^ n), ← hc, ← hh, ← mul_sub, abs_mul, abs_of_nonneg hh0]
  have expand : (fun t : ℝ => (c + h * t) ^ n) =
      fun t => ∑ k ∈ Finset.range (n + 1), (h ^ k * c ^ (n - k) * (n.choose k : ℝ)) * t ^ k := by
    funext t
    rw [add_comm, add_pow]
    refine Finset.sum_congr rfl fun k _ => ?_
    rw [mul_pow]; ring
  rw [expand, intervalRule_sum, intervalIntegral.integral_finset_sum (fun i _ => Continuous.intervalIntegrable (by fun_prop) _ _),
    ← Finset.sum_sub_distrib]
  have hmax : |c| + h ≤ max |s| |e| := by
    rcases le_total 0 c with h0 | h0
    · rw [abs_of_nonneg h0]
      have : c + h = e := by rw [hc, hh]; ring
      rw [this]
      exact (le_abs_self e).trans (le_max_right _ _)
    · rw [abs_of_nonpos h0]
      have : -c + h = -s := by rw [hc, hh]; ring
      rw [this]
      exact (neg_le_abs s).trans (le_max_left _ _)
  have : |∑ k ∈ Finset.range (n + 1), (intervalRule k15Table (fun t => (h ^ k * c ^ (n - k) * (n.choose k : ℝ)) * t ^ k) (-1) 1 -
      ∫ t in (-1 : ℝ)..1, (h ^ k * c ^ (n - k) * (n.choose k : ℝ)) * t ^ k)| ≤ 1 / 10 ^ 15 * (max |s| |e|) ^ n := by
    calc _ ≤ ∑ k ∈ Finset.range (n + 1), (h ^ k * |c| ^ (n - k) * (n.choose k : ℝ)) * (1 / 10 ^ 15) := by
          refine (Finset.abs_sum_le_sum_abs _ _).trans (Finset.sum_le_sum fun k hk => ?_)
          rw [intervalRule_smul, intervalIntegral.integral_const_mul, ← mul_sub, abs_mul]
          have hk' : k ≤ n := by simpa [Nat.lt_succ_iff] using hk
          have e1 : |h ^ k * c ^ (n - k) * (n.choose k : ℝ)| = h ^ k * |c| ^ (n - k) * (n.choose k : ℝ) := by
            rw [abs_mul, abs_mul, abs_pow, abs_pow, abs_of_nonneg hh0, Nat.abs_cast]
          rw [e1]
          exact mul_le_mul_of_nonneg_left (k15_moment k (hk'.trans hn)) (by positivity)
      _ = 1 / 10 ^ 15 * (|c| + h) ^ n := by
          rw [← Finset.sum_mul, add_comm |c| h, add_pow, mul_comm]
      _ ≤ _ := by gcongr
  calc _ ≤ h * (1 / 10 ^ 15 * (max |s| |e|) ^ n) := mul_le_mul_of_nonneg_left this hh0
    _ = _ := by ring

/-- The integrals over the intervals of a partition add up. -/
theorem partition_integral {f : ℝ → ℝ} (hf : Continuous f) :
    ∀ (xs : List ℝ) (a b : ℝ), IsPartition a b xs → ((intervals xs).map fun i => ∫ x in i.1..i.2, f x).sum = ∫ x in a..b, f x := by
  intro xs
  induction xs with
  | nil => intro a b h; simpa using h.head
  | cons x xs ih =>
    intro a b h
    have hx : x = a := by simpa using h.head
    subst hx
    cases xs with
    | nil =>
      have : x = b := by simpa using h.last
      subst this
      simp [intervals]
    | cons y ys =>
      have hp : IsPartition y b (y :: ys) :=
        ⟨rfl, by have := h.last; rwa [List.getLast?_cons_cons] at this, (List.pairwise_cons.1 h.increasing).2⟩
      have := ih y b hp
      simp only [intervals, List.tail_cons, List.zip_cons_cons, List.map_cons, List.sum_cons] at this ⊢
      rw [this, intervalIntegral.integral_add_adjacent_intervals (hf.intervalIntegrable _ _) (hf.intervalIntegrable _ _)]

theorem partition_mem {a b : ℝ} {xs : List ℝ} (h : IsPartition a b xs) : ∀ x ∈ xs, a ≤ x ∧ x ≤ b := by
  intro x hx
  constructor
  · cases xs with
    | nil => simp at hx
    | cons y ys =>
      have hy : y = a := by simpa using h.head
      subst hy
      rcases List.mem_cons.1 hx with rfl | hx
      · exact le_rfl
      · exact ((List.pairwise_cons.1 h.increasing).1 x hx).le
  · obtain ⟨ys, hys⟩ : ∃ ys, xs = ys ++ [b] := by
      have := h.last
      rw [List.getLast?_eq_some_iff] at this
      exact this
    have hi := h.increasing
    rw [hys] at hi hx
    rw [List.pairwise_append] at hi
    rcases List.mem_append.1 hx with hx | hx
    · exact (hi.2.2 x hx b (by simp)).le
    · simp at hx; exact hx.le

theorem partition_intervals {a b : ℝ} : ∀ {xs : List ℝ}, IsPartition a b xs →
    (∀ i ∈ intervals xs, a ≤ i.1 ∧ i.1 < i.2 ∧ i.2 ≤ b) ∧ ((intervals xs).map fun i => i.2 - i.1).sum = b - a := by
  intro xs h
  constructor
  · intro i hi
    have h1 : i.1 ∈ xs := (List.of_mem_zip (a := i.1) (b := i.2) hi).1
    have h2 : i.2 ∈ xs.tail := (List.of_mem_zip (a := i.1) (b := i.2) hi).2
    refine ⟨(partition_mem h _ h1).1, ?_, (partition_mem h _ (List.mem_of_mem_tail h2)).2⟩
    have hi' := h.increasing
    clear h h1 h2
    induction xs with
    | nil => simp [intervals] at hi
    | cons x xs ih =>
      cases xs with
      | nil => simp [intervals] at hi
      | cons y ys =>
        simp only [intervals, List.tail_cons, List.zip_cons_cons, List.mem_cons] at hi
        rcases hi with rfl | hi
        · exact (List.pairwise_cons.1 hi').1 y (by simp)
        · exact ih hi (List.pairwise_cons.1 hi').2
  · have := partition_integral (f := fun _ => 1) continuous_const xs a b h
    simpa using this

/-- **C56.** For a polynomial of degree at most 23 the returned value is the integral, up to the rounding of the
tabulated weights and nodes. -/
theorem C56_polynomials {a b absTol relTol r : ℝ} (hab : a ≤ b) (p : Polynomial ℝ) (hdeg : p.natDegree ≤ 23)
    (h : KronrodReturns (fun x => p.eval x) a b absTol relTol r) :
    |r - ∫ x in a..b, p.eval x| ≤
      1 / 10 ^ 15 * ((b - a) / 2) * ∑ n ∈ Finset.range (p.natDegree + 1), |p.coeff n| * (max |a| |b|) ^ n := by
  obtain ⟨xs, hp, -, hr⟩ := C56_partition hab h
  rw [hr, ← partition_integral p.continuous xs a b hp]
  obtain ⟨hint, hlen⟩ := partition_intervals hp
  have one : ∀ i ∈ intervals xs, |intervalRule k15Table (fun x => p.eval x) i.1 i.2 - ∫ x in i.1..i.2, p.eval x| ≤
      1 / 10 ^ 15 * (∑ n ∈ Finset.range (p.natDegree + 1), |p.coeff n| * (max |a| |b|) ^ n) / 2 * (i.2 - i.1) := by
    intro i hi
    obtain ⟨h1, h2, h3⟩ := hint i hi
    have hp : (fun x => p.eval x) = fun x => ∑ n ∈ Finset.range (p.natDegree + 1), p.coeff n * x ^ n := by
      funext x; exact Polynomial.eval_eq_sum_range x
    rw [hp, intervalRule_sum, intervalIntegral.integral_finset_sum (fun i _ => Continuous.intervalIntegrable (by fun_prop) _ _),
      ← Finset.sum_sub_distrib]
    refine (Finset.abs_sum_le_sum_abs _ _).trans ?_
    rw [Finset.mul_sum, Finset.sum_div, Finset.sum_mul]
    refine Finset.sum_le_sum fun n hn => ?_
    rw [intervalRule_smul, intervalIntegral.integral_const_mul, ← mul_sub, abs_mul]
    have hn' : n ≤ 23 := le_trans (by simpa [Nat.lt_succ_iff] using hn) hdeg
    have hmax : max |i.1| |i.2| ≤ max |a| |b| := by
      have m1 : |a| ≤ max |a| |b| := le_max_left _ _
      have m2 : |b| ≤ max |a| |b| := le_max_right _ _
      have : ∀ x, a ≤ x → x ≤ b → |x| ≤ max |a| |b| := by
        intro x hx hx'
        rw [abs_le]
        constructor
        · linarith [neg_abs_le a]
        · linarith [le_abs_self b]
      exact max_le (this _ h1 (by linarith)) (this _ (by linarith) h3)
    calc |p.coeff n| * |intervalRule k15Table (fun x => x ^ n) i.1 i.2 - ∫ x in i.1..i.2, x ^ n|
        ≤ |p.coeff n| * (1 / 10 ^ 15 * ((i.2 - i.1) / 2) * (max |i.1| |i.2|) ^ n) :=
          mul_le_mul_of_nonneg_left (k15_pow h2.le hn') (abs_nonneg _)
      _ ≤ |p.coeff n| * (1 / 10 ^ 15 * ((i.2 - i.1) / 2) * (max |a| |b|) ^ n) := by
          have : 0 ≤ (i.2 - i.1) / 2 := by linarith
          gcongr
      _ = _ := by ring
  rw [← hlen]
  generalize hC : 1 / 10 ^ 15 * (∑ n ∈ Finset.range (p.natDegree + 1), |p.coeff n| * (max |a| |b|) ^ n) / 2 = C at one
  have goal : ∀ l : List (ℝ × ℝ), (∀ i ∈ l, |intervalRule k15Table (fun x => p.eval x) i.1 i.2 - ∫ x in i.1..i.2, p.eval x| ≤ C * (i.2 - i.1)) →
      |(l.map fun i => intervalRule k15Table (fun x => p.eval x) i.1 i.2).sum - (l.map fun i => ∫ x in i.1..i.2, p.eval x).sum| ≤
        C * (l.map fun i => i.2 - i.1).sum := by
    intro l
    induction l with
    | nil => simp
    | cons i l ih =>
      intro hl
      have h1 := hl i (by simp)
      have h2 := ih fun j hj => hl j (List.mem_cons_of_mem _ hj)
      simp only [List.map_cons, List.sum_cons]
      rw [abs_le] at h1 h2 ⊢
      constructor <;> linarith [h1.1, h1.2, h2.1, h2.2]
  refine (goal _ one).trans (le_of_eq ?_)
  rw [← hC]
  ring

/-- The tolerance is no bound on the error: there are integrands without negative values whose integral is as large as
one likes and for which 0 is returned, whatever the tolerances. (The quadrature sees the integrand at its nodes only.) -/
theorem C56_tolerance_no_bound {a b absTol relTol : ℝ} (hab : a < b) (h0 : 0 ≤ absTol) (I : ℝ) (hI : 0 < I) :
    ∃ f : ℝ → ℝ, Continuous f ∧ (∀ x, 0 ≤ f x) ∧ ∫ x in a..b, f x = I ∧ KronrodReturns f a b absTol relTol 0 := by
  let c := (a + b) / 2
  let h := (b - a) / 2
  have hh : 0 < h := by simp only [h]; linarith
  let nodes : List ℝ := k15Table.map Prod.snd
  let g : ℝ → ℝ := fun x => (nodes.map fun t => (x - (c - h * t)) ^ 2 * (x - (c + h * t)) ^ 2).prod
  have gcont : Continuous g := by
    simp only [g, nodes, k15Table, List.map_cons, List.map_nil, List.prod_cons, List.prod_nil]
    fun_prop
  have gnn : ∀ x, 0 ≤ g x := by
    intro x
    simp only [g, nodes, k15Table, List.map_cons, List.map_nil, List.prod_cons, List.prod_nil]
    positivity
  have gb : g b ≠ 0 := by
    have e1 : b = c + h := by simp only [c, h]; ring
    simp only [g, nodes, k15Table, List.map_cons, List.map_nil, List.prod_cons, List.prod_nil, e1]
    have k : ∀ t : ℝ, 0 ≤ t → t < 1 → (c + h - (c - h * t)) ^ 2 * (c + h - (c + h * t)) ^ 2 ≠ 0 := by
      intro t h0 h1
      have a1 : 0 < c + h - (c - h * t) := by have : 0 ≤ h * t := by positivity
                                              linarith
      have a2 : 0 < c + h - (c + h * t) := by nlinarith
      positivity
    simp only [mul_one]
    refine mul_ne_zero (k _ (by norm_num) (by norm_num)) (mul_ne_zero (k _ (by norm_num) (by norm_num))
      (mul_ne_zero (k _ (by norm_num) (by norm_num)) (mul_ne_zero (k _ (by norm_num) (by norm_num))
      (mul_ne_zero (k _ (by norm_num) (by norm_num)) (mul_ne_zero (k _ (by norm_num) (by norm_num))
      (mul_ne_zero (k _ (by norm_num) (by norm_num)) (k _ (by norm_num) (by norm_num))))))))
  have gz : ∀ t ∈ nodes, g (c - h * t) = 0 ∧ g (c + h * t) = 0 := by
    intro t ht
    constructor
    · apply List.prod_eq_zero
      exact List.mem_map.2 ⟨t, ht, by ring⟩
    · apply List.prod_eq_zero
      exact List.mem_map.2 ⟨t, ht, by ring⟩
  have gint : 0 < ∫ x in a..b, g x :=
    intervalIntegral.integral_pos hab gcont.continuousOn (fun x _ => gnn x)
      ⟨b, ⟨hab.le, le_rfl⟩, lt_of_le_of_ne (gnn b) (Ne.symm gb)⟩
  refine ⟨fun x => I / (∫ x in a..b, g x) * g x, by fun_prop, fun x => mul_nonneg (by positivity) (gnn x), ?_, ?_⟩
  · rw [intervalIntegral.integral_const_mul]
    field_simp
  · have z : ∀ t ∈ nodes, g ((a + b) / 2 - (b - a) / 2 * t) = 0 ∧ g ((a + b) / 2 + (b - a) / 2 * t) = 0 := gz
    have zc : g ((a + b) / 2) = 0 := by
      have := (z 0 (by simp only [nodes, k15Table, List.map_cons, List.mem_cons]; left; norm_num)).1
      simpa using this
    have k0 : intervalRule k15Table (fun x => I / (∫ x in a..b, g x) * g x) a b = 0 := by
      rw [intervalRule_smul]
      have : intervalRule k15Table g a b = 0 := by
        simp only [intervalRule, k15Table, List.foldl]
        simp only [nodes, k15Table, List.map_cons, List.map_nil, List.forall_mem_cons] at z
        obtain ⟨-, z1, z2, z3, z4, z5, z6, z7, -⟩ := z
        rw [zc, z1.1, z1.2, z2.1, z2.2, z3.1, z3.2, z4.1, z4.2, z5.1, z5.2, z6.1, z6.2, z7.1, z7.2]
        ring
      rw [this, mul_zero]
    have g0 : intervalRule g7Table (fun x => I / (∫ x in a..b, g x) * g x) a b = 0 := by
      rw [intervalRule_smul]
      have : intervalRule g7Table g a b = 0 := by
        simp only [intervalRule, g7Table, List.foldl]
        simp only [nodes, k15Table, List.map_cons, List.map_nil, List.forall_mem_cons] at z
        obtain ⟨-, z1, z2, z3, z4, z5, z6, z7, -⟩ := z
        rw [zc, z2.1, z2.2, z4.1, z4.2, z6.1, z6.2]
        ring
      rw [this, mul_zero]
    refine ⟨2, ?_⟩
    have acc : kronrodAccepts absTol relTol (intervalRule g7Table (fun x => I / (∫ x in a..b, g x) * g x) a b)
        (intervalRule k15Table (fun x => I / (∫ x in a..b, g x) * g x) a b) := by
      left; rw [k0, g0]; simpa using h0
    rw [kronrodLoop, if_pos hab]
    simp only
    rw [if_pos acc, k0, kronrodLoop, if_neg (lt_irrefl b)]
    simp

/-- A concrete case: `x²` on the interval from 0 to 1 is bounded, so the function returns, with a value as good as 1/3. -/
example : ∃ r, KronrodReturns (fun x => (Polynomial.X ^ 2 : Polynomial ℝ).eval x) 0 1 (1 / 10 ^ 9) (1 / 10 ^ 9) r ∧ |r - 1 / 3| ≤ 1 / 10 ^ 15 := by
  obtain ⟨r, hr⟩ := C56_returns (f := fun x => (Polynomial.X ^ 2 : Polynomial ℝ).eval x) (a := 0) (b := 1)
    (absTol := 1 / 10 ^ 9) (relTol := 1 / 10 ^ 9) (M := 1) (by norm_num) (by
      intro x h0 h1
      simp only [Polynomial.eval_pow, Polynomial.eval_X, abs_pow, abs_of_nonneg h0]
      nlinarith)
  refine ⟨r, hr, ?_⟩
  have := C56_polynomials (by norm_num) (Polynomial.X ^ 2 : Polynomial ℝ) (by simp) hr
  have hi : ∫ x in (0:ℝ)..1, (Polynomial.X ^ 2 : Polynomial ℝ).eval x = 1 / 3 := by
    simp [integral_pow]
    norm_num
  rw [hi] at this
  refine this.trans ?_
  simp [Finset.sum_range_succ, Polynomial.coeff_X_pow]
  norm_num

end Traceon
