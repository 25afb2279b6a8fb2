import Verif.Lemmas.NotAKnot
import Mathlib.LinearAlgebra.FiniteDimensional.Lemmas
import Mathlib.LinearAlgebra.Lagrange
import Mathlib.Analysis.Calculus.ContDiff.Operations

/-!
# A spline as documented exists

Splines are linear combinations of four monomials and truncated powers at the inner knots but the first and the last; so they have as many coefficients as there are knots, and are zero if they vanish at the knots.
-/
namespace Traceon
open Spec CubicSpline

/-- `(t - a)³` for `t > a`, otherwise zero. -/
noncomputable def truncPow (a : ℝ) (k : ℕ) (t : ℝ) : ℝ := (max (t - a) 0) ^ k

theorem hasDerivAt_truncPow (a : ℝ) (k : ℕ) (hk : 1 ≤ k) (t : ℝ) : HasDerivAt (truncPow a (k + 1)) ((k + 1 : ℕ) * truncPow a k t) t := by
  have hp : ∀ u, HasDerivAt (fun t : ℝ => (t - a) ^ (k + 1)) ((k + 1 : ℕ) * (u - a) ^ k) u := by
    intro u
    have h := ((hasDerivAt_id u).sub_const a).pow (k + 1)
    exact h.congr_deriv (by simp)
  have hl : ∀ u, u ≤ a → truncPow a (k + 1) u = 0 := fun u hu => by simp [truncPow, max_eq_right (sub_nonpos.2 hu)]
  have hr : ∀ u, a ≤ u → truncPow a (k + 1) u = (u - a) ^ (k + 1) := fun u hu => by simp [truncPow, max_eq_left (sub_nonneg.2 hu)]
  rcases lt_trichotomy t a with h | h | h
  · have e : truncPow a (k + 1) =ᶠ[nhds t] fun _ => 0 := by
      filter_upwards [isOpen_Iio.mem_nhds h] with u hu using hl u (le_of_lt hu)
    refine ((hasDerivAt_const t (0 : ℝ)).congr_of_eventuallyEq e).congr_deriv ?_
    simp [truncPow, max_eq_right (sub_nonpos.2 h.le)]
    omega
  · subst h
    have d : ((k + 1 : ℕ) : ℝ) * truncPow t k t = 0 := by simp [truncPow]; omega
    rw [d, ← hasDerivWithinAt_univ, ← Set.Iic_union_Ici (a := t)]
    refine HasDerivWithinAt.union ?_ ?_
    · exact (hasDerivWithinAt_const t _ (0 : ℝ)).congr (fun u hu => hl u hu) (hl t le_rfl)
    · refine ((hp t).hasDerivWithinAt.congr (fun u hu => hr u hu) (hr t le_rfl)).congr_deriv ?_
      simp; omega
  · have e : truncPow a (k + 1) =ᶠ[nhds t] fun u => (u - a) ^ (k + 1) := by
      filter_upwards [isOpen_Ioi.mem_nhds h] with u hu using hr u (le_of_lt hu)
    refine ((hp t).congr_of_eventuallyEq e).congr_deriv ?_
    simp [truncPow, max_eq_left (sub_nonneg.2 h.le)]

theorem contDiff_truncPow (a : ℝ) : ContDiff ℝ 2 (truncPow a 3) := by
  have d3 : deriv (truncPow a 3) = fun t => (3 : ℕ) * truncPow a 2 t := funext fun t => (hasDerivAt_truncPow a 2 (by norm_num) t).deriv
  have d2 : deriv (fun t => ((3 : ℕ) : ℝ) * truncPow a 2 t) = fun t => (3 : ℕ) * ((2 : ℕ) * truncPow a 1 t) := funext fun t => ((hasDerivAt_truncPow a 1 (by norm_num) t).const_mul _).deriv
  rw [← one_add_one_eq_two, contDiff_succ_iff_deriv]
  refine ⟨fun t => (hasDerivAt_truncPow a 2 (by norm_num) t).differentiableAt, by simp, ?_⟩
  rw [d3, contDiff_one_iff_deriv]
  refine ⟨fun t => ((hasDerivAt_truncPow a 1 (by norm_num) t).const_mul _).differentiableAt, ?_⟩
  rw [d2]
  unfold truncPow
  fun_prop

/-- The functions of which splines are combined. -/
noncomputable def splineBasis (x : ℕ → ℝ) (j : ℕ) (t : ℝ) : ℝ := if j < 4 then t ^ j else truncPow (x (j - 2)) 3 t

/-- A combination of the first `m` of them. -/
noncomputable def splineSum (x : ℕ → ℝ) (c : ℕ → ℝ) (m : ℕ) (t : ℝ) : ℝ := ∑ j ∈ Finset.range m, c j * splineBasis x j t

theorem contDiff_splineSum (x c : ℕ → ℝ) (m : ℕ) : ContDiff ℝ 2 (splineSum x c m) := by
  unfold splineSum
  refine ContDiff.sum fun j _ => contDiff_const.mul ?_
  unfold splineBasis
  split
  · exact contDiff_id.pow j
  · exact contDiff_truncPow _

/-- Where no truncated power has its knot inside, the sum is a cubic. -/
theorem cubicOn_splineSum (x c : ℕ → ℝ) (m : ℕ) {I : Set ℝ} (hI : ∀ j, 4 ≤ j → j < m → (∀ t ∈ I, t ≤ x (j - 2)) ∨ (∀ t ∈ I, x (j - 2) ≤ t)) : CubicOn (splineSum x c m) I := by
  induction m with
  | zero => exact ⟨0, by simp, fun t _ => by simp [splineSum]⟩
  | succ m ih =>
    obtain ⟨p, hp, he⟩ := ih fun j h1 h2 => hI j h1 (by omega)
    have key : ∃ q : Polynomial ℝ, q.natDegree ≤ 3 ∧ ∀ t ∈ I, c m * splineBasis x m t = q.eval t := by
      unfold splineBasis
      by_cases h : m < 4
      · refine ⟨Polynomial.C (c m) * Polynomial.X ^ m, ?_, fun t _ => by simp [h]⟩
        exact (Polynomial.natDegree_C_mul_X_pow_le _ _).trans (by omega)
      · rcases hI m (by omega) (by omega) with h' | h'
        · exact ⟨0, by simp, fun t ht => by simp [h, truncPow, max_eq_right (sub_nonpos.2 (h' t ht))]⟩
        · refine ⟨Polynomial.C (c m) * (Polynomial.X - Polynomial.C (x (m - 2))) ^ 3, ?_, fun t ht => by simp [h, truncPow, max_eq_left (sub_nonneg.2 (h' t ht))]⟩
          refine (Polynomial.natDegree_C_mul_le _ _).trans ?_
          rw [Polynomial.natDegree_pow, Polynomial.natDegree_X_sub_C]
    obtain ⟨q, hq, hqe⟩ := key
    refine ⟨p + q, (Polynomial.natDegree_add_le _ _).trans (max_le hp hq), fun t ht => ?_⟩
    rw [splineSum, Finset.sum_range_succ, Polynomial.eval_add, ← he t ht, ← hqe t ht]
    rfl

theorem splineSum_four (x c : ℕ → ℝ) (t : ℝ) : splineSum x c 4 t = c 0 + c 1 * t + c 2 * t ^ 2 + c 3 * t ^ 3 := by
  simp [splineSum, splineBasis, Finset.sum_range_succ]

/-- A combination that is zero on the interval between the knots is the combination with coefficients zero. -/
theorem splineSum_zero {x c : ℕ → ℝ} {n : ℕ} (hn : 3 ≤ n) (hx : ∀ i, i < n → x i < x (i + 1)) (h : ∀ t, x 0 ≤ t → t ≤ x n → splineSum x c (n + 1) t = 0) : ∀ j, j ≤ n → c j = 0 := by
  -- up to the knot `x k` only the first terms matter
  have hcut : ∀ k, 2 ≤ k → k + 1 ≤ n → ∀ t, t ≤ x k → splineSum x c (n + 1) t = splineSum x c (k + 2) t := by
    intro k h2 hk t ht
    have : ∀ m, k + 2 ≤ m → m ≤ n + 1 → splineSum x c m t = splineSum x c (k + 2) t := by
      intro m hm
      induction m, hm using Nat.le_induction with
      | base => intro _; rfl
      | succ m hm ih =>
        intro hm'
        rw [splineSum, Finset.sum_range_succ]
        have z : splineBasis x m t = 0 := by
          have : t ≤ x (m - 2) := ht.trans (knots_mono hx (by omega) (by omega))
          simp [splineBasis, show ¬m < 4 by omega, truncPow, max_eq_right (sub_nonpos.2 this)]
        rw [z, mul_zero, add_zero]
        exact ih (by omega)
    exact this (n + 1) (by omega) le_rfl
  have h4 : ∀ j, j < 4 → c j = 0 := by
    have hp : Polynomial.C (c 0) + Polynomial.C (c 1) * Polynomial.X + Polynomial.C (c 2) * Polynomial.X ^ 2 + Polynomial.C (c 3) * Polynomial.X ^ 3 = 0 := by
      refine Polynomial.eq_of_infinite_eval_eq _ _ (Set.Infinite.mono (s := Set.Icc (x 0) (x 2)) (fun t ht => ?_) (Set.Icc_infinite ((hx 0 (by omega)).trans (hx 1 (by omega)))))
      have e := h t ht.1 (ht.2.trans (knots_mono hx (by omega) le_rfl))
      rw [hcut 2 le_rfl hn t ht.2, splineSum_four] at e
      show Polynomial.eval t _ = Polynomial.eval t 0
      simp only [Polynomial.eval_add, Polynomial.eval_mul, Polynomial.eval_C, Polynomial.eval_X, Polynomial.eval_pow, Polynomial.eval_zero]
      exact e
    intro j hj
    have hc := congrArg (fun p => Polynomial.coeff p j) hp
    simp only [Polynomial.coeff_add, Polynomial.coeff_C, Polynomial.coeff_C_mul, Polynomial.coeff_X, Polynomial.coeff_X_pow, Polynomial.coeff_zero] at hc
    interval_cases j <;> simpa using hc
  intro j
  induction j using Nat.strong_induction_on with
  | _ j ih =>
    intro hj
    rcases Nat.lt_or_ge j 4 with hj4 | hj4
    · exact h4 j hj4
    · have e := h (x (j - 1)) (knots_mono hx (Nat.zero_le _) (by omega)) (knots_mono hx (by omega) le_rfl)
      rw [hcut (j - 1) (by omega) (by omega) _ le_rfl, show j - 1 + 2 = j + 1 by omega, splineSum, Finset.sum_range_succ, Finset.sum_eq_zero fun i hi => by rw [ih i (Finset.mem_range.1 hi) (by have := Finset.mem_range.1 hi; omega), zero_mul], zero_add] at e
      have l := hx (j - 2) (by omega)
      rw [show j - 2 + 1 = j - 1 by omega] at l
      have pos : 0 < splineBasis x j (x (j - 1)) := by
        simp only [splineBasis, show ¬j < 4 by omega, if_false, truncPow]
        rw [max_eq_left (sub_pos.2 l).le]
        have := sub_pos.2 l
        positivity
      rcases mul_eq_zero.1 e with e | e
      · exact e
      · exact absurd e pos.ne'

/-- The splines are combinations of the basis. -/
theorem splineSum_through {xs ys : List ℝ} (hx : xs.Pairwise (· < ·)) {n : ℕ} (hn : xs.length = n + 1) (h3 : 3 ≤ n) (c : ℕ → ℝ)
    (ht : ∀ (i : ℕ) (x y : ℝ), xs[i]? = some x → ys[i]? = some y → splineSum (fun i => xs.getD i 0) c (n + 1) x = y) : CubicSplineThrough xs ys (splineSum (fun i => xs.getD i 0) c (n + 1)) := by
  have hlt := knots_lt hx hn
  have val : ∀ {i : ℕ} {x : ℝ}, xs[i]? = some x → i < xs.length ∧ x = xs.getD i 0 := by
    intro i x h
    have := (List.getElem?_eq_some_iff.1 h).1
    refine ⟨this, ?_⟩
    rw [knot_some this] at h
    exact (Option.some.inj h).symm
  refine ⟨ht, contDiff_splineSum _ _ _, ?_, ?_, ?_⟩
  · intro i x x' h1 h2
    obtain ⟨b1, rfl⟩ := val h1
    obtain ⟨b2, rfl⟩ := val h2
    refine cubicOn_splineSum _ _ _ fun j h4 hj => ?_
    rcases Nat.lt_or_ge i (j - 2) with h | h
    · exact .inl fun t ht => ht.2.trans (knots_mono hlt (by omega) (by omega))
    · exact .inr fun t ht => (knots_mono hlt h (by omega)).trans ht.1
  · intro x h
    obtain ⟨b, rfl⟩ := val h
    exact cubicOn_splineSum _ _ _ fun j h4 hj => .inl fun t ht => le_trans ht (knots_mono hlt (by omega) (by omega))
  · intro x h
    obtain ⟨b, rfl⟩ := val h
    exact cubicOn_splineSum _ _ _ fun j h4 hj => .inr fun t ht => le_trans (knots_mono hlt (by omega) (by omega)) ht

theorem exists_spline {xs ys : List ℝ} (hx : xs.Pairwise (· < ·)) (h4 : 4 ≤ xs.length) (hy : ys.length = xs.length) : ∃ s, CubicSplineThrough xs ys s := by
  obtain ⟨n, hn⟩ : ∃ n, xs.length = n + 1 := ⟨xs.length - 1, by omega⟩
  have hlt := knots_lt hx hn
  let x : ℕ → ℝ := fun i => xs.getD i 0
  let ext : (Fin (n + 1) → ℝ) → ℕ → ℝ := fun c j => if h : j < n + 1 then c ⟨j, h⟩ else 0
  let T : (Fin (n + 1) → ℝ) →ₗ[ℝ] (Fin (n + 1) → ℝ) :=
    { toFun := fun c i => ∑ j : Fin (n + 1), c j * splineBasis x j (x i)
      map_add' := fun c d => by funext i; simp [add_mul, Finset.sum_add_distrib]
      map_smul' := fun a c => by funext i; simp [Finset.mul_sum, mul_assoc] }
  have hT : ∀ (c : Fin (n + 1) → ℝ) (i : Fin (n + 1)), T c i = splineSum x (ext c) (n + 1) (x i) := by
    intro c i
    show ∑ j : Fin (n + 1), c j * splineBasis x j (x i) = _
    rw [splineSum, ← Fin.sum_univ_eq_sum_range (fun j => ext c j * splineBasis x j (x i))]
    refine Finset.sum_congr rfl fun j _ => ?_
    simp only [ext, j.isLt, dif_pos, Fin.eta]
  have hinj : Function.Injective T := by
    rw [← LinearMap.ker_eq_bot, LinearMap.ker_eq_bot']
    intro c hc
    have hthrough : CubicSplineThrough xs (xs.map fun _ => 0) (splineSum x (ext c) (n + 1)) := by
      refine splineSum_through hx hn (by omega) _ fun i a b h1 h2 => ?_
      have hi := (List.getElem?_eq_some_iff.1 h1).1
      rw [knot_some hi] at h1
      rw [← Option.some.inj h1]
      have := congrFun hc ⟨i, by omega⟩
      rw [hT] at this
      rw [List.getElem?_map, knot_some hi] at h2
      rw [← Option.some.inj h2]
      exact this
    have hsp := isSpline_of hx hn (by omega) hthrough
    have l1 := hlt 1 (by omega)
    rw [show 1 + 1 = 2 from rfl] at l1
    have r0 := hlt (n - 2) (by omega)
    rw [show n - 2 + 1 = n - 1 by omega] at r0
    have hz : ∀ t, x 0 ≤ t → t ≤ x n → splineSum x (ext c) (n + 1) t = 0 := by
      intro t ht ht'
      have e := (error2 (x := x) (by omega) hlt hsp (f := fun _ => 0) (f1 := fun _ => 0) (f2 := fun _ => 0) (fun t _ _ => hasDerivAt_const t 0) (fun t _ _ => hasDerivAt_const t 0) (F := 0) (fun t _ _ => by simp)
          (fun i hi => hthrough.through i _ _ (knot_some (by omega)) (by rw [List.getElem?_map, knot_some (by omega)]; rfl))
          (κ := max ((x 1 - x 0) / (x 2 - x 1)) ((x n - x (n - 1)) / (x (n - 1) - x (n - 2))))
          (h := x n - x 0)
          ((div_le_iff₀ (sub_pos.2 l1)).1 (le_max_left _ _)) ((div_le_iff₀ (sub_pos.2 r0)).1 (le_max_right _ _))
          (fun i hi => by
            have a := knots_mono hlt (Nat.zero_le i) (by omega)
            have b := knots_mono hlt (show i + 1 ≤ n by omega) le_rfl
            simp only [x]
            linarith) ht ht').2.2
      simp only [mul_zero, zero_mul, sub_zero] at e
      exact abs_nonpos_iff.1 e
    funext j
    show c j = 0
    have := splineSum_zero (by omega) hlt hz j
    simpa only [ext, j.isLt, dif_pos, Fin.eta] using this (by omega)
  obtain ⟨c, hc⟩ := LinearMap.injective_iff_surjective.1 hinj fun i => ys.getD i 0
  refine ⟨splineSum x (ext c) (n + 1), splineSum_through hx hn (by omega) _ fun i a b h1 h2 => ?_⟩
  have hi := (List.getElem?_eq_some_iff.1 h1).1
  rw [knot_some hi] at h1
  rw [knot_some (by omega)] at h2
  rw [← Option.some.inj h1, ← Option.some.inj h2]
  have := congrFun hc ⟨i, by omega⟩
  rw [hT] at this
  exact this

/-- There is a spline routine as documented. -/
theorem exists_notAKnot : ∃ cs : SplineMaker, NotAKnot cs := by
  classical
  have few : ∀ xs ys : List ℝ, ys.length = xs.length → 1 ≤ xs.length → xs.Pairwise (· < ·) → ∃ p : Polynomial ℝ, p.natDegree < xs.length ∧ ∀ (i : ℕ) (x y : ℝ), xs[i]? = some x → ys[i]? = some y → p.eval x = y := by
    intro xs ys hy h1 hx
    let v : Fin xs.length → ℝ := fun i => xs[i]
    let r : Fin xs.length → ℝ := fun i => ys.getD i 0
    have hinj : Set.InjOn v (Finset.univ : Finset (Fin xs.length)) := by
      intro i _ j _ h
      have hnd : xs.Nodup := hx.imp fun h => h.ne
      exact Fin.ext ((List.Nodup.getElem_inj_iff hnd).1 h)
    refine ⟨Lagrange.interpolate Finset.univ v r, ?_, ?_⟩
    · have hd := Lagrange.degree_interpolate_lt r hinj
      rw [Finset.card_univ, Fintype.card_fin] at hd
      by_cases h0 : Lagrange.interpolate Finset.univ v r = 0
      · rw [h0, Polynomial.natDegree_zero]; omega
      · exact (Polynomial.natDegree_lt_iff_degree_lt h0).2 hd
    · intro i x y a b
      have hi := (List.getElem?_eq_some_iff.1 a).1
      have e := Lagrange.eval_interpolate_at_node r hinj (Finset.mem_univ (⟨i, hi⟩ : Fin xs.length))
      have ev : v ⟨i, hi⟩ = x := (List.getElem?_eq_some_iff.1 a).2
      rw [ev] at e
      rw [e]
      show ys.getD i 0 = y
      rw [knot_some (by omega)] at b
      exact Option.some.inj b
  refine ⟨fun xs ys => if h : ys.length = xs.length ∧ xs.Pairwise (· < ·) ∧ 1 ≤ xs.length then
    if h4 : 4 ≤ xs.length then (exists_spline h.2.1 h4 h.1).choose else fun t => (few xs ys h.1 h.2.2 h.2.1).choose.eval t else fun _ => 0, ?_, ?_⟩
  · intro xs ys h2 h3 hy hx
    have h : ys.length = xs.length ∧ xs.Pairwise (· < ·) ∧ 1 ≤ xs.length := ⟨hy, hx, by omega⟩
    refine ⟨_, (few xs ys h.1 h.2.2 h.2.1).choose_spec.1, ?_, (few xs ys h.1 h.2.2 h.2.1).choose_spec.2⟩
    simp only [dif_pos h, dif_neg (show ¬4 ≤ xs.length by omega)]
  · intro xs ys h4 hy hx
    have h : ys.length = xs.length ∧ xs.Pairwise (· < ·) ∧ 1 ≤ xs.length := ⟨hy, hx, by omega⟩
    simp only [dif_pos h, dif_pos h4]
    exact (exists_spline hx h4 hy).choose_spec

end Traceon
