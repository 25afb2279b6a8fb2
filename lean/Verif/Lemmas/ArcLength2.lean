import Verif.Lemmas.ArcLength
import Mathlib.Analysis.SpecialFunctions.Sqrt
import Mathlib.Analysis.Calculus.Deriv.Pow

/-!
# The spline from lengths to parameters; the speed of a regular curve
-/
namespace Traceon
open Spec V3 CubicSpline

theorem ftc {S : ℝ → ℝ} (hS : Continuous S) (t : ℝ) : HasDerivAt (fun t => ∫ x in (0 : ℝ)..t, S x) (S t) t :=
  intervalIntegral.integral_hasDerivAt_right (hS.intervalIntegrable _ _) (hS.stronglyMeasurableAtFilter _ _) hS.continuousAt

/-- The integral over an interval, from bounds of the integrand. -/
theorem integral_slope {S : ℝ → ℝ} (hS : Continuous S) {m M : ℝ} (hm : ∀ t, 0 ≤ t → t ≤ 1 → m ≤ S t) (hM : ∀ t, 0 ≤ t → t ≤ 1 → S t ≤ M) {a b : ℝ} (ha : 0 ≤ a) (hab : a ≤ b) (hb : b ≤ 1) :
    m * (b - a) ≤ (∫ x in (0 : ℝ)..b, S x) - ∫ x in (0 : ℝ)..a, S x ∧ (∫ x in (0 : ℝ)..b, S x) - ∫ x in (0 : ℝ)..a, S x ≤ M * (b - a) := by
  rcases hab.eq_or_lt with rfl | hab
  · simp
  have hc : Continuous (fun t => ∫ x in (0 : ℝ)..t, S x) := continuous_iff_continuousAt.2 fun t => (ftc hS t).continuousAt
  obtain ⟨ξ, hξ, h⟩ := exists_hasDerivAt_eq_slope _ S hab hc.continuousOn (fun x _ => ftc hS x)
  have h1 := hm ξ (by linarith [hξ.1]) (by linarith [hξ.2])
  have h2 := hM ξ (by linarith [hξ.1]) (by linarith [hξ.2])
  rw [h, le_div_iff₀ (sub_pos.2 hab)] at h1
  rw [h, div_le_iff₀ (sub_pos.2 hab)] at h2
  exact ⟨h1, h2⟩

theorem lengths_ascending {S : ℝ → ℝ} (hS : Continuous S) {m : ℝ} (hm0 : 0 < m) (hm : ∀ t, 0 ≤ t → t ≤ 1 → m ≤ S t) {N : ℕ} (hN : 2 ≤ N) :
    ((linspace 0 1 N).map (fun t => ∫ x in (0 : ℝ)..t, S x)).Pairwise (· < ·) := by
  rw [List.pairwise_map]
  have hmem : ∀ u ∈ linspace 0 1 N, 0 ≤ u ∧ u ≤ 1 := by
    intro u hu
    obtain ⟨k, hk, rfl⟩ := List.mem_iff_getElem.1 hu
    have := grid_mem (N := N) (k := k) (by rw [linspace_length] at hk; exact hk) hN
    rwa [List.getD_eq_getElem?_getD, List.getElem?_eq_getElem hk, Option.getD_some] at this
  obtain ⟨M, hM⟩ := (isCompact_Icc (a := (0 : ℝ)) (b := 1)).exists_bound_of_continuousOn hS.continuousOn
  refine (linspace_pairwise hN).imp_of_mem fun {a b} ha hb hab => ?_
  have := (integral_slope hS hm (fun t h0 h1 => (le_abs_self _).trans (hM t ⟨h0, h1⟩)) (hmem a ha).1 hab.le (hmem b hb).2).1
  have : 0 < m * (b - a) := mul_pos hm0 (sub_pos.2 hab)
  linarith

/-- The spline that gives the parameter for a length. -/
theorem lengths_spline {cs : SplineMaker} (hcs : NotAKnot cs) {S : ℝ → ℝ} (hS : ContDiff ℝ 1 S) {m M B : ℝ} (hm0 : 0 < m) (hm : ∀ t, 0 ≤ t → t ≤ 1 → m ≤ S t) (hM : ∀ t, 0 ≤ t → t ≤ 1 → S t ≤ M)
    (hB : ∀ t, 0 ≤ t → t ≤ 1 → |deriv S t| ≤ B) {N : ℕ} (hN : 4 ≤ N) : ∃ I : ℝ → ℝ, I = cs ((linspace 0 1 N).map (fun t => ∫ x in (0 : ℝ)..t, S x)) (linspace 0 1 N) ∧ I 0 = 0 ∧ I (∫ x in (0 : ℝ)..1, S x) = 1 ∧ Differentiable ℝ I ∧
      ∀ y, 0 ≤ y → y ≤ ∫ x in (0 : ℝ)..1, S x → ∃ v, 0 ≤ v ∧ v ≤ 1 ∧ ∫ x in (0 : ℝ)..v, S x = y ∧
        |I y - v| ≤ (12 + 20 * (M / m) + 4 * (M / m) ^ 2) * (B / m ^ 3) * (M * (1 / ((N - 1 : ℕ) : ℝ))) ^ 2 ∧
        |deriv I y - 1 / S v| ≤ (12 + 20 * (M / m) + 4 * (M / m) ^ 2) * (B / m ^ 3) * (M * (1 / ((N - 1 : ℕ) : ℝ))) := by
  set pls := (linspace 0 1 N).map (fun t => ∫ x in (0 : ℝ)..t, S x) with hpls
  have hSc := hS.continuous
  have hB0 : 0 ≤ B := (abs_nonneg _).trans (hB 0 le_rfl zero_le_one)
  have hmM : m ≤ M := (hm 0 le_rfl zero_le_one).trans (hM 0 le_rfl zero_le_one)
  have hM0 : 0 < M := hm0.trans_le hmM
  have hSd : ∀ t, HasDerivAt S (deriv S t) t := fun t => (hS.differentiable one_ne_zero t).hasDerivAt
  have hasc : pls.Pairwise (· < ·) := lengths_ascending hSc hm0 hm (by omega)
  have hlen : pls.length = N := by rw [hpls, List.length_map, linspace_length]
  have hthru := hcs.many pls (linspace 0 1 N) (by omega) (by rw [hlen, linspace_length]) hasc
  have hget : ∀ i, i < N → pls.getD i 0 = ∫ x in (0 : ℝ)..(linspace 0 1 N).getD i 0, S x := by
    intro i hi
    rw [hpls, List.getD_eq_getElem?_getD, List.getElem?_map, knot_some (by rw [linspace_length]; exact hi)]
    rfl
  have hval : ∀ i, i < N → cs pls (linspace 0 1 N) (pls.getD i 0) = (linspace 0 1 N).getD i 0 := fun i hi =>
    hthru.through i _ _ (knot_some (by omega)) (knot_some (by rw [linspace_length]; exact hi))
  have p0 : pls.getD 0 0 = 0 := by rw [hget 0 (by omega), grid_first (by omega)]; simp
  have p1 : pls.getD (N - 1) 0 = ∫ x in (0 : ℝ)..1, S x := by rw [hget (N - 1) (by omega), grid_last (by omega)]
  have hI0 := hval 0 (by omega)
  have hI1 := hval (N - 1) (by omega)
  rw [p0, grid_first (by omega)] at hI0
  rw [p1, grid_last (by omega)] at hI1
  refine ⟨_, rfl, hI0, hI1, hthru.smooth.differentiable (by norm_num), ?_⟩
  obtain ⟨Λ, hΛ⟩ := exists_inverse hSc (fun t _ _ => hSd t) (fun t h0 h1 => hm0.trans_le (hm t h0 h1))
  have hspl := isSpline_of hasc (n := N - 1) (by omega) (by omega) hthru
  have hx : ∀ j, j < N - 1 → (fun j => pls.getD j 0) j < (fun j => pls.getD j 0) (j + 1) := fun j hj => knots_lt hasc (by omega) j hj
  have hPos : (0 : ℝ) < ((N - 1 : ℕ) : ℝ) := by exact_mod_cast (by omega : 0 < N - 1)
  have hstep : ∀ j, j < N - 1 → m * (1 / ((N - 1 : ℕ) : ℝ)) ≤ pls.getD (j + 1) 0 - pls.getD j 0 ∧ pls.getD (j + 1) 0 - pls.getD j 0 ≤ M * (1 / ((N - 1 : ℕ) : ℝ)) := by
    intro j hj
    rw [hget j (by omega), hget (j + 1) (by omega)]
    have g := grid_step (N := N) (k := j) (by omega)
    have hq : 0 ≤ 1 / ((N - 1 : ℕ) : ℝ) := by positivity
    have hle : (linspace 0 1 N).getD j 0 ≤ (linspace 0 1 N).getD (j + 1) 0 := by linarith
    have := integral_slope hSc hm hM (grid_mem (N := N) (k := j) (by omega) (by omega)).1 hle (grid_mem (N := N) (k := j + 1) (by omega) (by omega)).2
    rwa [g] at this
  have hin : ∀ y, pls.getD 0 0 ≤ y → y ≤ pls.getD (N - 1) 0 → 0 ≤ y ∧ y ≤ ∫ x in (0 : ℝ)..1, S x := fun y a b => by rw [p0] at a; rw [p1] at b; exact ⟨a, b⟩
  have hratio : ∀ a b, m * (1 / ((N - 1 : ℕ) : ℝ)) ≤ b → a ≤ M * (1 / ((N - 1 : ℕ) : ℝ)) → a ≤ M / m * b := by
    intro a b hb ha
    refine ha.trans ?_
    calc M * (1 / ((N - 1 : ℕ) : ℝ)) = M / m * (m * (1 / ((N - 1 : ℕ) : ℝ))) := by field_simp
      _ ≤ _ := mul_le_mul_of_nonneg_left hb (by positivity)
  intro y hy0 hy1
  obtain ⟨⟨l0, l1, lP⟩, -, -⟩ := hΛ y hy0 hy1
  refine ⟨Λ y, l0, l1, lP, ?_⟩
  have h := (error2 (by omega) hx hspl (f := Λ) (f1 := fun y => 1 / S (Λ y)) (f2 := fun y => -(deriv S (Λ y)) / S (Λ y) ^ 3) (fun t a b => (hΛ t (hin t a b).1 (hin t a b).2).2.1)
    (fun t a b => (hΛ t (hin t a b).1 (hin t a b).2).2.2) (F := B / m ^ 3) (fun t a b => ?_) (fun i hi => ?_) (κ := M / m) (h := M * (1 / ((N - 1 : ℕ) : ℝ))) ?_ ?_ (fun j hj => (hstep j hj).2)
    (t := y) (by simp only [p0]; exact hy0) (by simp only [p1]; exact hy1)).2
  · exact ⟨h.2, h.1⟩
  · obtain ⟨⟨b0, b1, -⟩, -⟩ := hΛ t (hin t a b).1 (hin t a b).2
    have hS0 := hm0.trans_le (hm _ b0 b1)
    rw [abs_div, abs_neg, abs_of_pos (by positivity : 0 < S (Λ t) ^ 3)]
    exact div_le_div₀ hB0 (hB _ b0 b1) (by positivity) (pow_le_pow_left₀ hm0.le (hm _ b0 b1) 3)
  · have hi' : i < N := by omega
    simp only [hval i hi']
    -- the inverse at a knot
    have g := grid_mem (N := N) (k := i) hi' (by omega)
    have q := hget i hi'
    have r0 := (integral_slope hSc hm hM le_rfl g.1 g.2).1
    have r1 := (integral_slope hSc hm hM g.1 g.2 le_rfl).1
    simp only [intervalIntegral.integral_same, sub_zero] at r0
    rw [← q] at r0 r1
    have z0 : 0 ≤ m * (linspace 0 1 N).getD i 0 := mul_nonneg hm0.le g.1
    have z1 : 0 ≤ m * (1 - (linspace 0 1 N).getD i 0) := mul_nonneg hm0.le (by linarith [g.2])
    obtain ⟨⟨b0, b1, bP⟩, -⟩ := hΛ (pls.getD i 0) (by linarith) (by linarith)
    rw [q] at bP
    rw [q]
    rcases le_total (Λ (∫ x in (0 : ℝ)..(linspace 0 1 N).getD i 0, S x)) ((linspace 0 1 N).getD i 0) with hle | hle
    · have := (integral_slope hSc hm hM (q ▸ b0) hle g.2).1
      rw [bP, sub_self] at this
      nlinarith
    · have := (integral_slope hSc hm hM g.1 hle (q ▸ b1)).1
      rw [bP, sub_self] at this
      nlinarith
  · exact hratio _ _ (hstep 1 (by omega)).1 (hstep 0 (by omega)).2
  · have a1 := hstep (N - 1 - 1) (by omega)
    have a2 := hstep (N - 1 - 2) (by omega)
    rw [show N - 1 - 1 + 1 = N - 1 by omega] at a1
    rw [show N - 1 - 2 + 1 = N - 1 - 1 by omega] at a2
    exact hratio _ _ a2.1 a1.2

/-- The speed of a regular curve has two derivatives, which are bounded. -/
theorem speed_derivs {F : ℝ → V3} (hF : RegularCurve F) : ∃ σ1 σ2 : ℝ → ℝ, (∀ t, 0 ≤ t → t ≤ 1 → HasDerivAt (speed F) (σ1 t) t) ∧ (∀ t, 0 ≤ t → t ≤ 1 → HasDerivAt σ1 (σ2 t) t) ∧
    ∃ A m M : ℝ, 0 < m ∧ ∀ t, 0 ≤ t → t ≤ 1 → |σ1 t| ≤ A ∧ |σ2 t| ≤ A ∧ m ≤ speed F t ∧ speed F t ≤ M := by
  have hd : ∀ {X : ℝ → ℝ}, ContDiff ℝ 4 X → ∀ n : ℕ, n < 4 → ∀ t, HasDerivAt (iteratedDeriv n X) (iteratedDeriv (n + 1) X t) t := by
    intro X hX n hn t
    rw [iteratedDeriv_succ]
    exact ((hX.differentiable_iteratedDeriv n (by exact_mod_cast hn)) t).hasDerivAt
  have hc : ∀ {X : ℝ → ℝ}, ContDiff ℝ 4 X → ∀ n : ℕ, n < 4 → Continuous (iteratedDeriv n X) := fun hX n hn => continuous_iff_continuousAt.2 fun t => (hd hX n hn t).continuousAt
  set X := fun u => (F u).x
  set Y := fun u => (F u).y
  set Z := fun u => (F u).z
  set q : ℝ → ℝ := fun t => iteratedDeriv 1 X t ^ 2 + iteratedDeriv 1 Y t ^ 2 + iteratedDeriv 1 Z t ^ 2 with hq
  set q1 : ℝ → ℝ := fun t => 2 * (iteratedDeriv 1 X t * iteratedDeriv 2 X t + iteratedDeriv 1 Y t * iteratedDeriv 2 Y t + iteratedDeriv 1 Z t * iteratedDeriv 2 Z t) with hq1
  set q2 : ℝ → ℝ := fun t => 2 * ((iteratedDeriv 2 X t * iteratedDeriv 2 X t + iteratedDeriv 1 X t * iteratedDeriv 3 X t) + (iteratedDeriv 2 Y t * iteratedDeriv 2 Y t + iteratedDeriv 1 Y t * iteratedDeriv 3 Y t) +
    (iteratedDeriv 2 Z t * iteratedDeriv 2 Z t + iteratedDeriv 1 Z t * iteratedDeriv 3 Z t)) with hq2
  have hsp : speed F = fun t => √(q t) := by
    funext t
    simp only [hq, iteratedDeriv_one]
    rfl
  have hpos : ∀ t, 0 ≤ t → t ≤ 1 → 0 < q t := by
    intro t h0 h1
    have := hF.moves t h0 h1
    rw [hsp] at this
    exact Real.sqrt_pos.1 this
  have dq : ∀ t, HasDerivAt q (q1 t) t := by
    intro t
    have h := (((hd hF.x 1 (by omega) t).pow 2).add ((hd hF.y 1 (by omega) t).pow 2)).add ((hd hF.z 1 (by omega) t).pow 2)
    refine h.congr_deriv ?_
    simp only [hq1]; push_cast; ring
  have dq1 : ∀ t, HasDerivAt q1 (q2 t) t := by
    intro t
    exact ((((hd hF.x 1 (by omega) t).mul (hd hF.x 2 (by omega) t)).add ((hd hF.y 1 (by omega) t).mul (hd hF.y 2 (by omega) t))).add ((hd hF.z 1 (by omega) t).mul (hd hF.z 2 (by omega) t))).const_mul 2
  have cq : Continuous q := continuous_iff_continuousAt.2 fun t => (dq t).continuousAt
  have cq1 : Continuous q1 := continuous_iff_continuousAt.2 fun t => (dq1 t).continuousAt
  have cq2 : Continuous q2 := by
    have a := hc hF.x 1 (by omega); have b := hc hF.y 1 (by omega); have c := hc hF.z 1 (by omega)
    have a2 := hc hF.x 2 (by omega); have b2 := hc hF.y 2 (by omega); have c2 := hc hF.z 2 (by omega)
    have a3 := hc hF.x 3 (by omega); have b3 := hc hF.y 3 (by omega); have c3 := hc hF.z 3 (by omega)
    simp only [hq2]
    exact continuous_const.mul ((((a2.mul a2).add (a.mul a3)).add ((b2.mul b2).add (b.mul b3))).add ((c2.mul c2).add (c.mul c3)))
  have ds : ∀ t, 0 ≤ t → t ≤ 1 → HasDerivAt (fun t => √(q t)) (q1 t / (2 * √(q t))) t := fun t h0 h1 => (dq t).sqrt (hpos t h0 h1).ne'
  refine ⟨fun t => q1 t / (2 * √(q t)), fun t => (q2 t * (2 * √(q t)) - q1 t * (2 * (q1 t / (2 * √(q t))))) / (2 * √(q t)) ^ 2, fun t h0 h1 => by rw [hsp]; exact ds t h0 h1, fun t h0 h1 => ?_, ?_⟩
  · exact (dq1 t).div ((ds t h0 h1).const_mul 2) (by have := Real.sqrt_pos.2 (hpos t h0 h1); positivity)
  · have cs0 : Continuous (fun t => √(q t)) := cq.sqrt
    have hne : ∀ t ∈ Set.Icc (0 : ℝ) 1, 2 * √(q t) ≠ 0 := fun t ht => by have := Real.sqrt_pos.2 (hpos t ht.1 ht.2); positivity
    have c1 : ContinuousOn (fun t => q1 t / (2 * √(q t))) (Set.Icc 0 1) := cq1.continuousOn.div (continuousOn_const.mul cs0.continuousOn) hne
    have c2 : ContinuousOn (fun t => (q2 t * (2 * √(q t)) - q1 t * (2 * (q1 t / (2 * √(q t))))) / (2 * √(q t)) ^ 2) (Set.Icc 0 1) :=
      ((cq2.continuousOn.mul (continuousOn_const.mul cs0.continuousOn)).sub (cq1.continuousOn.mul (continuousOn_const.mul c1))).div ((continuousOn_const.mul cs0.continuousOn).pow 2) fun t ht => pow_ne_zero 2 (hne t ht)
    obtain ⟨A1, hA1⟩ := isCompact_Icc.exists_bound_of_continuousOn c1
    obtain ⟨A2, hA2⟩ := isCompact_Icc.exists_bound_of_continuousOn c2
    obtain ⟨M, hM⟩ := (isCompact_Icc (a := (0 : ℝ)) (b := 1)).exists_bound_of_continuousOn cs0.continuousOn
    obtain ⟨c, hc, hmin⟩ := (isCompact_Icc (a := (0 : ℝ)) (b := 1)).exists_isMinOn ⟨0, by simp⟩ cs0.continuousOn
    refine ⟨max A1 A2, √(q c), M, Real.sqrt_pos.2 (hpos c hc.1 hc.2), fun t h0 h1 => ⟨(hA1 t ⟨h0, h1⟩).trans (le_max_left _ _), (hA2 t ⟨h0, h1⟩).trans (le_max_right _ _), ?_, ?_⟩⟩
    · rw [hsp]; exact hmin ⟨h0, h1⟩
    · rw [hsp]; exact (le_abs_self _).trans (hM t ⟨h0, h1⟩)

end Traceon
