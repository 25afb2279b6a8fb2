import Verif.Lemmas.BSeries
import Mathlib.Analysis.Calculus.MeanValue
import Mathlib.Topology.MetricSpace.Thickening
import Mathlib.Analysis.SpecialFunctions.Exp
import Mathlib.Analysis.SpecialFunctions.Exponential

/-!
# The error of one step of a Runge–Kutta method, and of many
-/
namespace Traceon.BSeries
open Spec Asymptotics Filter Set

variable {E : Type*} [NormedAddCommGroup E] [NormedSpace ℝ E]

theorem stages_eq {s : ℕ} (a : Fin s → Fin s → ℝ) (ts : List Tree) (i : Fin s) :
    Tree.stages a ts i = (ts.map (fun t => ∑ j, a i j * t.stage a j)).prod := by
  induction ts with
  | nil => simp [Tree.stages]
  | cons t ts ih => simp [Tree.stages, ih]

theorem densities_eq (ts : List Tree) : ((Tree.densities ts : ℕ) : ℝ)⁻¹ = (ts.map (fun t => ((t.density : ℕ) : ℝ)⁻¹)).prod := by
  induction ts with
  | nil => simp [Tree.densities]
  | cons t ts ih => simp [Tree.densities, ← ih, mul_comm]

/-- The Taylor polynomial of `f` at `y`. -/
noncomputable def taylorAt (f : E → E) (n : ℕ) (y δ : E) : E :=
  ∑ m ∈ Finset.range (n + 1), ((Nat.factorial m : ℕ) : ℝ)⁻¹ • iteratedFDeriv ℝ m f y (fun _ => δ)

/-- The stages of a Runge–Kutta method in trees. -/
theorem stages_expand {α : Type*} {l : Filter α} {h : α → ℝ} (h0 : ∀ᶠ x in l, 0 ≤ h x ∧ h x ≤ 1) {s N : ℕ} (a : Fin s → Fin s → ℝ) (f : E → E) (y : α → E)
    (k : Fin s → α → E) (hk : ∀ i, ∀ᶠ x in l, k i x = f (y x + h x • ∑ j, a i j • k j x)) (hb : ∀ i, k i =O[l] (fun _ => (1 : ℝ)))
    (hD : ∀ m ≤ N, (fun x => iteratedFDeriv ℝ m f (y x)) =O[l] (fun _ => (1 : ℝ)))
    (hT : ∀ i, ∀ n ≤ N, (fun x => f (y x + h x • ∑ j, a i j • k j x) - taylorAt f n (y x) (h x • ∑ j, a i j • k j x)) =O[l] (fun x => h x ^ (n + 1))) :
    ∀ n ≤ N, ∀ i, (fun x => k i x - ∑ ts ∈ fl n, (h x ^ Tree.sizes ts * (wt (.node ts) * Tree.stages a ts i)) • el (fun m => iteratedFDeriv ℝ m f (y x)) (.node ts)) =O[l]
      (fun x => h x ^ (n + 1)) := by
  have hT' : ∀ i, ∀ n ≤ N, (fun x => k i x - taylorAt f n (y x) (h x • ∑ j, a i j • k j x)) =O[l] (fun x => h x ^ (n + 1)) := by
    intro i n hn
    refine (hT i n hn).congr' ?_ EventuallyEq.rfl
    filter_upwards [hk i] with x hx
    rw [← hx]
  intro n
  induction n with
  | zero =>
    intro hn i
    have := compose h0 (n := 0) (D := fun x m => iteratedFDeriv ℝ m f (y x)) (fun m hm => hD m (by omega)) (fun t => ∑ j, a i j * t.stage a j)
      (fun x => h x • ∑ j, a i j • k j x) (k i) ?_ (hT' i 0 hn)
    · simpa only [← stages_eq] using this
    · simp only [tr_zero, Finset.sum_empty, sub_zero, zero_add, pow_one]
      have h1 : (fun x => ∑ j, a i j • k j x) =O[l] (fun _ => (1 : ℝ)) := IsBigO.fun_sum (fun j _ => IsBigO.const_smul_left (hb j) (a i j))
      simpa using (isBigO_refl h l).smul h1
  | succ n ih =>
    intro hn i
    have := compose h0 (n := n + 1) (D := fun x m => iteratedFDeriv ℝ m f (y x)) (fun m hm => hD m (by omega)) (fun t => ∑ j, a i j * t.stage a j)
      (fun x => h x • ∑ j, a i j • k j x) (k i) ?_ (hT' i (n + 1) hn)
    · simpa only [← stages_eq] using this
    · have h1 : (fun x => ∑ j, a i j • (k j x - ∑ ts ∈ fl n, (h x ^ Tree.sizes ts * (wt (.node ts) * Tree.stages a ts j)) • el (fun m => iteratedFDeriv ℝ m f (y x)) (.node ts))) =O[l]
          (fun x => h x ^ (n + 1)) := IsBigO.fun_sum (fun j _ => IsBigO.const_smul_left (ih (by omega) j) (a i j))
      have h2 := (isBigO_refl h l).smul h1
      refine (h2.congr_left (fun x => ?_)).congr_right (fun x => ?_)
      · rw [sum_tr_succ]
        simp only [smul_sub, Finset.sum_sub_distrib, Finset.smul_sum, smul_smul]
        congr 1
        rw [Finset.sum_comm]
        refine Finset.sum_congr rfl (fun ts _ => ?_)
        rw [← Finset.sum_smul]
        congr 1
        rw [Finset.mul_sum, Finset.mul_sum]
        refine Finset.sum_congr rfl (fun j _ => ?_)
        rw [Tree.size, Tree.stage, pow_add, pow_one]
        ring
      · simp [pow_succ, mul_comm]

/-- A function of time from 0 on whose derivative is at most `C s^n` is at most `C s^(n+1)`. -/
theorem le_of_deriv {g g' : ℝ → E} {C s : ℝ} {n : ℕ} (hs : 0 ≤ s) (hC : 0 ≤ C) (h0 : g 0 = 0) (hg : ∀ u ∈ Icc 0 s, HasDerivWithinAt g (g' u) (Icc 0 s) u)
    (hb : ∀ u ∈ Icc 0 s, ‖g' u‖ ≤ C * u ^ n) : ‖g s‖ ≤ C * s ^ (n + 1) := by
  have := (convex_Icc (0 : ℝ) s).norm_image_sub_le_of_norm_hasDerivWithin_le hg (C := C * s ^ n)
    (fun u hu => (hb u hu).trans (by have := hu.1; have := hu.2; gcongr)) (left_mem_Icc.2 hs) (right_mem_Icc.2 hs)
  rw [h0, sub_zero, sub_zero, Real.norm_of_nonneg hs] at this
  rw [pow_succ]
  linarith

/-- The exact solution in trees. -/
theorem exact_expand {N : ℕ} (f : E → E) (Y : ℝ → E) {T h1 : ℝ} (hh1 : h1 ≤ 1)
    (hY : ∀ t ∈ Icc 0 T, HasDerivWithinAt Y (f (Y t)) (Icc 0 T) t)
    (hD : ∀ m ≤ N, (fun x : ℝ × ℝ => iteratedFDeriv ℝ m f (Y x.1)) =O[𝓟 {x : ℝ × ℝ | 0 ≤ x.1 ∧ 0 ≤ x.2 ∧ x.2 ≤ h1 ∧ x.1 + x.2 ≤ T}] (fun _ => (1 : ℝ)))
    (hb : (fun x : ℝ × ℝ => Y (x.1 + x.2) - Y x.1) =O[𝓟 {x : ℝ × ℝ | 0 ≤ x.1 ∧ 0 ≤ x.2 ∧ x.2 ≤ h1 ∧ x.1 + x.2 ≤ T}] (fun x => x.2))
    (hT : ∀ n ≤ N, (fun x : ℝ × ℝ => f (Y (x.1 + x.2)) - taylorAt f n (Y x.1) (Y (x.1 + x.2) - Y x.1)) =O[𝓟 {x : ℝ × ℝ | 0 ≤ x.1 ∧ 0 ≤ x.2 ∧ x.2 ≤ h1 ∧ x.1 + x.2 ≤ T}]
      (fun x => x.2 ^ (n + 1))) :
    ∀ n ≤ N + 1, (fun x : ℝ × ℝ => Y (x.1 + x.2) - Y x.1 - ∑ t ∈ tr n, (x.2 ^ t.size * (wt t * ((t.density : ℕ) : ℝ)⁻¹)) • el (fun m => iteratedFDeriv ℝ m f (Y x.1)) t)
      =O[𝓟 {x : ℝ × ℝ | 0 ≤ x.1 ∧ 0 ≤ x.2 ∧ x.2 ≤ h1 ∧ x.1 + x.2 ≤ T}] (fun x => x.2 ^ (n + 1)) := by
  set S : Set (ℝ × ℝ) := {x : ℝ × ℝ | 0 ≤ x.1 ∧ 0 ≤ x.2 ∧ x.2 ≤ h1 ∧ x.1 + x.2 ≤ T} with hS
  have h0 : ∀ᶠ x in 𝓟 S, 0 ≤ x.2 ∧ x.2 ≤ 1 := by
    rw [eventually_principal]
    intro x hx
    exact ⟨hx.2.1, hx.2.2.1.trans hh1⟩
  intro n
  induction n with
  | zero =>
    intro _
    simpa [tr_zero] using hb
  | succ n ih =>
    intro hn
    have hc := compose h0 (n := n) (D := fun x m => iteratedFDeriv ℝ m f (Y x.1)) (fun m hm => hD m (by omega)) (fun t => ((t.density : ℕ) : ℝ)⁻¹)
      (fun x => Y (x.1 + x.2) - Y x.1) (fun x => f (Y (x.1 + x.2))) (ih (by omega)) (hT n (by omega))
    rw [isBigO_principal] at hc ⊢
    obtain ⟨C, hC⟩ := hc
    refine ⟨max C 0, ?_⟩
    rintro ⟨t, s⟩ ⟨ht, hs, hs1, hts⟩
    dsimp only at ht hs hs1 hts ⊢
    rw [Real.norm_of_nonneg (pow_nonneg hs _)]
    refine le_of_deriv (g := fun u => Y (t + u) - Y t - ∑ τ ∈ tr (n + 1), (u ^ τ.size * (wt τ * ((τ.density : ℕ) : ℝ)⁻¹)) • el (fun m => iteratedFDeriv ℝ m f (Y t)) τ)
      (g' := fun u => f (Y (t + u)) - ∑ ts ∈ fl n, (u ^ Tree.sizes ts * (wt (.node ts) * (ts.map (fun t => ((t.density : ℕ) : ℝ)⁻¹)).prod)) • el (fun m => iteratedFDeriv ℝ m f (Y t)) (.node ts))
      hs (le_max_right _ _) ?_ ?_ ?_
    · simp only [add_zero, sub_self, zero_sub, neg_eq_zero]
      refine Finset.sum_eq_zero (fun τ _ => ?_)
      rw [zero_pow (by have := size_pos τ; omega)]
      simp
    · intro u hu
      have e1 : HasDerivWithinAt (fun u => Y (t + u)) (f (Y (t + u))) (Icc 0 s) u := by
        have := (hY (t + u) ⟨by linarith [hu.1], by linarith [hu.2]⟩).scomp (h := fun u => t + u) (h' := (1 : ℝ)) u
          (t' := Icc 0 T) (s := Icc 0 s) ?_ ?_
        · simpa [Function.comp_def] using this
        · exact ((hasDerivWithinAt_id u _).const_add t)
        · intro v hv; exact ⟨by have := hv.1; simp only; linarith, by have := hv.2; simp only; linarith⟩
      have e2 : HasDerivAt (fun u : ℝ => ∑ τ ∈ tr (n + 1), (u ^ τ.size * (wt τ * ((τ.density : ℕ) : ℝ)⁻¹)) • el (fun m => iteratedFDeriv ℝ m f (Y t)) τ)
          (∑ ts ∈ fl n, (u ^ Tree.sizes ts * (wt (.node ts) * (ts.map (fun t => ((t.density : ℕ) : ℝ)⁻¹)).prod)) • el (fun m => iteratedFDeriv ℝ m f (Y t)) (.node ts)) u := by
        simp only [sum_tr_succ]
        refine HasDerivAt.fun_sum (fun ts _ => ?_)
        have := (((hasDerivAt_pow (Spec.Tree.node ts).size u).mul_const (wt (.node ts) * (((Spec.Tree.node ts).density : ℕ) : ℝ)⁻¹))).smul_const
          (el (fun m => iteratedFDeriv ℝ m f (Y t)) (.node ts))
        refine this.congr_deriv ?_
        congr 1
        rw [← densities_eq, Tree.density, Tree.size]
        push_cast
        have : (1 + (Tree.sizes ts : ℝ)) ≠ 0 := by positivity
        rw [Nat.add_sub_cancel_left, mul_inv]
        field_simp
      exact (e1.sub_const (Y t)).sub e2.hasDerivWithinAt
    · intro u hu
      have := hC (t, u) ⟨ht, hu.1, hu.2.trans hs1, by dsimp only; linarith [hu.2]⟩
      dsimp only at this
      rw [Real.norm_of_nonneg (pow_nonneg hu.1 _)] at this
      exact this.trans (mul_le_mul_of_nonneg_right (le_max_left _ _) (pow_nonneg hu.1 _))

/-! ## A neighbourhood of the trajectory -/

/-- A trajectory `Y` of y' = f(y) for times from 0 to `T` and a neighbourhood in which `f` and its derivatives are bounded. -/
structure Tube (f : E → E) (Y : ℝ → E) (T R M : ℝ) (p : ℕ) : Prop where
  pos : 0 < R
  nonneg : 0 ≤ M
  solves : ∀ t ∈ Icc 0 T, HasDerivWithinAt Y (f (Y t)) (Icc 0 T) t
  smooth : ∀ t ∈ Icc 0 T, ∀ y, ‖y - Y t‖ ≤ R → ContDiffAt ℝ p f y
  bound : ∀ t ∈ Icc 0 T, ∀ y, ‖y - Y t‖ ≤ R → ∀ m ≤ p, ‖iteratedFDeriv ℝ m f y‖ ≤ M

theorem exists_tube [ProperSpace E] {f : E → E} {U : Set E} {p : ℕ} (hU : IsOpen U) (hf : ContDiffOn ℝ p f U) {Y : ℝ → E} {T : ℝ}
    (hY : ∀ t ∈ Icc 0 T, HasDerivWithinAt Y (f (Y t)) (Icc 0 T) t) (hYU : ∀ t ∈ Icc 0 T, Y t ∈ U) : ∃ R M, Tube f Y T R M p := by
  have hcont : ContinuousOn Y (Icc 0 T) := fun t ht => (hY t ht).continuousWithinAt
  have hK : IsCompact (Y '' Icc 0 T) := isCompact_Icc.image_of_continuousOn hcont
  obtain ⟨R, hR, hRU⟩ := hK.exists_cthickening_subset_open hU (by rintro _ ⟨t, ht, rfl⟩; exact hYU t ht)
  have hV : IsCompact (Metric.cthickening R (Y '' Icc 0 T)) := hK.cthickening
  have hb : ∀ m ≤ p, ∃ M, ∀ y ∈ Metric.cthickening R (Y '' Icc 0 T), ‖iteratedFDeriv ℝ m f y‖ ≤ M := by
    intro m hm
    have hc : ContinuousOn (iteratedFDeriv ℝ m f) U := by
      have h1 := hf.continuousOn_iteratedFDerivWithin (m := m) (by exact_mod_cast hm) hU.uniqueDiffOn
      exact h1.congr (fun y hy => (iteratedFDerivWithin_of_isOpen m hU hy).symm)
    exact hV.exists_bound_of_continuousOn (hc.mono hRU)
  choose! M hM using hb
  have hmem : ∀ t ∈ Icc 0 T, ∀ y, ‖y - Y t‖ ≤ R → y ∈ Metric.cthickening R (Y '' Icc 0 T) := fun t ht y hy =>
    Metric.mem_cthickening_of_dist_le y (Y t) R _ ⟨t, ht, rfl⟩ (by rwa [dist_eq_norm])
  refine ⟨R, ∑ m ∈ Finset.range (p + 1), |M m|, hR, Finset.sum_nonneg (fun _ _ => abs_nonneg _), hY, ?_, ?_⟩
  · intro t ht y hy
    exact hf.contDiffAt (hU.mem_nhds (hRU (hmem t ht y hy)))
  · intro t ht y hy m hm
    refine (hM m hm y (hmem t ht y hy)).trans ((le_abs_self _).trans ?_)
    exact Finset.single_le_sum (f := fun m => |M m|) (fun _ _ => abs_nonneg _) (Finset.mem_range.2 (by omega))

section
variable {f : E → E} {Y : ℝ → E} {T R M : ℝ} {p : ℕ}

theorem Tube.norm_f (h : Tube f Y T R M p) {t : ℝ} (ht : t ∈ Icc 0 T) {y : E} (hy : ‖y - Y t‖ ≤ R) : ‖f y‖ ≤ M := by
  simpa using h.bound t ht y hy 0 (Nat.zero_le _)

theorem Tube.mem_self (h : Tube f Y T R M p) (t : ℝ) : ‖Y t - Y t‖ ≤ R := by simp [h.pos.le]

theorem Tube.lipschitz (h : Tube f Y T R M (p + 1)) {t : ℝ} (ht : t ∈ Icc 0 T) {y y' : E} (hy : ‖y - Y t‖ ≤ R) (hy' : ‖y' - Y t‖ ≤ R) : ‖f y - f y'‖ ≤ M * ‖y - y'‖ := by
  refine (convex_closedBall (Y t) R).norm_image_sub_le_of_norm_fderiv_le (𝕜 := ℝ) (f := f) (C := M) (fun z hz => ?_) (fun z hz => ?_) ?_ ?_
  · exact (h.smooth t ht z (by rwa [mem_closedBall_iff_norm] at hz)).differentiableAt (by simp)
  · rw [mem_closedBall_iff_norm] at hz
    have := h.bound t ht z hz 1 (by omega)
    rwa [norm_iteratedFDeriv_one] at this
  · rwa [mem_closedBall_iff_norm]
  · rwa [mem_closedBall_iff_norm]

variable [CompleteSpace E]

theorem Tube.taylor (h : Tube f Y T R M p) {t : ℝ} (ht : t ∈ Icc 0 T) {δ : E} (hδ : ‖δ‖ ≤ R) {n : ℕ} (hn : n + 1 ≤ p) :
    ‖f (Y t + δ) - taylorAt f n (Y t) δ‖ ≤ M * ‖δ‖ ^ (n + 1) := by
  have hseg : ∀ u ∈ Icc (0 : ℝ) 1, ‖Y t + u • δ - Y t‖ ≤ R := by
    intro u hu
    rw [add_sub_cancel_left, norm_smul, Real.norm_of_nonneg hu.1]
    exact (mul_le_of_le_one_left (norm_nonneg _) hu.2).trans hδ
  have key := map_add_eq_sum_add_integral_iteratedFDeriv (f := f) (x := Y t) (y := δ) (n := n)
    (fun u hu => (h.smooth t ht _ (hseg u hu)).of_le (by exact_mod_cast hn))
  rw [taylorAt, key, add_sub_cancel_left, norm_smul]
  have hint : ‖∫ u in (0 : ℝ)..1, (1 - u) ^ n • iteratedFDeriv ℝ (n + 1) f (Y t + u • δ) (fun _ => δ)‖ ≤ M * ‖δ‖ ^ (n + 1) * |1 - 0| := by
    refine intervalIntegral.norm_integral_le_of_norm_le_const (fun u hu => ?_)
    rw [uIoc_of_le zero_le_one] at hu
    have hu' : u ∈ Icc (0 : ℝ) 1 := ⟨hu.1.le, hu.2⟩
    rw [norm_smul, norm_pow, Real.norm_of_nonneg (by linarith [hu.2])]
    have h1 := (iteratedFDeriv ℝ (n + 1) f (Y t + u • δ)).le_opNorm (fun _ => δ)
    rw [Finset.prod_const, Finset.card_univ, Fintype.card_fin] at h1
    have h2 := h.bound t ht _ (hseg u hu') (n + 1) hn
    have h3 : (1 - u) ^ n ≤ 1 := pow_le_one₀ (by linarith [hu.2]) (by linarith [hu.1])
    calc (1 - u) ^ n * ‖iteratedFDeriv ℝ (n + 1) f (Y t + u • δ) (fun _ => δ)‖ ≤ 1 * (M * ‖δ‖ ^ (n + 1)) := by
          refine mul_le_mul h3 (h1.trans ?_) (norm_nonneg _) zero_le_one
          exact mul_le_mul_of_nonneg_right h2 (by positivity)
      _ = _ := one_mul _
  rw [sub_zero, abs_one, mul_one] at hint
  have hfac : ‖((Nat.factorial n : ℕ) : ℝ)⁻¹‖ ≤ 1 := by
    rw [norm_inv, Real.norm_of_nonneg (by positivity)]
    exact inv_le_one_of_one_le₀ (by exact_mod_cast Nat.factorial_pos n)
  calc _ ≤ 1 * (M * ‖δ‖ ^ (n + 1)) := mul_le_mul hfac hint (norm_nonneg _) zero_le_one
    _ = _ := one_mul _

end

end Traceon.BSeries
