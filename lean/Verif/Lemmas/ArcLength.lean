import Verif.Spec.ArcLength
import Verif.Props.Irregular
import Verif.Lemmas.NotAKnot
import Verif.Lemmas.CubicSpline4

/-!
# Splines with equidistant knots between zero and one
-/
namespace Traceon
open Spec V3 CubicSpline

/-- The grid. -/
theorem grid_getD {N k : ℕ} (hk : k < N) : (linspace 0 1 N).getD k 0 = (k : ℝ) * (1 / ((N - 1 : ℕ) : ℝ)) := by
  rw [List.getD_eq_getElem?_getD, linspace_get hk, Option.getD_some, mul_one_div]

theorem grid_step {N k : ℕ} (hk : k + 1 < N) : (linspace 0 1 N).getD (k + 1) 0 - (linspace 0 1 N).getD k 0 = 1 / ((N - 1 : ℕ) : ℝ) := by
  rw [grid_getD hk, grid_getD (by omega)]
  push_cast
  ring

theorem grid_first {N : ℕ} (hN : 1 ≤ N) : (linspace 0 1 N).getD 0 0 = 0 := by rw [grid_getD (by omega)]; simp

theorem grid_last {N : ℕ} (hN : 2 ≤ N) : (linspace 0 1 N).getD (N - 1) 0 = 1 := by
  rw [grid_getD (by omega)]
  have : (0 : ℝ) < ((N - 1 : ℕ) : ℝ) := by exact_mod_cast (by omega : 0 < N - 1)
  field_simp

theorem grid_mem {N k : ℕ} (hk : k < N) (hN : 2 ≤ N) : 0 ≤ (linspace 0 1 N).getD k 0 ∧ (linspace 0 1 N).getD k 0 ≤ 1 := by
  rw [grid_getD hk]
  have h0 : (0 : ℝ) < ((N - 1 : ℕ) : ℝ) := by exact_mod_cast (by omega : 0 < N - 1)
  have h1 : (k : ℝ) ≤ ((N - 1 : ℕ) : ℝ) := by exact_mod_cast (by omega : k ≤ N - 1)
  refine ⟨by positivity, ?_⟩
  rw [mul_one_div, div_le_one h0]
  exact h1

/-- The spline through the samples of a function. -/
theorem grid_spline {cs : SplineMaker} (hcs : NotAKnot cs) {N : ℕ} (hN : 4 ≤ N) (f : ℝ → ℝ) :
    IsSpline (fun i => (linspace 0 1 N).getD i 0) (N - 1) (cs (linspace 0 1 N) ((linspace 0 1 N).map f)) (deriv (cs (linspace 0 1 N) ((linspace 0 1 N).map f)))
      (deriv (deriv (cs (linspace 0 1 N) ((linspace 0 1 N).map f)))) ∧
    (∀ i, i ≤ N - 1 → cs (linspace 0 1 N) ((linspace 0 1 N).map f) ((linspace 0 1 N).getD i 0) = f ((linspace 0 1 N).getD i 0)) ∧ ContDiff ℝ 2 (cs (linspace 0 1 N) ((linspace 0 1 N).map f)) := by
  have hlen := linspace_length 0 1 N
  have h := hcs.many (linspace 0 1 N) ((linspace 0 1 N).map f) (by omega) (by simp) (linspace_pairwise (by omega))
  refine ⟨isSpline_of (linspace_pairwise (by omega)) (by omega) (by omega) h, fun i hi => ?_, h.smooth⟩
  refine h.through i _ _ (knot_some (by omega)) ?_
  rw [List.getElem?_map, knot_some (by omega)]
  rfl

/-- The derivatives of the spline through the samples of a function with four derivatives. -/
theorem spline_deriv {cs : SplineMaker} (hcs : NotAKnot cs) {X : ℝ → ℝ} (hX : ContDiff ℝ 4 X) : ∃ C, 0 ≤ C ∧ ∀ N : ℕ, 4 ≤ N → ∀ t, 0 ≤ t → t ≤ 1 →
    |deriv (cs (linspace 0 1 N) ((linspace 0 1 N).map X)) t - deriv X t| ≤ C * (1 / ((N - 1 : ℕ) : ℝ)) ^ 3 := by
  have hd : ∀ n : ℕ, n < 4 → ∀ t, HasDerivAt (iteratedDeriv n X) (iteratedDeriv (n + 1) X t) t := by
    intro n hn t
    rw [iteratedDeriv_succ]
    exact ((hX.differentiable_iteratedDeriv n (by exact_mod_cast hn)) t).hasDerivAt
  have hc : Continuous (iteratedDeriv 4 X) := hX.continuous_iteratedDeriv 4 (by norm_num)
  obtain ⟨M, hM⟩ := (isCompact_Icc (a := (0 : ℝ)) (b := 1)).exists_bound_of_continuousOn hc.continuousOn
  refine ⟨26 * |M|, by positivity, fun N hN t h0 h1 => ?_⟩
  obtain ⟨hs, hv, -⟩ := grid_spline hcs hN X
  have x0 := grid_first (show 1 ≤ N by omega)
  have xn := grid_last (show 2 ≤ N by omega)
  have hstep : ∀ j, j < N - 1 → (linspace 0 1 N).getD (j + 1) 0 - (linspace 0 1 N).getD j 0 = 1 / ((N - 1 : ℕ) : ℝ) := fun j hj => grid_step (by omega)
  have e0 : iteratedDeriv 0 X = X := iteratedDeriv_zero
  have e1 : iteratedDeriv 1 X = deriv X := iteratedDeriv_one
  have hx : ∀ j, j < N - 1 → (fun j => (linspace 0 1 N).getD j 0) j < (fun j => (linspace 0 1 N).getD j 0) (j + 1) := fun j hj =>
    knots_lt (linspace_pairwise (by omega)) (n := N - 1) (by rw [linspace_length]; omega) j hj
  have h := (error4 (by omega) hx hs (f := iteratedDeriv 0 X) (f1 := iteratedDeriv 1 X) (f2 := iteratedDeriv 2 X) (f3 := iteratedDeriv 3 X) (f4 := iteratedDeriv 4 X)
    (fun t _ _ => hd 0 (by omega) t) (fun t _ _ => hd 1 (by omega) t) (fun t _ _ => hd 2 (by omega) t) (fun t _ _ => hd 3 (by omega) t) (F := |M|)
    (fun t a b => (hM t ⟨by simpa only [x0] using a, by simpa only [xn] using b⟩).trans (le_abs_self M)) (fun i hi => by rw [e0]; exact hv i hi) (κ := 1) (h := 1 / ((N - 1 : ℕ) : ℝ)) ?_ ?_ (fun j hj => (hstep j hj).le)
    (t := t) (by simp only [x0]; exact h0) (by simp only [xn]; exact h1)).2.1
  · rw [e1, show (12 + 14 * (1 : ℝ)) = 26 by norm_num] at h
    exact h
  · rw [hstep 0 (by omega), hstep 1 (by omega), one_mul]
  · have a1 := hstep (N - 1 - 1) (by omega)
    have a2 := hstep (N - 1 - 2) (by omega)
    rw [show N - 1 - 1 + 1 = N - 1 by omega] at a1
    rw [show N - 1 - 2 + 1 = N - 1 - 1 by omega] at a2
    rw [a1, a2, one_mul]

/-- The spline through perturbed samples of a function with two derivatives. -/
theorem spline_perturbed {cs : SplineMaker} (hcs : NotAKnot cs) {f f1 f2 w : ℝ → ℝ} (hf1 : ∀ t, 0 ≤ t → t ≤ 1 → HasDerivAt f (f1 t) t) (hf2 : ∀ t, 0 ≤ t → t ≤ 1 → HasDerivAt f1 (f2 t) t) {A ν : ℝ}
    (hA : ∀ t, 0 ≤ t → t ≤ 1 → |f2 t| ≤ A) {N : ℕ} (hN : 4 ≤ N) (hν : ∀ t, 0 ≤ t → t ≤ 1 → |w t - f t| ≤ ν) {t : ℝ} (h0 : 0 ≤ t) (h1 : t ≤ 1) :
    |cs (linspace 0 1 N) ((linspace 0 1 N).map w) t - f t| ≤ 36 * A * (1 / ((N - 1 : ℕ) : ℝ)) ^ 2 + 37 * ν ∧
      |deriv (cs (linspace 0 1 N) ((linspace 0 1 N).map w)) t - f1 t| ≤ 36 * A * (1 / ((N - 1 : ℕ) : ℝ)) + 38 * ν / (1 / ((N - 1 : ℕ) : ℝ)) := by
  obtain ⟨hs, hv, -⟩ := grid_spline hcs hN f
  obtain ⟨hq, hw, -⟩ := grid_spline hcs hN w
  have x0 := grid_first (show 1 ≤ N by omega)
  have xn := grid_last (show 2 ≤ N by omega)
  have hstep : ∀ j, j < N - 1 → (linspace 0 1 N).getD (j + 1) 0 - (linspace 0 1 N).getD j 0 = 1 / ((N - 1 : ℕ) : ℝ) := fun j hj => grid_step (by omega)
  have hx : ∀ j, j < N - 1 → (fun j => (linspace 0 1 N).getD j 0) j < (fun j => (linspace 0 1 N).getD j 0) (j + 1) := fun j hj =>
    knots_lt (linspace_pairwise (by omega)) (n := N - 1) (by rw [linspace_length]; omega) j hj
  have hpos : (0 : ℝ) < ((N - 1 : ℕ) : ℝ) := by exact_mod_cast (by omega : 0 < N - 1)
  have h := (error2 (by omega) hx hs (f := f) (f1 := f1) (f2 := f2) (fun t a b => hf1 t (by simpa only [x0] using a) (by simpa only [xn] using b))
    (fun t a b => hf2 t (by simpa only [x0] using a) (by simpa only [xn] using b)) (F := A) (fun t a b => hA t (by simpa only [x0] using a) (by simpa only [xn] using b)) hv (κ := 1) (h := 1 / ((N - 1 : ℕ) : ℝ)) ?_ ?_
    (fun j hj => (hstep j hj).le) (t := t) (by simp only [x0]; exact h0) (by simp only [xn]; exact h1)).2
  · have hp := perturb (by omega) (h := 1 / ((N - 1 : ℕ) : ℝ)) (by positivity) hstep (hq.sub hs) (ν := ν) (fun i hi => by
      have m := grid_mem (N := N) (k := i) (by omega) (by omega)
      simp only [hv i hi, hw i hi]
      exact hν _ m.1 m.2) (t := t) (by simp only [x0]; exact h0) (by simp only [xn]; exact h1)
    rw [show (12 + 20 * (1 : ℝ) + 4 * 1 ^ 2) = 36 by norm_num] at h
    obtain ⟨a1, a2⟩ := h
    obtain ⟨b1, b2⟩ := hp
    rw [abs_le] at a1 a2 b1 b2
    simp only [abs_le]
    refine ⟨⟨?_, ?_⟩, ?_, ?_⟩ <;> linarith
  · rw [hstep 0 (by omega), hstep 1 (by omega), one_mul]
  · have a1 := hstep (N - 1 - 1) (by omega)
    have a2 := hstep (N - 1 - 2) (by omega)
    rw [show N - 1 - 1 + 1 = N - 1 by omega] at a1
    rw [show N - 1 - 2 + 1 = N - 1 - 1 by omega] at a2
    rw [a1, a2, one_mul]

end Traceon
