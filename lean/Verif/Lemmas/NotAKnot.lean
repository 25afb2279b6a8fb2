import Verif.Spec.NotAKnot
import Verif.Lemmas.CubicSpline3
import Mathlib.Algebra.Polynomial.Roots
import Mathlib.Analysis.Calculus.Deriv.Polynomial
import Mathlib.Analysis.Calculus.ContDiff.Polynomial
import Mathlib.Topology.Algebra.Polynomial
import Mathlib.Topology.Order.DenselyOrdered

/-!
# The splines of scipy
-/
namespace Traceon
open Spec CubicSpline

theorem deriv2_of_cubic {s : ℝ → ℝ} (hs : ContDiff ℝ 2 s) {a b : ℝ} (hab : a < b) (h : CubicOn s (Set.Icc a b)) :
    ∃ c d : ℝ, ∀ t, a ≤ t → t ≤ b → deriv (deriv s) t = c + d * t := by
  obtain ⟨p, hp, he⟩ := h
  obtain ⟨hd, hs1⟩ := contDiff_succ_iff_deriv.1 (show ContDiff ℝ (1 + 1) s from by rw [one_add_one_eq_two]; exact hs) |>.imp_right And.right
  have hc2 : Continuous (deriv (deriv s)) := (contDiff_one_iff_deriv.1 hs1).2
  have hop : ∀ t ∈ Set.Ioo a b, deriv (deriv s) t = (Polynomial.derivative (Polynomial.derivative p)).eval t := by
    intro t ht
    have hnh : ∀ t ∈ Set.Ioo a b, deriv s t = (Polynomial.derivative p).eval t := by
      intro t ht
      have : s =ᶠ[nhds t] fun t => p.eval t := by
        filter_upwards [isOpen_Ioo.mem_nhds ht] with u hu
        exact he u ⟨hu.1.le, hu.2.le⟩
      rw [this.deriv_eq, Polynomial.deriv]
    have : deriv s =ᶠ[nhds t] fun t => (Polynomial.derivative p).eval t := by
      filter_upwards [isOpen_Ioo.mem_nhds ht] with u hu
      exact hnh u hu
    rw [this.deriv_eq, Polynomial.deriv]
  have hcl : Set.EqOn (deriv (deriv s)) (fun t => (Polynomial.derivative (Polynomial.derivative p)).eval t) (Set.Icc a b) := by
    have := Set.EqOn.closure (s := Set.Ioo a b) (fun t ht => hop t ht) hc2 (Polynomial.continuous _)
    rwa [closure_Ioo hab.ne] at this
  have hdeg : (Polynomial.derivative (Polynomial.derivative p)).natDegree ≤ 1 := by
    have h1 := Polynomial.natDegree_derivative_le p
    have h2 := Polynomial.natDegree_derivative_le (Polynomial.derivative p)
    omega
  obtain ⟨d, c, hq⟩ := Polynomial.exists_eq_X_add_C_of_natDegree_le_one hdeg
  refine ⟨c, d, fun t h1 h2 => ?_⟩
  rw [hcl ⟨h1, h2⟩, hq]
  simp
  ring

/-- Knots as a function. -/
theorem knots_lt {xs : List ℝ} (hx : xs.Pairwise (· < ·)) {n : ℕ} (hn : xs.length = n + 1) (i : ℕ) (hi : i < n) : xs.getD i 0 < xs.getD (i + 1) 0 := by
  have h1 : xs.getD i 0 = xs[i] := by simp [List.getD, List.getElem?_eq_getElem (show i < xs.length by omega)]
  have h2 : xs.getD (i + 1) 0 = xs[i + 1] := by simp [List.getD, List.getElem?_eq_getElem (show i + 1 < xs.length by omega)]
  rw [h1, h2]
  exact List.pairwise_iff_getElem.1 hx i (i + 1) (by omega) (by omega) (by omega)

theorem knot_some {xs : List ℝ} {i : ℕ} (hi : i < xs.length) : xs[i]? = some (xs.getD i 0) := by
  simp [List.getD, List.getElem?_eq_getElem hi]

theorem isSpline_of {xs ys : List ℝ} {s : ℝ → ℝ} (hx : xs.Pairwise (· < ·)) {n : ℕ} (hn : xs.length = n + 1) (h3 : 3 ≤ n) (h : CubicSplineThrough xs ys s) :
    IsSpline (fun i => xs.getD i 0) n s (deriv s) (deriv (deriv s)) := by
  have hlt := knots_lt hx hn
  have hs := h.smooth
  obtain ⟨hd, hs1⟩ := contDiff_succ_iff_deriv.1 (show ContDiff ℝ (1 + 1) s from by rw [one_add_one_eq_two]; exact hs) |>.imp_right And.right
  have lin_of : ∀ a b c d : ℝ, a < b → ∀ t, c + d * t = lin a b (c + d * a) (c + d * b) t := by
    intro a b c d hab t
    unfold lin
    have := (sub_pos.2 hab).ne'
    field_simp
    ring
  refine ⟨fun t _ _ => (hd t).hasDerivAt, fun t _ _ => ((contDiff_one_iff_deriv.1 hs1).1 t).hasDerivAt, ?_, ?_, ?_⟩
  · intro i hi t h1 h2
    obtain ⟨c, d, hcd⟩ := deriv2_of_cubic hs (hlt i hi) (h.pieces i _ _ (knot_some (by omega)) (knot_some (by omega)))
    rw [hcd t h1 h2, hcd _ le_rfl (hlt i hi).le, hcd _ (hlt i hi).le le_rfl]
    exact lin_of _ _ _ _ (hlt i hi) t
  · obtain ⟨p, hp, hpe⟩ := h.first _ (knot_some (by omega))
    have l0 := hlt 0 (by omega)
    have l1 := hlt 1 (by omega)
    rw [show 0 + 1 = 1 from rfl] at l0
    rw [show 1 + 1 = 2 from rfl] at l1
    obtain ⟨c, d, hcd⟩ := deriv2_of_cubic hs (l0.trans l1) ⟨p, hp, fun t ht => hpe t ht.2⟩
    rw [hcd _ le_rfl (l0.trans l1).le, hcd _ l0.le l1.le, hcd _ (l0.trans l1).le le_rfl]
    ring
  · obtain ⟨p, hp, hpe⟩ := h.last _ (knot_some (by omega))
    have l0 := hlt (n - 2) (by omega)
    have l1 := hlt (n - 1) (by omega)
    rw [show n - 2 + 1 = n - 1 by omega] at l0
    rw [show n - 1 + 1 = n by omega] at l1
    rw [show xs.length - 3 = n - 2 by omega] at hpe
    obtain ⟨c, d, hcd⟩ := deriv2_of_cubic hs (l0.trans l1) ⟨p, hp, fun t ht => hpe t ht.1⟩
    rw [hcd _ le_rfl (l0.trans l1).le, hcd _ l0.le l1.le, hcd _ (l0.trans l1).le le_rfl]
    ring

/-- The documented spline meets the contract used in C74. -/
theorem Spec.NotAKnot.contract {cs : SplineMaker} (h : NotAKnot cs) : SplineContract cs := by
  refine ⟨fun xs ys hl hy hx i x y h1 h2 => ?_, fun xs ys hl hy hx => ?_, fun xs p hl hx hp hp' => ?_⟩
  · rcases Nat.lt_or_ge xs.length 4 with h4 | h4
    · obtain ⟨p, -, he, ht⟩ := h.few xs ys hl (by omega) hy hx
      rw [he]; exact ht i x y h1 h2
    · exact (h.many xs ys h4 hy hx).through i x y h1 h2
  · rcases Nat.lt_or_ge xs.length 4 with h4 | h4
    · obtain ⟨p, -, he, -⟩ := h.few xs ys hl (by omega) hy hx
      rw [he]
      have := Polynomial.contDiff_aeval (𝕜 := ℝ) p 1
      simpa [Polynomial.coe_aeval_eq_eval] using this
    · exact (h.many xs ys h4 hy hx).smooth.of_le (by norm_num)
  · rcases Nat.lt_or_ge xs.length 4 with h4 | h4
    · obtain ⟨q, hq, he, ht⟩ := h.few xs (xs.map p.eval) hl (by omega) (by simp) hx
      rw [he]
      have : q = p := by
        refine Polynomial.eq_of_natDegree_lt_card_of_eval_eq' q p xs.toFinset ?_ ?_
        · intro a ha
          obtain ⟨i, hi, rfl⟩ := List.getElem_of_mem (List.mem_toFinset.1 ha)
          exact ht i xs[i] _ (by simp [hi]) (by simp [hi])
        · rw [List.toFinset_card_of_nodup (hx.imp fun h => h.ne)]
          omega
      rw [this]
    · obtain ⟨n, hn⟩ : ∃ n, xs.length = n + 1 := ⟨xs.length - 1, by omega⟩
      have hm := h.many xs (xs.map p.eval) h4 (by simp) hx
      have hsp := isSpline_of hx hn (by omega) hm
      have hlt := knots_lt hx hn
      have hdp : ∀ (q : Polynomial ℝ) (t : ℝ), HasDerivAt (fun t => q.eval t) ((Polynomial.derivative q).eval t) t := fun q t => q.hasDerivAt t
      have hz : Polynomial.derivative (Polynomial.derivative (Polynomial.derivative (Polynomial.derivative p))) = 0 := by
        have h1 := Polynomial.natDegree_derivative_le p
        have h2 := Polynomial.natDegree_derivative_le (Polynomial.derivative p)
        have h3 := Polynomial.natDegree_derivative_le (Polynomial.derivative (Polynomial.derivative p))
        exact Polynomial.derivative_of_natDegree_zero (by omega)
      have l0 := hlt 0 (by omega)
      have l1 := hlt 1 (by omega)
      rw [show 0 + 1 = 1 from rfl] at l0
      rw [show 1 + 1 = 2 from rfl] at l1
      have r0 := hlt (n - 2) (by omega)
      have r1 := hlt (n - 1) (by omega)
      rw [show n - 2 + 1 = n - 1 by omega] at r0
      rw [show n - 1 + 1 = n by omega] at r1
      have hmid : ∀ t, xs.getD 0 0 ≤ t → t ≤ xs.getD n 0 → cs xs (xs.map p.eval) t = p.eval t := by
        intro t ht ht'
        have e := (error4 (x := fun i => xs.getD i 0) (by omega) hlt hsp (f := fun t => p.eval t) (fun t _ _ => hdp _ t) (fun t _ _ => hdp _ t) (fun t _ _ => hdp _ t) (fun t _ _ => hdp _ t) (F := 0) (fun t _ _ => by rw [hz]; simp)
          (fun i hi => hm.through i _ _ (knot_some (by omega)) (by rw [List.getElem?_map, knot_some (by omega)]; rfl))
          (κ := max ((xs.getD 1 0 - xs.getD 0 0) / (xs.getD 2 0 - xs.getD 1 0)) ((xs.getD n 0 - xs.getD (n - 1) 0) / (xs.getD (n - 1) 0 - xs.getD (n - 2) 0)))
          (h := xs.getD n 0 - xs.getD 0 0)
          ((div_le_iff₀ (sub_pos.2 l1)).1 (le_max_left _ _)) ((div_le_iff₀ (sub_pos.2 r0)).1 (le_max_right _ _))
          (fun i hi => by
            have a := knots_mono hlt (Nat.zero_le i) (by omega)
            have b := knots_mono hlt (show i + 1 ≤ n by omega) le_rfl
            linarith) ht ht').2.2
        simp only [mul_zero, zero_mul] at e
        exact sub_eq_zero.1 (abs_nonpos_iff.1 e)
      have same : ∀ (a b : ℝ) (q : Polynomial ℝ), a < b → xs.getD 0 0 ≤ a → b ≤ xs.getD n 0 → (∀ t ∈ Set.Icc a b, cs xs (xs.map p.eval) t = q.eval t) → q = p := by
        intro a b q hab h1 h2 hq
        refine Polynomial.eq_of_infinite_eval_eq q p (Set.Infinite.mono (s := Set.Icc a b) (fun t ht => ?_) (Set.Icc_infinite hab))
        show q.eval t = p.eval t
        rw [← hq t ht, hmid t (h1.trans ht.1) (ht.2.trans h2)]
      funext t
      rcases le_total t (xs.getD 0 0) with h0 | h0
      · obtain ⟨q, -, hq⟩ := hm.first _ (knot_some (by omega))
        rw [hq t (h0.trans (l0.trans l1).le), same _ _ q (l0.trans l1) le_rfl (knots_mono hlt (by omega) le_rfl) (fun t ht => hq t ht.2)]
      rcases le_total t (xs.getD n 0) with h1 | h1
      · exact hmid t h0 h1
      · obtain ⟨q, -, hq⟩ := hm.last _ (knot_some (by omega))
        rw [show xs.length - 3 = n - 2 by omega] at hq
        rw [hq t ((r0.trans r1).le.trans h1), same _ _ q (r0.trans r1) (knots_mono hlt (Nat.zero_le _) (by omega)) le_rfl (fun t ht => hq t ht.1)]

end Traceon
