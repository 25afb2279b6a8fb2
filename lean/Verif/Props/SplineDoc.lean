import Verif.Spec.SplineDoc
import Verif.Props.Spline
import Verif.Lemmas.Hermite
import Verif.Lemmas.NotAKnot2
import Verif.Lemmas.CubicSpline3

/-!
# A library that does what is documented interpolates; such a library exists
-/
namespace Traceon
open Spec V3

theorem SplineLib.Documented.correct {lib : SplineLib} (h : lib.Documented) : lib.Correct := by
  obtain ⟨hh, cs, hcs, hc⟩ := h
  refine ⟨fun z y y1 y2 hl hz hy hy1 hy2 => ⟨(hh z y y1 y2 hl hz hy hy1 hy2).1, fun k za zb ya yb ha hb hya hyb => ?_⟩, fun z y hl hz hy => ⟨(hc z y hl hz hy).1, fun k za zb ya yb ha hb hya hyb => ?_⟩⟩
  · have hk := (List.getElem?_eq_some_iff.1 hb).1
    obtain ⟨row, hr, hlen, h0, h1, -⟩ := (hh z y y1 y2 hl hz hy hy1 hy2).2 k za zb ya yb (y1[k]'(by omega)) (y1[k + 1]'(by omega)) (y2[k]'(by omega)) (y2[k + 1]'(by omega)) ha hb hya hyb
      (List.getElem?_eq_getElem _) (List.getElem?_eq_getElem _) (List.getElem?_eq_getElem _) (List.getElem?_eq_getElem _)
    exact ⟨row, hr, hlen, h0, h1⟩
  · have hlt : za < zb := by
      obtain ⟨hk, rfl⟩ := List.getElem?_eq_some_iff.1 ha
      obtain ⟨hk', rfl⟩ := List.getElem?_eq_some_iff.1 hb
      exact List.pairwise_iff_getElem.1 hz k (k + 1) hk hk' (by omega)
    obtain ⟨row, hr, hlen, hp⟩ := (hc z y hl hz hy).2 k za zb ha hb
    have ht := hcs.contract.1 z y hl hy hz
    refine ⟨row, hr, hlen, ?_, ?_⟩
    · have := hp za le_rfl hlt.le
      rw [sub_self] at this
      rw [← this]; exact ht k za ya ha hya
    · rw [← hp zb hlt.le le_rfl]; exact ht (k + 1) zb yb hb hyb

/-- The derivatives of a polynomial given by six coefficients. -/
theorem polyval_six (a b c d e f : ℝ) : polyval [a, b, c, d, e, f] = fun x => a * x ^ 5 + b * x ^ 4 + c * x ^ 3 + d * x ^ 2 + e * x + f := by
  funext x
  simp only [polyval, List.foldl_cons, List.foldl_nil]
  ring

theorem hasDerivAt_six (a b c d e f x : ℝ) : HasDerivAt (fun x : ℝ => a * x ^ 5 + b * x ^ 4 + c * x ^ 3 + d * x ^ 2 + e * x + f) (5 * a * x ^ 4 + 4 * b * x ^ 3 + 3 * c * x ^ 2 + 2 * d * x + e) x := by
  have h := (((((hasDerivAt_pow 5 x).const_mul a).add ((hasDerivAt_pow 4 x).const_mul b)).add ((hasDerivAt_pow 3 x).const_mul c)).add ((hasDerivAt_pow 2 x).const_mul d)).add ((hasDerivAt_id x).const_mul e)
  refine (h.add_const f).congr_deriv ?_
  push_cast; ring

theorem deriv_six (a b c d e f : ℝ) : deriv (polyval [a, b, c, d, e, f]) = fun x => 0 * x ^ 5 + 5 * a * x ^ 4 + 4 * b * x ^ 3 + 3 * c * x ^ 2 + 2 * d * x + e := by
  funext x
  rw [polyval_six, (hasDerivAt_six a b c d e f x).deriv]
  ring

theorem deriv2_six (a b c d e f : ℝ) : deriv (deriv (polyval [a, b, c, d, e, f])) = fun x => 20 * a * x ^ 3 + 12 * b * x ^ 2 + 6 * c * x + 2 * d := by
  funext x
  rw [deriv_six, (hasDerivAt_six 0 (5 * a) (4 * b) (3 * c) (2 * d) e x).deriv]
  ring

/-- Coefficients of a cubic polynomial around a point. -/
theorem cubic_row (p : Polynomial ℝ) (hp : p.natDegree ≤ 3) (a : ℝ) : ∃ row : List ℝ, row.length = 4 ∧ ∀ t, p.eval t = polyval row (t - a) := by
  have h := p.eval_eq_sum_range' (n := 4) (by omega)
  refine ⟨[p.coeff 3, 3 * p.coeff 3 * a + p.coeff 2, 3 * p.coeff 3 * a ^ 2 + 2 * p.coeff 2 * a + p.coeff 1, p.coeff 3 * a ^ 3 + p.coeff 2 * a ^ 2 + p.coeff 1 * a + p.coeff 0], rfl, fun t => ?_⟩
  rw [h t]
  simp only [Finset.sum_range_succ, Finset.sum_range_zero, polyval, List.foldl_cons, List.foldl_nil]
  ring

/-- **A library as documented exists** (so the hypothesis of the theorems below can be met). -/
theorem exists_documented : ∃ lib : SplineLib, lib.Documented := by
  classical
  obtain ⟨cs, hcs⟩ := exists_notAKnot
  have hrow : ∀ z y : List ℝ, 2 ≤ z.length → z.Pairwise (· < ·) → y.length = z.length → ∀ k, k + 1 < z.length →
      ∃ row : List ℝ, row.length = 4 ∧ ∀ t, z.getD k 0 ≤ t → t ≤ z.getD (k + 1) 0 → cs z y t = polyval row (t - z.getD k 0) := by
    intro z y hl hz hy k hk
    rcases Nat.lt_or_ge z.length 4 with h4 | h4
    · obtain ⟨p, hp, he, -⟩ := hcs.few z y hl (by omega) hy hz
      obtain ⟨row, hr, h⟩ := cubic_row p (by omega) (z.getD k 0)
      exact ⟨row, hr, fun t _ _ => by rw [he]; exact h t⟩
    · obtain ⟨p, hp, he⟩ := (hcs.many z y h4 hy hz).pieces k _ _ (knot_some (show k < z.length by omega)) (knot_some hk)
      obtain ⟨row, hr, h⟩ := cubic_row p hp (z.getD k 0)
      exact ⟨row, hr, fun t h1 h2 => by rw [he t ⟨h1, h2⟩]; exact h t⟩
  refine ⟨⟨exampleLib.hermite, fun z y => (List.range (z.length - 1)).map fun k =>
    if h : ∃ row : List ℝ, row.length = 4 ∧ ∀ t, z.getD k 0 ≤ t → t ≤ z.getD (k + 1) 0 → cs z y t = polyval row (t - z.getD k 0) then h.choose else []⟩, ?_, cs, hcs, ?_⟩
  · intro z y y1 y2 hl hz hy hy1 hy2
    refine ⟨by simp [exampleLib], ?_⟩
    intro k za zb ya yb ya1 yb1 ya2 yb2 ha hb hya hyb hya1 hyb1 hya2 hyb2
    have hh : zb - za ≠ 0 := by
      obtain ⟨hk, rfl⟩ := List.getElem?_eq_some_iff.1 ha
      obtain ⟨hk', rfl⟩ := List.getElem?_eq_some_iff.1 hb
      have := List.pairwise_iff_getElem.1 hz k (k + 1) hk hk' (by omega)
      linarith
    have hk : k + 1 < z.length := (List.getElem?_eq_some_iff.1 hb).1
    refine ⟨hermiteRow (zb - za) ya yb ya1 yb1 ya2 yb2, ?_, rfl, ?_⟩
    · simp only [exampleLib]
      rw [List.getElem?_map, List.getElem?_range (by omega)]
      simp only [List.getD_eq_getElem?_getD, ha, hb, hya, hyb, hya1, hyb1, hya2, hyb2, Option.map_some, Option.getD_some]
    · unfold hermiteRow
      rw [deriv2_six, deriv_six, polyval_six]
      generalize zb - za = h at *
      refine ⟨by ring, ?_, by ring, ?_, by ring, ?_⟩ <;> field_simp <;> ring
  · intro z y hl hz hy
    refine ⟨by simp, fun k za zb ha hb => ?_⟩
    have hk : k + 1 < z.length := (List.getElem?_eq_some_iff.1 hb).1
    have h := hrow z y hl hz hy k hk
    refine ⟨h.choose, ?_, h.choose_spec.1, ?_⟩
    · rw [List.getElem?_map, List.getElem?_range (by omega)]
      simp only [Option.map_some]
      rw [dif_pos h]
    · have e1 : z.getD k 0 = za := by rw [List.getD_eq_getElem?_getD, ha]; rfl
      have e2 : z.getD (k + 1) 0 = zb := by rw [List.getD_eq_getElem?_getD, hb]; rfl
      intro t h1 h2
      exact (h.choose_spec.2 t (e1.le.trans h1) (h2.trans e2.ge)).trans (congrArg (fun a => polyval h.choose (t - a)) e1)

end Traceon
