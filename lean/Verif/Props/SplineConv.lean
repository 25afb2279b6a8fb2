import Verif.Props.SplineDoc
import Verif.Props.Axial3

/-!
# C103: axially interpolated fields converge
-/
namespace Traceon
open Spec V3

/-- The rows of coefficients of an interval: quintic Hermite interpolation for the derivatives 0 to 6, a spline for the derivatives 7 and 8. -/
theorem documented_row {lib : SplineLib} (hlib : lib.Documented) {zs : List ℝ} (h4 : 4 ≤ zs.length) (hasc : zs.Pairwise (· < ·)) (D : Nat → ℝ → ℝ) :
    ∃ cs : ℕ → ℝ → ℝ, (∀ i, CubicSplineThrough zs (zs.map (D i)) (cs i)) ∧ ∀ (k : ℕ) (za zb : ℝ), zs[k]? = some za → zs[k + 1]? = some zb →
      ∃ C, (interpolationCoefficients lib zs D)[k]? = some C ∧
        (∀ i, i ≤ 6 → (C.getD i []).length = 6 ∧ quintic (C.getD i []) 0 = D i za ∧ quintic (C.getD i []) (zb - za) = D i zb ∧ deriv (quintic (C.getD i [])) 0 = D (i + 1) za ∧
          deriv (quintic (C.getD i [])) (zb - za) = D (i + 1) zb ∧ deriv (deriv (quintic (C.getD i []))) 0 = D (i + 2) za ∧ deriv (deriv (quintic (C.getD i []))) (zb - za) = D (i + 2) zb) ∧
        (∀ i, 7 ≤ i → i ≤ 8 → ∀ t, za ≤ t → t ≤ zb → quintic (C.getD i []) (t - za) = cs i t) := by
  obtain ⟨hh, cs, hcs, hc⟩ := hlib
  refine ⟨fun i => cs zs (zs.map (D i)), fun i => hcs.many zs (zs.map (D i)) h4 (by simp) hasc, fun k za zb ha hb => ?_⟩
  have hk : k + 1 < zs.length := (List.getElem?_eq_some_iff.1 hb).1
  have hd : ∀ i, i ≤ 8 → ((List.range 9).map (fun n => zs.map (D n))).getD i [] = zs.map (D i) := by
    intro i hi
    rw [List.getD_eq_getElem?_getD, List.getElem?_map, List.getElem?_range (by omega)]
    rfl
  refine ⟨(List.range ((List.range 9).map (fun n => zs.map (D n))).length).map (fun i => (splineRows lib zs ((List.range 9).map (fun n => zs.map (D n))) i).getD k []), ?_, ?_⟩
  · unfold interpolationCoefficients quinticSplineCoefficients
    rw [List.getElem?_map, List.getElem?_range (by omega)]
    rfl
  have hC : ∀ i, i ≤ 8 → ((List.range ((List.range 9).map (fun n => zs.map (D n))).length).map (fun i => (splineRows lib zs ((List.range 9).map (fun n => zs.map (D n))) i).getD k [])).getD i [] =
      (splineRows lib zs ((List.range 9).map (fun n => zs.map (D n))) i).getD k [] := by
    intro i hi
    rw [List.getD_eq_getElem?_getD, List.getElem?_map, List.getElem?_range (by simp; omega)]
    rfl
  have hya : ∀ i, (zs.map (D i))[k]? = some (D i za) := fun i => by rw [List.getElem?_map, ha]; rfl
  have hyb : ∀ i, (zs.map (D i))[k + 1]? = some (D i zb) := fun i => by rw [List.getElem?_map, hb]; rfl
  constructor
  · intro i hi
    rw [hC i (by omega)]
    unfold splineRows
    rw [if_pos (by simp; omega), hd i (by omega), hd (i + 1) (by omega), hd (i + 2) (by omega)]
    obtain ⟨row, hrow, hlen, h⟩ := (hh zs (zs.map (D i)) (zs.map (D (i + 1))) (zs.map (D (i + 2))) (by omega) hasc (by simp) (by simp) (by simp)).2 k za zb _ _ _ _ _ _ ha hb (hya i) (hyb i) (hya _) (hyb _) (hya _) (hyb _)
    rw [List.getD_eq_getElem?_getD, hrow, Option.getD_some, show quintic row = polyval row from funext (quintic_polyval hlen)]
    exact ⟨hlen, h⟩
  · intro i h7 h8 t ht ht'
    rw [hC i h8]
    unfold splineRows
    rw [if_neg (by simp; omega), hd i h8]
    obtain ⟨row, hrow, hlen, h⟩ := (hc zs (zs.map (D i)) (by omega) hasc (by simp)).2 k za zb ha hb
    rw [List.getD_eq_getElem?_getD, List.getElem?_map, hrow]
    simp only [Option.map_some, Option.getD_some]
    rw [quintic_polyval (by simp [hlen]), polyval_zeros]
    exact (h t ht ht').symm

/-- A function with a chain of derivatives and the quintic polynomial that has the same value and the same two derivatives at both ends of an interval. -/
theorem quintic_error {row : List ℝ} (hlen : row.length = 6) (D : ℕ → ℝ → ℝ) (hD : ∀ n z, HasDerivAt (D n) (D (n + 1) z) z) {i : ℕ} {za zb F : ℝ} (hab : za < zb) (hF : ∀ z, za ≤ z → z ≤ zb → |D (i + 6) z| ≤ F)
    (h : quintic row 0 = D i za ∧ quintic row (zb - za) = D i zb ∧ deriv (quintic row) 0 = D (i + 1) za ∧ deriv (quintic row) (zb - za) = D (i + 1) zb ∧ deriv (deriv (quintic row)) 0 = D (i + 2) za ∧
      deriv (deriv (quintic row)) (zb - za) = D (i + 2) zb) {z : ℝ} (hz : za ≤ z) (hz' : z ≤ zb) : |quintic row (z - za) - D i z| ≤ F * (zb - za) ^ 6 := by
  match row, hlen with
  | [a, b, c, d, e, f], hlen =>
    rw [show quintic [a, b, c, d, e, f] = polyval [a, b, c, d, e, f] from funext (quintic_polyval hlen)] at h ⊢
    rw [deriv2_six, deriv_six, polyval_six] at h
    rw [polyval_six]
    obtain ⟨a0, b0, a1, b1, a2, b2⟩ := h
    have key : ∀ (n : ℕ) (q1 q2 q3 q4 q5 q6 : ℝ) (t : ℝ), HasDerivAt (fun t => (q1 * (t - za) ^ 5 + q2 * (t - za) ^ 4 + q3 * (t - za) ^ 3 + q4 * (t - za) ^ 2 + q5 * (t - za) + q6) - D n t)
        ((0 * (t - za) ^ 5 + 5 * q1 * (t - za) ^ 4 + 4 * q2 * (t - za) ^ 3 + 3 * q3 * (t - za) ^ 2 + 2 * q4 * (t - za) + q5) - D (n + 1) t) t := by
      intro n q1 q2 q3 q4 q5 q6 t
      have h := ((hasDerivAt_six q1 q2 q3 q4 q5 q6 (t - za)).comp t ((hasDerivAt_id t).sub_const za)).sub (hD n t)
      refine h.congr_deriv ?_
      ring
    have z0 : (za - za) = 0 := sub_self _
    refine CubicSpline.hermite_error (F := F) hab (fun t _ _ => key i a b c d e f t) (fun t _ _ => key (i + 1) _ _ _ _ _ _ t) (fun t _ _ => key (i + 2) _ _ _ _ _ _ t) (fun t _ _ => key (i + 3) _ _ _ _ _ _ t)
      (fun t _ _ => key (i + 4) _ _ _ _ _ _ t) (fun t _ _ => key (i + 5) _ _ _ _ _ _ t) ?_ ?_ ?_ ?_ ?_ ?_ ?_ hz hz'
    · intro t h1 h2
      have := hF t h1 h2
      rw [show (0 * (t - za) ^ 5 + 5 * 0 * (t - za) ^ 4 + 4 * (5 * 0) * (t - za) ^ 3 + 3 * (4 * (5 * 0)) * (t - za) ^ 2 + 2 * (3 * (4 * (5 * 0))) * (t - za) + 2 * (3 * (4 * (5 * 0)))) - D (i + 5 + 1) t = -D (i + 6) t by ring_nf] <;> try (rw [abs_neg]; exact this)
    all_goals first
      | (simp only [z0]; linarith)
      | linarith

/-- The interpolated derivatives, at every position between the samples. -/
theorem interpolated {lib : SplineLib} (hlib : lib.Documented) (D : ℕ → ℝ → ℝ) (hD : ∀ n z, HasDerivAt (D n) (D (n + 1) z) z) {zmin zmax : ℝ} (hz : zmin < zmax) {F : ℝ}
    (hF : ∀ n, n ≤ 12 → ∀ z, zmin ≤ z → z ≤ zmax → |D n z| ≤ F) {N : ℕ} (hN : 4 ≤ N) (p : V3) (h0 : zmin ≤ p.z) (h1 : p.z < zmax) :
    ∃ d : ℕ → ℝ, potentialRadialDerivs p (linspace zmin zmax N) (interpolationCoefficients lib (linspace zmin zmax N) D) = some (seriesPotential (norm2d p.x p.y) d) ∧
      fieldRadialDerivs p (linspace zmin zmax N) (interpolationCoefficients lib (linspace zmin zmax N) D) = some (seriesField p (norm2d p.x p.y) d) ∧
      (∀ i, i ≤ 6 → |d i - D i p.z| ≤ F * ((zmax - zmin) / (N - 1 : ℕ)) ^ 6) ∧ ∀ i, 7 ≤ i → i ≤ 8 → |d i - D i p.z| ≤ 26 * F * ((zmax - zmin) / (N - 1 : ℕ)) ^ 4 := by
  set zs := linspace zmin zmax N with hzs
  set coeffs := interpolationCoefficients lib zs D with hco
  set dz := (zmax - zmin) / (N - 1 : ℕ) with hdz
  have hN1 : (0 : ℝ) < (N - 1 : ℕ) := by exact_mod_cast (by omega : 0 < N - 1)
  have hdz0 : 0 < dz := div_pos (by linarith) hN1
  have hlast : zmin + (N - 1 : ℕ) * dz = zmax := by rw [hdz]; field_simp; ring
  have hlen : zs.length = N := linspace_length _ _ _
  have hgrid : ∀ k : ℕ, k < zs.length → zs[k]? = some (zmin + k * dz) := by
    intro k hk; rw [hlen] at hk; exact linspace_getElem? hk
  have hgetD : ∀ k : ℕ, k < N → zs.getD k 0 = zmin + k * dz := by
    intro k hk; rw [List.getD_eq_getElem?_getD, hgrid k (by omega)]; rfl
  have hasc : zs.Pairwise (· < ·) := by
    rw [List.pairwise_iff_getElem]
    intro i j hi hj hij
    have h1 := hgrid i hi
    have h2 := hgrid j hj
    rw [List.getElem?_eq_getElem hi] at h1
    rw [List.getElem?_eq_getElem hj] at h2
    rw [Option.some.inj h1, Option.some.inj h2]
    have : (i : ℝ) < j := by exact_mod_cast hij
    nlinarith
  obtain ⟨cs, hcs, hrow⟩ := documented_row hlib (by omega : 4 ≤ zs.length) hasc D
  -- the interval
  have hq0 : 0 ≤ (p.z - zmin) / dz := div_nonneg (by linarith) hdz0.le
  have hk0 : (⌊(p.z - zmin) / dz⌋₊ : ℝ) * dz ≤ p.z - zmin := by
    have := Nat.floor_le hq0
    rwa [le_div_iff₀ hdz0] at this
  have hk1 : p.z - zmin < (⌊(p.z - zmin) / dz⌋₊ + 1) * dz := by
    have := Nat.lt_floor_add_one ((p.z - zmin) / dz)
    rwa [div_lt_iff₀ hdz0] at this
  generalize ⌊(p.z - zmin) / dz⌋₊ = k at hk0 hk1
  have hk : k + 1 < N := by
    have : (k : ℝ) < (N - 1 : ℕ) := by
      by_contra hn
      have := mul_le_mul_of_nonneg_right (not_lt.1 hn) hdz0.le
      linarith
    have : k < N - 1 := by exact_mod_cast this
    omega
  have ha := hgrid k (by omega)
  have hb := hgrid (k + 1) (by omega)
  push_cast at hb
  obtain ⟨C, hC, hherm, hcub⟩ := hrow k _ _ ha hb
  have hidx := axialIndex_grid (z := p.z) (by omega) hdz0 hgrid (k := k) (by omega) (by linarith) (by linarith) (by rw [hlen, hlast]; exact h1.le)
  have hkz : zmin ≤ zmin + k * dz := by have : (0 : ℝ) ≤ k * dz := by positivity
                                        linarith
  have hkz' : zmin + ((k : ℝ) + 1) * dz ≤ zmax := by
    rw [← hlast]
    have : ((k : ℝ) + 1) ≤ (N - 1 : ℕ) := by exact_mod_cast (by omega : k + 1 ≤ N - 1)
    nlinarith
  refine ⟨fun i => quintic (C.getD i []) (p.z - (zmin + k * dz)), ?_, ?_, ?_, ?_⟩
  · have hgd := getD_grid hgrid (k := k) (by omega)
    unfold potentialRadialDerivs axialDerivs
    rw [hidx]
    simp only [hco, hC, hgd, Option.map_some]
  · have hgd := getD_grid hgrid (k := k) (by omega)
    unfold fieldRadialDerivs axialDerivs
    rw [hidx]
    simp only [hco, hC, hgd, Option.map_some]
  · intro i hi
    obtain ⟨hl, h⟩ := hherm i hi
    have := quintic_error hl D hD (F := F) (by linarith) (fun z a b => hF (i + 6) (by omega) z (by linarith) (by linarith)) h (z := p.z) (by linarith) (by linarith)
    rwa [show zmin + ((k : ℝ) + 1) * dz - (zmin + k * dz) = dz by ring] at this
  · intro i h7 h8
    have e := hcub i h7 h8 p.z (by linarith) (by linarith)
    simp only
    rw [e]
    obtain ⟨n, rfl⟩ : ∃ n, N = n + 1 := ⟨N - 1, by omega⟩
    have hsp := isSpline_of hasc (n := n) (by omega) (by omega) (hcs i)
    have hx : ∀ j, j < n → (fun j => zs.getD j 0) j < (fun j => zs.getD j 0) (j + 1) := fun j hj => knots_lt hasc (by omega) j hj
    have hstep : ∀ j, j < n → zs.getD (j + 1) 0 - zs.getD j 0 = dz := by
      intro j hj
      rw [hgetD (j + 1) (by omega), hgetD j (by omega)]
      push_cast; ring
    have x0 : zs.getD 0 0 = zmin := by rw [hgetD 0 (by omega)]; simp
    have xn : zs.getD n 0 = zmax := by rw [hgetD n (by omega), ← hlast]; simp
    have h := (CubicSpline.error4 (by omega) hx hsp (f := D i) (f1 := D (i + 1)) (f2 := D (i + 2)) (f3 := D (i + 3)) (f4 := D (i + 4)) (fun t _ _ => hD i t) (fun t _ _ => hD (i + 1) t) (fun t _ _ => hD (i + 2) t)
      (fun t _ _ => hD (i + 3) t) (F := F) (fun t a b => hF (i + 4) (by omega) t (by simpa only [x0] using a) (by simpa only [xn] using b)) (fun j hj => ?_) (κ := 1) (h := dz) ?_ ?_ (fun j hj => (hstep j hj).le) (t := p.z) (by simp only [x0]; exact h0) (by simp only [xn]; exact h1.le)).2.2
    · rw [show (12 + 14 * (1 : ℝ)) = 26 by norm_num] at h
      exact h
    · have hjn : j < zs.length := by omega
      refine (hcs i).through j _ _ (knot_some hjn) ?_
      rw [List.getElem?_map, knot_some hjn]
      rfl
    · rw [hstep 0 (by omega), hstep 1 (by omega)]; simp
    · have a1 := hstep (n - 1) (by omega)
      have a2 := hstep (n - 2) (by omega)
      rw [show n - 1 + 1 = n by omega] at a1
      rw [show n - 2 + 1 = n - 1 by omega] at a2
      rw [a1, a2]; simp

end Traceon
