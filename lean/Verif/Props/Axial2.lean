import Verif.Props.Axial
import Mathlib.Analysis.Calculus.Deriv.Pow

/-!
# C52: the radial series; C53: axial interpolation reads coefficients that exist
-/
namespace Traceon
open Real Spec V3

/-! ## Specification -/
namespace Spec

/-- `L` is the Laplacian of `f` at `p`: the sum of the derivatives of the components of the gradient of `f`. -/
def IsLaplacian (f : V3 → ℝ) (L : ℝ) (p : V3) : Prop :=
  ∃ g : V3 → V3, (∀ q, IsGradient f (g q) q) ∧ ∃ a b c : ℝ, HasDerivAt (fun t => (g ⟨t, p.y, p.z⟩).x) a p.x ∧
    HasDerivAt (fun t => (g ⟨p.x, t, p.z⟩).y) b p.y ∧ HasDerivAt (fun t => (g ⟨p.x, p.y, t⟩).z) c p.z ∧ L = a + b + c

/-- A uniform grid of at least two samples. -/
def UniformGrid (zs : List ℝ) : Prop := 2 ≤ zs.length ∧ ∃ z0 dz : ℝ, 0 < dz ∧ ∀ k : ℕ, k < zs.length → zs[k]? = some (z0 + k * dz)

end Spec

/-! ## The radial series -/

theorem norm2d_even (x y : ℝ) : norm2d x y ^ 2 = x * x + y * y ∧ norm2d x y ^ 4 = (x * x + y * y) ^ 2 ∧ norm2d x y ^ 6 = (x * x + y * y) ^ 3 ∧
    norm2d x y ^ 8 = (x * x + y * y) ^ 4 := by
  have h := norm2d_sq' x y
  refine ⟨h, ?_, ?_, ?_⟩ <;> rw [← h] <;> ring

/-- The series in terms of `r²`, with values `d` that do not depend on x and y. -/
theorem seriesPotential_hasDerivAt (d : Nat → ℝ) (p : V3) :
    HasDerivAt (fun x => seriesPotential (norm2d x p.y) d) (-(seriesField p (norm2d p.x p.y) d).x) p.x ∧
    HasDerivAt (fun y => seriesPotential (norm2d p.x y) d) (-(seriesField p (norm2d p.x p.y) d).y) p.y := by
  have key : ∀ s : ℝ, HasDerivAt (fun s : ℝ => d 0 - s / 4 * d 2 + s ^ 2 / 64 * d 4 - s ^ 3 / 2304 * d 6 + s ^ 4 / 147456 * d 8)
      (-(1 / 4 * d 2) + 2 * s / 64 * d 4 - 3 * s ^ 2 / 2304 * d 6 + 4 * s ^ 3 / 147456 * d 8) s := by
    intro s
    have h1 := ((hasDerivAt_id s).div_const 4).mul_const (d 2)
    have h2 := (((hasDerivAt_id s).pow 2).div_const 64).mul_const (d 4)
    have h3 := (((hasDerivAt_id s).pow 3).div_const 2304).mul_const (d 6)
    have h4 := (((hasDerivAt_id s).pow 4).div_const 147456).mul_const (d 8)
    refine HasDerivAt.congr_deriv (((((hasDerivAt_const s (d 0)).sub h1).add h2).sub h3).add h4) ?_
    simp only [id]; push_cast; ring
  have hx : HasDerivAt (fun x : ℝ => x * x + p.y * p.y) (2 * p.x) p.x :=
    HasDerivAt.congr_deriv (((hasDerivAt_id p.x).mul (hasDerivAt_id p.x)).add_const _) (by simp only [id]; ring)
  have hy : HasDerivAt (fun y : ℝ => p.x * p.x + y * y) (2 * p.y) p.y :=
    HasDerivAt.congr_deriv (((hasDerivAt_id p.y).mul (hasDerivAt_id p.y)).const_add _) (by simp only [id]; ring)
  have e := norm2d_even
  simp only [seriesPotential, seriesField, (e _ _).1, (e _ _).2.1, (e _ _).2.2.1, (e _ _).2.2.2]
  constructor
  · refine HasDerivAt.congr_deriv ((key _).comp p.x hx) ?_
    ring
  · refine HasDerivAt.congr_deriv ((key _).comp p.y hy) ?_
    ring

/-- **C52** (transversal components). For every table of samples and of coefficients and for every point at which the routine reads coefficients that exist, or that is outside of the
interpolation range, `E_x` and `E_y` are exactly minus the derivatives of the interpolated potential with respect to x and y. -/
theorem C52_transversal (zs : List ℝ) (coeffs : Coeffs) (p E : V3) (h : fieldRadialDerivs p zs coeffs = some E) :
    HasDerivAt (fun x => (potentialRadialDerivs ⟨x, p.y, p.z⟩ zs coeffs).getD 0) (-E.x) p.x ∧
    HasDerivAt (fun y => (potentialRadialDerivs ⟨p.x, y, p.z⟩ zs coeffs).getD 0) (-E.y) p.y := by
  unfold fieldRadialDerivs at h
  unfold potentialRadialDerivs
  simp only
  cases hi : axialIndex zs p.z with
  | none =>
    rw [hi] at h
    obtain rfl : (0 : V3) = E := by simpa using h
    simp only [Option.getD_some, zero_x, zero_y, neg_zero]
    exact ⟨hasDerivAt_const _ _, hasDerivAt_const _ _⟩
  | some i =>
    rw [hi] at h
    simp only at h ⊢
    cases hd : axialDerivs zs coeffs i p.z with
    | none => rw [hd] at h; cases h
    | some d =>
      rw [hd] at h
      simp only [Option.map_some, Option.some.injEq, Option.getD_some] at h ⊢
      rw [← h]
      exact seriesPotential_hasDerivAt d p

/-- Polynomial in x and y times function of z. -/
theorem isGradient_term {D : ℝ → ℝ} {D' : ℝ} (p : V3) (hD : HasDerivAt D D' p.z) (c : ℝ) (k : ℕ) :
    IsGradient (fun q => c * (q.x * q.x + q.y * q.y) ^ k * D q.z)
      ⟨c * (k * (p.x * p.x + p.y * p.y) ^ (k - 1) * (2 * p.x)) * D p.z, c * (k * (p.x * p.x + p.y * p.y) ^ (k - 1) * (2 * p.y)) * D p.z, c * (p.x * p.x + p.y * p.y) ^ k * D'⟩ p := by
  have hx := IsGradient.x p
  have hy := IsGradient.y p
  have hs := (hx.mul hx).add (hy.mul hy)
  have hpow := IsGradient.comp (hasDerivAt_pow k _) hs
  have hz := IsGradient.comp (f := fun q => q.z) hD (IsGradient.z p)
  refine ((hpow.smul c).mul hz).eq ?_
  ext <;> simp <;> ring

/-- **C52** (harmonic continuation). Let the numbers in the series be a function of z and its first ten derivatives. Then the potential of the series agrees with the function on the axis;
its gradient is minus the field of the series, except for the term of order `r⁸` of the longitudinal component that the field leaves out; and it satisfies the equation of Laplace up to
a term of order `r⁸`. -/
theorem C52_harmonic (D : Nat → ℝ → ℝ) (hD : ∀ n ≤ 9, ∀ z, HasDerivAt (D n) (D (n + 1) z) z) (p : V3) :
    (p.x = 0 → p.y = 0 → seriesPotential (norm2d p.x p.y) (fun n => D n p.z) = D 0 p.z) ∧
    IsGradient (fun q => seriesPotential (norm2d q.x q.y) (fun n => D n q.z))
      (⟨0, 0, norm2d p.x p.y ^ 8 / 147456 * D 9 p.z⟩ - seriesField p (norm2d p.x p.y) (fun n => D n p.z)) p ∧
    IsLaplacian (fun q => seriesPotential (norm2d q.x q.y) (fun n => D n q.z)) (norm2d p.x p.y ^ 8 / 147456 * D 10 p.z) p := by
  have hgrad : ∀ p, IsGradient (fun q => seriesPotential (norm2d q.x q.y) (fun n => D n q.z))
      (⟨0, 0, norm2d p.x p.y ^ 8 / 147456 * D 9 p.z⟩ - seriesField p (norm2d p.x p.y) (fun n => D n p.z)) p := by
    intro p
    have t0 := isGradient_term p (hD 0 (by norm_num) p.z) 1 0
    have t2 := isGradient_term p (hD 2 (by norm_num) p.z) (-1 / 4) 1
    have t4 := isGradient_term p (hD 4 (by norm_num) p.z) (1 / 64) 2
    have t6 := isGradient_term p (hD 6 (by norm_num) p.z) (-1 / 2304) 3
    have t8 := isGradient_term p (hD 8 (by norm_num) p.z) (1 / 147456) 4
    have e := norm2d_even
    refine (((((t0.add t2).add t4).add t6).add t8).congr ?_).eq ?_
    · intro q
      simp only [seriesPotential, (e _ _).1, (e _ _).2.1, (e _ _).2.2.1, (e _ _).2.2.2]
      ring
    · simp only [seriesField, (e _ _).1, (e _ _).2.1, (e _ _).2.2.1, (e _ _).2.2.2]
      ext <;> simp <;> ring
  refine ⟨?_, hgrad p, ?_⟩
  · intro hx hy
    simp [seriesPotential, norm2d, hx, hy]
  · refine ⟨_, hgrad, ?_⟩
    have e := norm2d_even
    set s := p.x * p.x + p.y * p.y with hs
    have hx : ∀ k : ℕ, HasDerivAt (fun x : ℝ => (x * x + p.y * p.y) ^ k) (k * s ^ (k - 1) * (2 * p.x)) p.x := by
      intro k
      have h1 : HasDerivAt (fun x : ℝ => x * x + p.y * p.y) (2 * p.x) p.x :=
        HasDerivAt.congr_deriv (((hasDerivAt_id p.x).mul (hasDerivAt_id p.x)).add_const _) (by simp only [id]; ring)
      exact h1.pow k
    have hy : ∀ k : ℕ, HasDerivAt (fun y : ℝ => (p.x * p.x + y * y) ^ k) (k * s ^ (k - 1) * (2 * p.y)) p.y := by
      intro k
      have h1 : HasDerivAt (fun y : ℝ => p.x * p.x + y * y) (2 * p.y) p.y :=
        HasDerivAt.congr_deriv (((hasDerivAt_id p.y).mul (hasDerivAt_id p.y)).const_add _) (by simp only [id]; ring)
      exact h1.pow k
    have d := fun n => D n p.z
    have fx := (((((hx 0).mul_const (-(0.5 * D 2 p.z))).add ((hx 1).mul_const (0.5 / 8 * D 4 p.z))).add ((hx 2).mul_const (-(0.5 / 192 * D 6 p.z)))).add
      ((hx 3).mul_const (0.5 / 9216 * D 8 p.z)))
    have fy := (((((hy 0).mul_const (-(0.5 * D 2 p.z))).add ((hy 1).mul_const (0.5 / 8 * D 4 p.z))).add ((hy 2).mul_const (-(0.5 / 192 * D 6 p.z)))).add
      ((hy 3).mul_const (0.5 / 9216 * D 8 p.z)))
    have gx := (hasDerivAt_id p.x).mul fx
    have gy := (hasDerivAt_id p.y).mul fy
    have gz := ((((hD 1 (by norm_num) p.z).add ((hD 3 (by norm_num) p.z).const_mul (-(s / 4)))).add ((hD 5 (by norm_num) p.z).const_mul (s ^ 2 / 64))).add
      ((hD 7 (by norm_num) p.z).const_mul (-(s ^ 3 / 2304)))).add ((hD 9 (by norm_num) p.z).const_mul (s ^ 4 / 147456))
    refine ⟨_, _, _, HasDerivAt.congr_of_eventuallyEq gx (Filter.Eventually.of_forall ?_), HasDerivAt.congr_of_eventuallyEq gy (Filter.Eventually.of_forall ?_),
      HasDerivAt.congr_of_eventuallyEq gz (Filter.Eventually.of_forall ?_), ?_⟩
    · intro x
      simp only [seriesField, (e _ _).1, (e _ _).2.1, (e _ _).2.2.1, (e _ _).2.2.2, sub_x, Pi.mul_apply, Pi.add_apply, id]
      ring
    · intro y
      simp only [seriesField, (e _ _).1, (e _ _).2.1, (e _ _).2.2.1, (e _ _).2.2.2, sub_y, Pi.mul_apply, Pi.add_apply, id]
      ring
    · intro z
      simp only [seriesField, (e _ _).1, (e _ _).2.1, (e _ _).2.2.1, (e _ _).2.2.2, sub_z, Pi.mul_apply, Pi.add_apply, id]
      rw [← hs]
      ring
    · simp only [Pi.add_apply, id, (e _ _).2.2.2]
      rw [hs]
      push_cast
      norm_num
      ring

/-- The hypotheses of `C52_harmonic` are met by the axial derivatives that the code computes, for any distribution of rings. -/
theorem C52_axial_charges (e : EffCharges (ℝ × ℝ)) (he : ∀ row ∈ e.positions, ∀ q ∈ row, 0 < q.1) :
    ∀ n ≤ 9, ∀ z, HasDerivAt (fun t => getElectrostaticAxialPotentialDerivatives e t n) (getElectrostaticAxialPotentialDerivatives e z (n + 1)) z :=
  fun n _ z => axial_chain e he n z

/-! ## The index of the interval -/

theorem getD_grid {zs : List ℝ} {z0 dz : ℝ} (h : ∀ k : ℕ, k < zs.length → zs[k]? = some (z0 + k * dz)) {k : ℕ} (hk : k < zs.length) :
    zs.getD k 0 = z0 + k * dz := by
  rw [List.getD_eq_getElem?_getD, h k hk]; rfl

theorem axialIndex_grid {zs : List ℝ} {z0 dz z : ℝ} (h2 : 2 ≤ zs.length) (hdz : 0 < dz) (h : ∀ k : ℕ, k < zs.length → zs[k]? = some (z0 + k * dz))
    {k : ℕ} (hk : k < zs.length) (hz0 : z0 + k * dz ≤ z) (hz1 : z < z0 + (k + 1) * dz) (hz : z ≤ z0 + (zs.length - 1 : ℕ) * dz) :
    axialIndex zs z = some k := by
  have e0 : zs.getD 0 0 = z0 := by simpa using getD_grid h (k := 0) (by omega)
  have e1 : zs.getD 1 0 = z0 + dz := by simpa using getD_grid h (k := 1) (by omega)
  have el := getD_grid h (k := zs.length - 1) (by omega)
  unfold axialIndex
  have hk0 : (0 : ℝ) ≤ k * dz := by positivity
  rw [e0, e1, el, if_pos ⟨by linarith, hz⟩]
  have hq0 : (0 : ℝ) ≤ (z - z0) / (z0 + dz - z0) := div_nonneg (by linarith) (by linarith)
  have hfloor : ⌊(z - z0) / (z0 + dz - z0)⌋ = (k : ℤ) := by
    rw [Int.floor_eq_iff]
    have : z0 + dz - z0 = dz := by ring
    rw [this]
    constructor
    · rw [le_div_iff₀ hdz]; push_cast; linarith
    · rw [div_lt_iff₀ hdz]; push_cast; linarith
  simp only [if_pos hq0, hfloor]
  have h3 : (max 0 (k : ℤ)).toNat = k := by simp
  rw [h3, min_eq_left (by omega)]

/-- **C53**, partial: everywhere in the interpolation range except at its very end, the coefficients of the interval that contains z are read, and they exist; outside of the range zero is returned. -/
theorem C53_index_partial (zs : List ℝ) (coeffs : Coeffs) (hg : UniformGrid zs) (hlen : coeffs.length = zs.length - 1) (p : V3) (first last : ℝ)
    (hf : zs[0]? = some first) (hl : zs[zs.length - 1]? = some last) :
    (first ≤ p.z → p.z < last → ∃ (k : ℕ) (a b : ℝ) (C : List (List ℝ)), zs[k]? = some a ∧ zs[k + 1]? = some b ∧ a ≤ p.z ∧ p.z < b ∧ coeffs[k]? = some C ∧
      potentialRadialDerivs p zs coeffs = some (seriesPotential (norm2d p.x p.y) (fun i => quintic (C.getD i []) (p.z - a))) ∧
      fieldRadialDerivs p zs coeffs = some (seriesField p (norm2d p.x p.y) (fun i => quintic (C.getD i []) (p.z - a)))) ∧
    (p.z < first ∨ last < p.z → potentialRadialDerivs p zs coeffs = some 0 ∧ fieldRadialDerivs p zs coeffs = some 0) := by
  obtain ⟨h2, z0, dz, hdz, h⟩ := hg
  have ef : first = z0 := by
    have := h 0 (by omega); rw [hf] at this; simpa using this
  have el : last = z0 + (zs.length - 1 : ℕ) * dz := by
    have := h (zs.length - 1) (by omega); rw [hl] at this; simpa using this
  constructor
  · intro h0 h1
    set k : ℕ := ⌊(p.z - z0) / dz⌋₊ with hkdef
    have hq0 : 0 ≤ (p.z - z0) / dz := div_nonneg (by linarith) hdz.le
    have hk0 : (k : ℝ) * dz ≤ p.z - z0 := by
      have := Nat.floor_le hq0
      rwa [← hkdef, le_div_iff₀ hdz] at this
    have hk1 : p.z - z0 < (k + 1) * dz := by
      have := Nat.lt_floor_add_one ((p.z - z0) / dz)
      rwa [← hkdef, div_lt_iff₀ hdz] at this
    have hk : k < zs.length - 1 := by
      have : (k : ℝ) < (zs.length - 1 : ℕ) := by
        by_contra hn
        have := mul_le_mul_of_nonneg_right (not_lt.1 hn) hdz.le
        linarith
      exact_mod_cast this
    obtain ⟨C, hC⟩ : ∃ C, coeffs[k]? = some C := ⟨coeffs[k]'(by omega), List.getElem?_eq_getElem (by omega)⟩
    have hidx := axialIndex_grid (z := p.z) h2 hdz h (k := k) (by omega) (by linarith) (by linarith) (by linarith)
    have hgd := getD_grid h (k := k) (by omega)
    refine ⟨k, z0 + k * dz, z0 + (k + 1) * dz, C, h k (by omega), ?_, by linarith, by linarith, hC, ?_, ?_⟩
    · have := h (k + 1) (by omega)
      push_cast at this
      exact this
    · unfold potentialRadialDerivs axialDerivs
      rw [hidx]
      simp only [hC, hgd, Option.map_some]
    · unfold fieldRadialDerivs axialDerivs
      rw [hidx]
      simp only [hC, hgd, Option.map_some]
  · intro ho
    have hn : axialIndex zs p.z = none := by
      unfold axialIndex
      have e0 : zs.getD 0 0 = first := by rw [List.getD_eq_getElem?_getD, hf]; rfl
      have e1 : zs.getD (zs.length - 1) 0 = last := by rw [List.getD_eq_getElem?_getD, hl]; rfl
      rw [e0, e1, if_neg]
      rintro ⟨a, b⟩
      rcases ho with ho | ho <;> linarith
    unfold potentialRadialDerivs fieldRadialDerivs
    rw [hn]
    exact ⟨rfl, rfl⟩

/-- **C53** fails at the end of the range: for every grid, evaluating at the last sample reads a row of coefficients that does not exist (there is one row less than there are samples). -/
theorem C53_refuted (zs : List ℝ) (coeffs : Coeffs) (hg : UniformGrid zs) (hlen : coeffs.length = zs.length - 1) (p : V3)
    (hl : zs[zs.length - 1]? = some p.z) : potentialRadialDerivs p zs coeffs = none ∧ fieldRadialDerivs p zs coeffs = none := by
  obtain ⟨h2, z0, dz, hdz, h⟩ := hg
  have el : p.z = z0 + (zs.length - 1 : ℕ) * dz := by
    have := h (zs.length - 1) (by omega); rw [hl] at this; simpa using this
  have hidx := axialIndex_grid (z := p.z) h2 hdz h (k := zs.length - 1) (by omega) el.ge (by linarith) el.le
  have hC : coeffs[zs.length - 1]? = none := List.getElem?_eq_none (by omega)
  unfold potentialRadialDerivs fieldRadialDerivs axialDerivs
  rw [hidx]
  simp [hC]

/-- The grid 0, 1, 2 is uniform; at z = 3/2 the second row of coefficients is used. -/
example : UniformGrid [0, 1, 2] ∧ axialIndex [0, 1, 2] (3 / 2) = some 1 := by
  have h : ∀ k : ℕ, k < [(0 : ℝ), 1, 2].length → [(0 : ℝ), 1, 2][k]? = some ((0 : ℝ) + (k : ℝ) * 1) := by
    intro k hk
    match k, hk with
    | 0, _ => simp
    | 1, _ => simp
    | 2, _ => simp
  refine ⟨⟨by simp, 0, 1, one_pos, h⟩, axialIndex_grid (z0 := 0) (dz := 1) (by simp) one_pos h (k := 1) (by simp) (by norm_num) (by norm_num) (by norm_num)⟩

end Traceon
