import Verif.Props.SplineConv
import Verif.Props.EllipticAccuracy

/-!
# C103: axially interpolated fields converge to the fields of the charges and currents
-/
namespace Traceon
open Spec V3

/-- Nearby derivatives give nearby fields. -/
theorem series_close {p : V3} {r ε η : ℝ} (hp : r = norm2d p.x p.y) (hr1 : r ≤ 1) (hε : 0 ≤ ε) (hη : 0 ≤ η) {d d' : ℕ → ℝ} (h6 : ∀ i, i ≤ 6 → |d i - d' i| ≤ ε) (h8 : ∀ i, 7 ≤ i → i ≤ 8 → |d i - d' i| ≤ η) :
    |seriesPotential r d - seriesPotential r d'| ≤ 4 * ε + r ^ 8 * η ∧ |(seriesField p r d).x - (seriesField p r d').x| ≤ r * (4 * ε + r ^ 6 * η) ∧
      |(seriesField p r d).y - (seriesField p r d').y| ≤ r * (4 * ε + r ^ 6 * η) ∧ |(seriesField p r d).z - (seriesField p r d').z| ≤ 4 * ε + r ^ 6 * η := by
  have hr0 : 0 ≤ r := by rw [hp]; exact norm2d_nonneg _ _
  have hx : |p.x| ≤ r := by
    rw [hp, norm2d, ← Real.sqrt_sq_eq_abs]
    exact Real.sqrt_le_sqrt (by nlinarith [sq_nonneg p.y])
  have hy : |p.y| ≤ r := by
    rw [hp, norm2d, ← Real.sqrt_sq_eq_abs]
    exact Real.sqrt_le_sqrt (by nlinarith [sq_nonneg p.x])
  have q2 : r ^ 2 ≤ 1 := pow_le_one₀ hr0 hr1
  have q4 : r ^ 4 ≤ 1 := pow_le_one₀ hr0 hr1
  have q6 : r ^ 6 ≤ 1 := pow_le_one₀ hr0 hr1
  have key : ∀ (c a b B : ℝ), 0 ≤ c → |a - b| ≤ B → |c * a - c * b| ≤ c * B := by
    intro c a b B hc h
    rw [← mul_sub, abs_mul, abs_of_nonneg hc]
    exact mul_le_mul_of_nonneg_left h hc
  have tri5 : ∀ a b c d e : ℝ, |a - b + c - d + e| ≤ |a| + |b| + |c| + |d| + |e| := by
    intro a b c d e
    have := abs_le.1 (le_refl |a|); have := abs_le.1 (le_refl |b|); have := abs_le.1 (le_refl |c|); have := abs_le.1 (le_refl |d|); have := abs_le.1 (le_refl |e|)
    rw [abs_le]; constructor <;> linarith
  have e2 : r ^ 2 * ε ≤ ε := mul_le_of_le_one_left hε q2
  have e4 : r ^ 4 * ε ≤ ε := mul_le_of_le_one_left hε q4
  have e6 : r ^ 6 * ε ≤ ε := mul_le_of_le_one_left hε q6
  have p6 : 0 ≤ r ^ 6 * η := by positivity
  have p8 : 0 ≤ r ^ 8 * η := by positivity
  have k0 := h6 0 (by omega)
  have k1 := h6 1 (by omega)
  have k2 := h6 2 (by omega)
  have k3 := h6 3 (by omega)
  have k4 := h6 4 (by omega)
  have k5 := h6 5 (by omega)
  have k6 := h6 6 (by omega)
  have k7 := h8 7 (by omega) (by omega)
  have k8 := h8 8 (by omega) (by omega)
  -- the factor of the transversal components
  have hfr : |0.5 * (d 2 - r ^ 2 / 8 * d 4 + r ^ 4 / 192 * d 6 - r ^ 6 / 9216 * d 8) - 0.5 * (d' 2 - r ^ 2 / 8 * d' 4 + r ^ 4 / 192 * d' 6 - r ^ 6 / 9216 * d' 8)| ≤ 4 * ε + r ^ 6 * η := by
    have a4 := key (r ^ 2 / 8) _ _ _ (by positivity) k4
    have a6 := key (r ^ 4 / 192) _ _ _ (by positivity) k6
    have a8 := key (r ^ 6 / 9216) _ _ _ (by positivity) k8
    rw [abs_le] at *
    constructor <;> linarith
  refine ⟨?_, ?_, ?_, ?_⟩
  · unfold seriesPotential
    have a2 := key (r ^ 2 / 4) _ _ _ (by positivity) k2
    have a4 := key (r ^ 4 / 64) _ _ _ (by positivity) k4
    have a6 := key (r ^ 6 / 2304) _ _ _ (by positivity) k6
    have a8 := key (r ^ 8 / 147456) _ _ _ (by positivity) k8
    rw [abs_le] at *
    constructor <;> linarith
  · simp only [seriesField]
    rw [← mul_sub, abs_mul]
    exact mul_le_mul hx hfr (abs_nonneg _) hr0
  · simp only [seriesField]
    rw [← mul_sub, abs_mul]
    exact mul_le_mul hy hfr (abs_nonneg _) hr0
  · simp only [seriesField]
    have a3 := key (r ^ 2 / 4) _ _ _ (by positivity) k3
    have a5 := key (r ^ 4 / 64) _ _ _ (by positivity) k5
    have a7 := key (r ^ 6 / 2304) _ _ _ (by positivity) k7
    rw [abs_le] at *
    constructor <;> linarith

/-- Finitely many continuous functions are bounded on an interval. -/
theorem chain_bounded {D : ℕ → ℝ → ℝ} (hD : ∀ n z, HasDerivAt (D n) (D (n + 1) z) z) (a b : ℝ) (m : ℕ) : ∃ F, 0 ≤ F ∧ ∀ n, n ≤ m → ∀ z, a ≤ z → z ≤ b → |D n z| ≤ F := by
  have hc : ∀ n, Continuous (D n) := fun n => continuous_iff_continuousAt.2 fun z => (hD n z).continuousAt
  induction m with
  | zero =>
    obtain ⟨M, hM⟩ := (isCompact_Icc (a := a) (b := b)).exists_bound_of_continuousOn (hc 0).continuousOn
    exact ⟨|M|, abs_nonneg _, fun n hn z h1 h2 => by rw [Nat.le_zero.1 hn]; exact (hM z ⟨h1, h2⟩).trans (le_abs_self M)⟩
  | succ m ih =>
    obtain ⟨F, hF0, hF⟩ := ih
    obtain ⟨M, hM⟩ := (isCompact_Icc (a := a) (b := b)).exists_bound_of_continuousOn (hc (m + 1)).continuousOn
    refine ⟨F + |M|, by positivity, fun n hn z h1 h2 => ?_⟩
    rcases Nat.lt_or_ge n (m + 1) with h | h
    · exact (hF n (by omega) z h1 h2).trans (by linarith [abs_nonneg M])
    · rw [show n = m + 1 by omega]
      exact ((hM z ⟨h1, h2⟩).trans (le_abs_self M)).trans (by linarith)

/-- The interpolated series against the series with the exact derivatives. -/
theorem interpolated_series {lib : SplineLib} (hlib : lib.Documented) (D : ℕ → ℝ → ℝ) (hD : ∀ n z, HasDerivAt (D n) (D (n + 1) z) z) {zmin zmax : ℝ} (hz : zmin < zmax) :
    ∃ C : ℝ, 0 ≤ C ∧ ∀ N : ℕ, 4 ≤ N → ∀ p : V3, zmin ≤ p.z → p.z < zmax → norm2d p.x p.y ≤ 1 → ∃ (φ : ℝ) (E : V3),
      potentialRadialDerivs p (linspace zmin zmax N) (interpolationCoefficients lib (linspace zmin zmax N) D) = some φ ∧
      fieldRadialDerivs p (linspace zmin zmax N) (interpolationCoefficients lib (linspace zmin zmax N) D) = some E ∧
      |φ - seriesPotential (norm2d p.x p.y) (fun n => D n p.z)| ≤ C * (((zmax - zmin) / (N - 1 : ℕ)) ^ 6 + norm2d p.x p.y ^ 8 * ((zmax - zmin) / (N - 1 : ℕ)) ^ 4) ∧
      |E.x - (seriesField p (norm2d p.x p.y) (fun n => D n p.z)).x| ≤ C * (norm2d p.x p.y * ((zmax - zmin) / (N - 1 : ℕ)) ^ 6 + norm2d p.x p.y ^ 7 * ((zmax - zmin) / (N - 1 : ℕ)) ^ 4) ∧
      |E.y - (seriesField p (norm2d p.x p.y) (fun n => D n p.z)).y| ≤ C * (norm2d p.x p.y * ((zmax - zmin) / (N - 1 : ℕ)) ^ 6 + norm2d p.x p.y ^ 7 * ((zmax - zmin) / (N - 1 : ℕ)) ^ 4) ∧
      |E.z - (seriesField p (norm2d p.x p.y) (fun n => D n p.z)).z| ≤ C * (((zmax - zmin) / (N - 1 : ℕ)) ^ 6 + norm2d p.x p.y ^ 6 * ((zmax - zmin) / (N - 1 : ℕ)) ^ 4) := by
  obtain ⟨F, hF0, hF⟩ := chain_bounded hD zmin zmax 12
  refine ⟨26 * F, by positivity, fun N hN p h0 h1 hr1 => ?_⟩
  obtain ⟨d, hφ, hE, h6, h8⟩ := interpolated hlib D hD hz hF hN p h0 h1
  have hN1 : (0 : ℝ) < (N - 1 : ℕ) := by exact_mod_cast (by omega : 0 < N - 1)
  have hdz0 : 0 < (zmax - zmin) / (N - 1 : ℕ) := div_pos (by linarith) hN1
  have hr0 := norm2d_nonneg p.x p.y
  obtain ⟨c1, c2, c3, c4⟩ := series_close (p := p) (ε := F * ((zmax - zmin) / (N - 1 : ℕ)) ^ 6) (η := 26 * F * ((zmax - zmin) / (N - 1 : ℕ)) ^ 4) rfl hr1 (by positivity) (by positivity) (d := d) (d' := fun n => D n p.z) h6 h8
  refine ⟨_, _, hφ, hE, ?_⟩
  generalize (zmax - zmin) / (N - 1 : ℕ) = h at *
  generalize norm2d p.x p.y = r at *
  have t6 : 0 ≤ F * h ^ 6 := by positivity
  have tr6 : 0 ≤ r * (F * h ^ 6) := by positivity
  refine ⟨c1.trans ?_, c2.trans ?_, c3.trans ?_, c4.trans ?_⟩ <;> nlinarith

/-- The magnetic field of current rings, by the law of Biot and Savart. -/
noncomputable def Spec.ringsField (c : EffCharges V3) (p : V3) : V3 :=
  ⟨Spec.superpose (fun q => (ringField q.x q.z p).x) c, Spec.superpose (fun q => (ringField q.x q.z p).y) c, Spec.superpose (fun q => (ringField q.x q.z p).z) c⟩

theorem abs_le_of_mem {zmin zmax z : ℝ} (h0 : zmin ≤ z) (h1 : z < zmax) : |z| ≤ |zmin| + |zmax| := by
  rw [abs_le]
  have := neg_abs_le zmin; have := le_abs_self zmax; have := abs_nonneg zmin; have := abs_nonneg zmax
  constructor <;> linarith

/-- **C103** (electrostatics). Let the axial derivatives of the field of charged rings be sampled at N ≥ 4 equally spaced positions between zmin and zmax, at distances h, and interpolated by routines that do what scipy documents.
Then for zmin ≤ z < zmax and close to the axis, potential and field of the interpolation differ from the potential of the rings and minus its gradient by at most a constant, the same for every N and every point, times
h⁶ + r⁸h⁴ + r¹⁰ (potential), r·h⁶ + r⁷h⁴ + r⁹ (transversal field) and h⁶ + r⁶h⁴ + r⁸ (longitudinal field). -/
theorem C103_electrostatic (lib : SplineLib) (hlib : lib.Documented) (e : EffCharges (ℝ × ℝ)) (he : ∀ row ∈ e.positions, ∀ q ∈ row, 0 < q.1) (zmin zmax : ℝ) (hz : zmin < zmax) :
    ∃ C δ : ℝ, 0 < δ ∧ ∀ N : ℕ, 4 ≤ N → ∀ (p : V3) (r h : ℝ), zmin ≤ p.z → p.z < zmax → r = √(p.x ^ 2 + p.y ^ 2) → r ≤ δ → h = (zmax - zmin) / (N - 1) → ∃ (φ : ℝ) (E g : V3),
      potentialRadialDerivs p (linspace zmin zmax N) (interpolationCoefficients lib (linspace zmin zmax N) (fun n z => getElectrostaticAxialPotentialDerivatives e z n)) = some φ ∧
      fieldRadialDerivs p (linspace zmin zmax N) (interpolationCoefficients lib (linspace zmin zmax N) (fun n z => getElectrostaticAxialPotentialDerivatives e z n)) = some E ∧
      IsGradient (Spec.ringsPotential e) g p ∧
      |φ - Spec.ringsPotential e p| ≤ C * (h ^ 6 + r ^ 8 * h ^ 4 + r ^ 10) ∧
      |E.x - -g.x| ≤ C * (r * h ^ 6 + r ^ 7 * h ^ 4 + r ^ 9) ∧ |E.y - -g.y| ≤ C * (r * h ^ 6 + r ^ 7 * h ^ 4 + r ^ 9) ∧ |E.z - -g.z| ≤ C * (h ^ 6 + r ^ 6 * h ^ 4 + r ^ 8) := by
  obtain ⟨C1, hC1, h1⟩ := interpolated_series hlib (fun n z => getElectrostaticAxialPotentialDerivatives e z n) (fun n z => axial_chain e he n z) hz
  obtain ⟨C2, δ, hδ, h2⟩ := C52_accuracy_charges e he (|zmin| + |zmax|)
  refine ⟨C1 + |C2|, min δ 1, by positivity, fun N hN p r h hp0 hp1 hr hrδ hh => ?_⟩
  rw [← norm2d_spec] at hr
  have hh' : h = (zmax - zmin) / (N - 1 : ℕ) := by rw [hh, Nat.cast_sub (by omega)]; simp
  obtain ⟨φ, E, hφ, hE, a1, a2, a3, a4⟩ := h1 N hN p hp0 hp1 (hr ▸ hrδ.trans (min_le_right _ _))
  obtain ⟨b1, g, hg, b2, b3, b4⟩ := h2 p.z (abs_le_of_mem hp0 hp1) p.x p.y r (by rw [hr, norm2d_spec]) (hrδ.trans (min_le_left _ _))
  have hh0 : 0 ≤ h := by
    have hN1 : (0 : ℝ) < (N - 1 : ℕ) := by exact_mod_cast (by omega : 0 < N - 1)
    rw [hh']; exact (div_pos (by linarith) hN1).le
  rw [← hh', ← hr] at a1 a2 a3 a4
  have hr0 : 0 ≤ r := hr ▸ norm2d_nonneg _ _
  refine ⟨φ, E, g, hφ, hE, hg, ?_, ?_, ?_, ?_⟩
  · have t := abs_sub_le φ (seriesPotential r (getElectrostaticAxialPotentialDerivatives e p.z)) (ringsPotential e p)
    rw [abs_sub_comm] at b1
    have c2 := mul_le_mul_of_nonneg_right (le_abs_self C2) (by positivity : 0 ≤ r ^ 10)
    have z1 : 0 ≤ |C2| * (h ^ 6 + r ^ 8 * h ^ 4) := by positivity
    have z2 : 0 ≤ C1 * r ^ 10 := by positivity
    have a1' : |φ - seriesPotential r (getElectrostaticAxialPotentialDerivatives e p.z)| ≤ C1 * (h ^ 6 + r ^ 8 * h ^ 4) := a1
    have b1' : |seriesPotential r (getElectrostaticAxialPotentialDerivatives e p.z) - ringsPotential e p| ≤ C2 * r ^ 10 := b1
    linarith
  · have t := abs_sub_le E.x (seriesField p r (getElectrostaticAxialPotentialDerivatives e p.z)).x (-g.x)
    have c2 := mul_le_mul_of_nonneg_right (le_abs_self C2) (by positivity : 0 ≤ r ^ 9)
    have z1 : 0 ≤ |C2| * (r * h ^ 6 + r ^ 7 * h ^ 4) := by positivity
    have z2 : 0 ≤ C1 * r ^ 9 := by positivity
    have a2' : |E.x - (seriesField p r (getElectrostaticAxialPotentialDerivatives e p.z)).x| ≤ C1 * (r * h ^ 6 + r ^ 7 * h ^ 4) := a2
    have b2' : |(seriesField p r (getElectrostaticAxialPotentialDerivatives e p.z)).x - -g.x| ≤ C2 * r ^ 9 := b2
    linarith
  · have t := abs_sub_le E.y (seriesField p r (getElectrostaticAxialPotentialDerivatives e p.z)).y (-g.y)
    have c2 := mul_le_mul_of_nonneg_right (le_abs_self C2) (by positivity : 0 ≤ r ^ 9)
    have z1 : 0 ≤ |C2| * (r * h ^ 6 + r ^ 7 * h ^ 4) := by positivity
    have z2 : 0 ≤ C1 * r ^ 9 := by positivity
    have a2' : |E.y - (seriesField p r (getElectrostaticAxialPotentialDerivatives e p.z)).y| ≤ C1 * (r * h ^ 6 + r ^ 7 * h ^ 4) := a3
    have b2' : |(seriesField p r (getElectrostaticAxialPotentialDerivatives e p.z)).y - -g.y| ≤ C2 * r ^ 9 := b3
    linarith
  · have t := abs_sub_le E.z (seriesField p r (getElectrostaticAxialPotentialDerivatives e p.z)).z (-g.z)
    have c2 := mul_le_mul_of_nonneg_right (le_abs_self C2) (by positivity : 0 ≤ r ^ 8)
    have z1 : 0 ≤ |C2| * (h ^ 6 + r ^ 6 * h ^ 4) := by positivity
    have z2 : 0 ≤ C1 * r ^ 8 := by positivity
    have a2' : |E.z - (seriesField p r (getElectrostaticAxialPotentialDerivatives e p.z)).z| ≤ C1 * (h ^ 6 + r ^ 6 * h ^ 4) := a4
    have b2' : |(seriesField p r (getElectrostaticAxialPotentialDerivatives e p.z)).z - -g.z| ≤ C2 * r ^ 8 := b4
    linarith

theorem seriesField_add (p : V3) (r : ℝ) (d d' : ℕ → ℝ) : (seriesField p r fun n => d n + d' n).x = (seriesField p r d).x + (seriesField p r d').x ∧
    (seriesField p r fun n => d n + d' n).y = (seriesField p r d).y + (seriesField p r d').y ∧ (seriesField p r fun n => d n + d' n).z = (seriesField p r d).z + (seriesField p r d').z := by
  simp only [seriesField]
  refine ⟨?_, ?_, ?_⟩ <;> ring

theorem three_close {C1 C2 C3 x a b u w m k : ℝ} (h1 : 0 ≤ C1) (hm : 0 ≤ m) (hk : 0 ≤ k) (ha : |x - (a + b)| ≤ C1 * m) (hb : |a - u| ≤ C2 * k) (hw : |b - w| ≤ C3 * k) :
    |x - (u + w)| ≤ (C1 + |C2| + |C3|) * (m + k) := by
  have c2 := mul_le_mul_of_nonneg_right (le_abs_self C2) hk
  have c3 := mul_le_mul_of_nonneg_right (le_abs_self C3) hk
  have z1 : 0 ≤ C1 * k := by positivity
  have z2 : 0 ≤ |C2| * m := by positivity
  have z3 : 0 ≤ |C3| * m := by positivity
  have e : (C1 + |C2| + |C3|) * (m + k) = C1 * m + C1 * k + |C2| * m + |C2| * k + |C3| * m + |C3| * k := by ring
  rw [e]
  rw [abs_le] at ha hb hw ⊢
  constructor <;> linarith [ha.1, ha.2, hb.1, hb.2, hw.1, hw.2]

/-- **C103** (magnetostatics). The same for the field of magnetic charges and currents: the interpolated field differs from the sum of minus the gradient of the potential of the charges and the field of the currents according to
the law of Biot and Savart by at most a constant times r·h⁶ + r⁷h⁴ + r⁹ (transversal) and h⁶ + r⁶h⁴ + r⁸ (longitudinal). -/
theorem C103_magnetostatic (lib : SplineLib) (hlib : lib.Documented) (e : EffCharges (ℝ × ℝ)) (c : EffCharges V3) (he : ∀ row ∈ e.positions, ∀ q ∈ row, 0 < q.1) (hc : ∀ row ∈ c.positions, ∀ q ∈ row, 0 < q.x)
    (zmin zmax : ℝ) (hz : zmin < zmax) :
    ∃ C δ : ℝ, 0 < δ ∧ ∀ N : ℕ, 4 ≤ N → ∀ (p : V3) (r h : ℝ), zmin ≤ p.z → p.z < zmax → r = √(p.x ^ 2 + p.y ^ 2) → r ≤ δ → h = (zmax - zmin) / (N - 1) → ∃ (H g : V3),
      fieldRadialDerivs p (linspace zmin zmax N) (interpolationCoefficients lib (linspace zmin zmax N) (fun n z => getMagnetostaticAxialPotentialDerivatives e c z n)) = some H ∧
      IsGradient (Spec.ringsPotential e) g p ∧
      |H.x - (-g.x + (Spec.ringsField c p).x)| ≤ C * (r * h ^ 6 + r ^ 7 * h ^ 4 + r ^ 9) ∧ |H.y - (-g.y + (Spec.ringsField c p).y)| ≤ C * (r * h ^ 6 + r ^ 7 * h ^ 4 + r ^ 9) ∧
      |H.z - (-g.z + (Spec.ringsField c p).z)| ≤ C * (h ^ 6 + r ^ 6 * h ^ 4 + r ^ 8) := by
  obtain ⟨C1, hC1, h1⟩ := interpolated_series hlib (fun n z => getMagnetostaticAxialPotentialDerivatives e c z n) (fun n z => (axial_chain e he n z).add (current_axial_chain c hc n z)) hz
  obtain ⟨C2, δ, hδ, h2⟩ := C52_accuracy_charges e he (|zmin| + |zmax|)
  obtain ⟨C3, δ', hδ', h3⟩ := C52_accuracy_currents c hc (|zmin| + |zmax|)
  refine ⟨C1 + |C2| + |C3|, min (min δ δ') 1, by positivity, fun N hN p r h hp0 hp1 hr hrδ hh => ?_⟩
  rw [← norm2d_spec] at hr
  have hh' : h = (zmax - zmin) / (N - 1 : ℕ) := by rw [hh, Nat.cast_sub (by omega)]; simp
  obtain ⟨φ, E, -, hE, -, a2, a3, a4⟩ := h1 N hN p hp0 hp1 (hr ▸ hrδ.trans (min_le_right _ _))
  obtain ⟨-, g, hg, b2, b3, b4⟩ := h2 p.z (abs_le_of_mem hp0 hp1) p.x p.y r (by rw [hr, norm2d_spec]) (hrδ.trans ((min_le_left _ _).trans (min_le_left _ _)))
  obtain ⟨d2, d3, d4⟩ := h3 p.z (abs_le_of_mem hp0 hp1) p.x p.y r (by rw [hr, norm2d_spec]) (hrδ.trans ((min_le_left _ _).trans (min_le_right _ _)))
  have hh0 : 0 ≤ h := by
    have hN1 : (0 : ℝ) < (N - 1 : ℕ) := by exact_mod_cast (by omega : 0 < N - 1)
    rw [hh']; exact (div_pos (by linarith) hN1).le
  rw [← hh', ← hr] at a2 a3 a4
  have hr0 : 0 ≤ r := hr ▸ norm2d_nonneg _ _
  have hsum : (fun n => getMagnetostaticAxialPotentialDerivatives e c p.z n) = fun n => getElectrostaticAxialPotentialDerivatives e p.z n + getCurrentAxialPotentialDerivatives c p.z n := rfl
  obtain ⟨s1, s2, s3⟩ := seriesField_add p r (getElectrostaticAxialPotentialDerivatives e p.z) (getCurrentAxialPotentialDerivatives c p.z)
  rw [hsum] at a2 a3 a4
  rw [s1] at a2
  rw [s2] at a3
  rw [s3] at a4
  refine ⟨E, g, hE, hg, ?_, ?_, ?_⟩
  · exact three_close hC1 (by positivity) (by positivity) a2 b2 d2
  · exact three_close hC1 (by positivity) (by positivity) a3 b3 d3
  · exact three_close hC1 (by positivity) (by positivity) a4 b4 d4

/-- On the axis: the interpolated potential converges to the potential of the rings, and so does the field, with the sixth power of the distance of the samples. -/
theorem C103_axis (lib : SplineLib) (hlib : lib.Documented) (e : EffCharges (ℝ × ℝ)) (he : ∀ row ∈ e.positions, ∀ q ∈ row, 0 < q.1) (zmin zmax : ℝ) (hz : zmin < zmax) :
    ∃ C : ℝ, ∀ N : ℕ, 4 ≤ N → ∀ z : ℝ, zmin ≤ z → z < zmax → ∃ (φ : ℝ) (E : V3),
      potentialRadialDerivs ⟨0, 0, z⟩ (linspace zmin zmax N) (interpolationCoefficients lib (linspace zmin zmax N) (fun n z => getElectrostaticAxialPotentialDerivatives e z n)) = some φ ∧
      fieldRadialDerivs ⟨0, 0, z⟩ (linspace zmin zmax N) (interpolationCoefficients lib (linspace zmin zmax N) (fun n z => getElectrostaticAxialPotentialDerivatives e z n)) = some E ∧
      |φ - Spec.ringsPotential e ⟨0, 0, z⟩| ≤ C * ((zmax - zmin) / (N - 1)) ^ 6 ∧ E.x = 0 ∧ E.y = 0 ∧
      ∃ g : V3, IsGradient (Spec.ringsPotential e) g ⟨0, 0, z⟩ ∧ |E.z - -g.z| ≤ C * ((zmax - zmin) / (N - 1)) ^ 6 := by
  obtain ⟨C, δ, hδ, h⟩ := C103_electrostatic lib hlib e he zmin zmax hz
  refine ⟨C, fun N hN z h0 h1 => ?_⟩
  obtain ⟨φ, E, g, hφ, hE, hg, a1, a2, a3, a4⟩ := h N hN ⟨0, 0, z⟩ 0 _ h0 h1 (by simp) hδ.le rfl
  refine ⟨φ, E, hφ, hE, by simpa using a1, ?_, ?_, g, hg, by simpa using a4⟩
  · unfold fieldRadialDerivs at hE
    split at hE
    · have := Option.some.inj hE
      rw [← this]; rfl
    · simp only [Option.map_eq_some_iff] at hE
      obtain ⟨d, -, rfl⟩ := hE
      simp [seriesField]
  · unfold fieldRadialDerivs at hE
    split at hE
    · have := Option.some.inj hE
      rw [← this]; rfl
    · simp only [Option.map_eq_some_iff] at hE
      obtain ⟨d, -, rfl⟩ := hE
      simp [seriesField]

/-- One ring of unit radius. -/
noncomputable def oneRing : EffCharges (ℝ × ℝ) := ⟨1, [1], [[1]], [[(1, 0)]]⟩

/-- A concrete case: one ring with unit radius and charge, between -2 and 2. -/
theorem C103_example : ∃ lib : SplineLib, lib.Documented ∧ ∃ C δ : ℝ, 0 < δ ∧ ∀ N : ℕ, 4 ≤ N → ∀ (p : V3) (r : ℝ), -2 ≤ p.z → p.z < 2 → r = √(p.x ^ 2 + p.y ^ 2) → r ≤ δ → ∃ φ : ℝ,
      potentialRadialDerivs p (linspace (-2) 2 N) (interpolationCoefficients lib (linspace (-2) 2 N) (fun n z => getElectrostaticAxialPotentialDerivatives oneRing z n)) = some φ ∧
      |φ - Spec.ringsPotential oneRing p| ≤ C * ((4 / ((N : ℝ) - 1)) ^ 6 + r ^ 8 * (4 / ((N : ℝ) - 1)) ^ 4 + r ^ 10) := by
  obtain ⟨lib, hlib⟩ := exists_documented
  refine ⟨lib, hlib, ?_⟩
  obtain ⟨C, δ, hδ, h⟩ := C103_electrostatic lib hlib oneRing (by simp [oneRing]) (-2) 2 (by norm_num)
  refine ⟨C, δ, hδ, fun N hN p r h0 h1 hr hrδ => ?_⟩
  obtain ⟨φ, E, g, hφ, -, -, ha, -⟩ := h N hN p r _ h0 h1 hr hrδ rfl
  refine ⟨φ, hφ, ?_⟩
  rwa [show (2 - -2 : ℝ) = 4 by norm_num] at ha

end Traceon
