import Verif.Spec.Circulation
import Verif.Props.Ampere
import Verif.Props.VacuumAxis
import Mathlib.MeasureTheory.Integral.DivergenceTheorem

/-!
# The circulation of the field of a current loop
-/
namespace Traceon
open Real Spec V3 Filter Topology MeasureTheory

namespace Circulation

theorem plane_deriv {f : V3 → ℝ} {g : V3} {v : ℝ × ℝ} (h : IsGradient f g ⟨v.1, 0, v.2⟩) :
    HasFDerivAt (fun v : ℝ × ℝ => f ⟨v.1, 0, v.2⟩) (g.x • ContinuousLinearMap.fst ℝ ℝ ℝ + g.z • ContinuousLinearMap.snd ℝ ℝ ℝ) v := by
  have hi : HasFDerivAt (fun v : ℝ × ℝ => ((v.1, 0, v.2) : ℝ × ℝ × ℝ)) ((ContinuousLinearMap.fst ℝ ℝ ℝ).prod ((0 : ℝ × ℝ →L[ℝ] ℝ).prod (ContinuousLinearMap.snd ℝ ℝ ℝ))) v :=
    hasFDerivAt_fst.prodMk ((hasFDerivAt_const (0 : ℝ) v).prodMk hasFDerivAt_snd)
  have := HasFDerivAt.comp v (f := fun v : ℝ × ℝ => ((v.1, 0, v.2) : ℝ × ℝ × ℝ)) h hi
  refine this.congr_fderiv ?_
  ext <;> simp

theorem plane_continuous {f : V3 → ℝ} {g : V3} {v : ℝ × ℝ} (h : IsGradient f g ⟨v.1, 0, v.2⟩) : ContinuousAt (fun v : ℝ × ℝ => f ⟨v.1, 0, v.2⟩) v := (plane_deriv h).continuousAt

theorem edge_z {H : V3 → V3} {x z₁ z₂ : ℝ} (h : ∀ z ∈ Set.uIcc z₁ z₂, VacuumField H ⟨x, 0, z⟩) : IntervalIntegrable (fun z => (H ⟨x, 0, z⟩).z) volume z₁ z₂ := by
  refine ContinuousOn.intervalIntegrable fun z hz => ContinuousAt.continuousWithinAt ?_
  obtain ⟨gx, gy, gz, -, -, h3, -⟩ := h z hz
  exact ContinuousAt.comp (f := fun z : ℝ => (x, z)) (x := z) (plane_continuous (v := (x, z)) h3) (by fun_prop)

theorem edge_x {H : V3 → V3} {z x₁ x₂ : ℝ} (h : ∀ x ∈ Set.uIcc x₁ x₂, VacuumField H ⟨x, 0, z⟩) : IntervalIntegrable (fun x => (H ⟨x, 0, z⟩).x) volume x₁ x₂ := by
  refine ContinuousOn.intervalIntegrable fun x hx => ContinuousAt.continuousWithinAt ?_
  obtain ⟨gx, gy, gz, h1, -⟩ := h x hx
  exact ContinuousAt.comp (f := fun x : ℝ => (x, z)) (x := x) (plane_continuous (v := (x, z)) h1) (by fun_prop)

/-- Green's theorem: around a rectangle without currents the circulation is zero. -/
theorem green {H : V3 → V3} {x₁ x₂ z₁ z₂ : ℝ} (hx : x₁ ≤ x₂) (hz : z₁ ≤ z₂) (h : ∀ x ∈ Set.Icc x₁ x₂, ∀ z ∈ Set.Icc z₁ z₂, VacuumField H ⟨x, 0, z⟩) : circulation H x₁ x₂ z₁ z₂ = 0 := by
  classical
  have h' : ∀ v : ℝ × ℝ, v ∈ Set.Icc x₁ x₂ ×ˢ Set.Icc z₁ z₂ → VacuumField H ⟨v.1, 0, v.2⟩ := fun v hv => h _ hv.1 _ hv.2
  let gx : ℝ × ℝ → V3 := fun v => if hv : v ∈ Set.Icc x₁ x₂ ×ˢ Set.Icc z₁ z₂ then (h' v hv).choose else 0
  let gz : ℝ × ℝ → V3 := fun v => if hv : v ∈ Set.Icc x₁ x₂ ×ˢ Set.Icc z₁ z₂ then (h' v hv).choose_spec.choose_spec.choose else 0
  have key : ∀ v : ℝ × ℝ, v ∈ Set.Icc x₁ x₂ ×ˢ Set.Icc z₁ z₂ → IsGradient (fun q => (H q).x) (gx v) ⟨v.1, 0, v.2⟩ ∧ IsGradient (fun q => (H q).z) (gz v) ⟨v.1, 0, v.2⟩ ∧ (gx v).z = (gz v).x := by
    intro v hv
    obtain ⟨k1, k2, k3, k4, k5, k6, k7⟩ := (h' v hv).choose_spec.choose_spec.choose_spec
    simp only [gx, gz, dif_pos hv]
    exact ⟨k1, k3, by linarith⟩
  have sub : Set.Ioo (min x₁ x₂) (max x₁ x₂) ×ˢ Set.Ioo (min z₁ z₂) (max z₁ z₂) \ ∅ ⊆ Set.Icc x₁ x₂ ×ˢ Set.Icc z₁ z₂ := by
    rw [min_eq_left hx, max_eq_right hx, min_eq_left hz, max_eq_right hz, Set.diff_empty]
    exact Set.prod_mono Set.Ioo_subset_Icc_self Set.Ioo_subset_Icc_self
  have zero : ∀ v : ℝ × ℝ, ((gz v).x • ContinuousLinearMap.fst ℝ ℝ ℝ + (gz v).z • ContinuousLinearMap.snd ℝ ℝ ℝ) (1, 0) +
      (-((gx v).x • ContinuousLinearMap.fst ℝ ℝ ℝ + (gx v).z • ContinuousLinearMap.snd ℝ ℝ ℝ)) (0, 1) = 0 := by
    intro v
    by_cases hv : v ∈ Set.Icc x₁ x₂ ×ˢ Set.Icc z₁ z₂
    · have := (key v hv).2.2
      simp [this]
    · have e1 : gx v = 0 := dif_neg hv
      have e2 : gz v = 0 := dif_neg hv
      simp [e1, e2]
  have := integral2_divergence_prod_of_hasFDerivAt_off_countable (fun v : ℝ × ℝ => (H ⟨v.1, 0, v.2⟩).z) (fun v : ℝ × ℝ => -(H ⟨v.1, 0, v.2⟩).x)
    (fun v => (gz v).x • ContinuousLinearMap.fst ℝ ℝ ℝ + (gz v).z • ContinuousLinearMap.snd ℝ ℝ ℝ) (fun v => -((gx v).x • ContinuousLinearMap.fst ℝ ℝ ℝ + (gx v).z • ContinuousLinearMap.snd ℝ ℝ ℝ))
    x₁ z₁ x₂ z₂ ∅ Set.countable_empty
    (by
      rw [Set.uIcc_of_le hx, Set.uIcc_of_le hz]
      exact fun v hv => (plane_continuous (key v hv).2.1).continuousWithinAt)
    (by
      rw [Set.uIcc_of_le hx, Set.uIcc_of_le hz]
      exact fun v hv => (plane_continuous (key v hv).1).neg.continuousWithinAt)
    (fun v hv => plane_deriv (key v (sub hv)).2.1) (fun v hv => (plane_deriv (key v (sub hv)).1).neg) (by simp only [zero]; exact integrableOn_zero)
  simp only [zero, intervalIntegral.integral_zero, intervalIntegral.integral_neg] at this
  unfold circulation
  linarith

/-- The circulation around a rectangle is the one around any larger rectangle, if the currents between them vanish. -/
theorem enlarge {H : V3 → V3} {x₁ x₂ z₁ z₂ X₁ X₂ Z₁ Z₂ : ℝ} (a1 : X₁ ≤ x₁) (a2 : x₁ ≤ x₂) (a3 : x₂ ≤ X₂) (b1 : Z₁ ≤ z₁) (b2 : z₁ ≤ z₂) (b3 : z₂ ≤ Z₂)
    (h : ∀ x ∈ Set.Icc X₁ X₂, ∀ z ∈ Set.Icc Z₁ Z₂, ¬ (x₁ < x ∧ x < x₂ ∧ z₁ < z ∧ z < z₂) → VacuumField H ⟨x, 0, z⟩) : circulation H x₁ x₂ z₁ z₂ = circulation H X₁ X₂ Z₁ Z₂ := by
  have left := green (H := H) (x₁ := X₁) (x₂ := x₁) (z₁ := Z₁) (z₂ := Z₂) a1 (by linarith) fun x hx z hz => h x ⟨hx.1, by linarith [hx.2]⟩ z hz fun k => by linarith [hx.2, k.1]
  have right := green (H := H) (x₁ := x₂) (x₂ := X₂) (z₁ := Z₁) (z₂ := Z₂) a3 (by linarith) fun x hx z hz => h x ⟨by linarith [hx.1], hx.2⟩ z hz fun k => by linarith [hx.1, k.2.1]
  have bot := green (H := H) (x₁ := x₁) (x₂ := x₂) (z₁ := Z₁) (z₂ := z₁) a2 b1 fun x hx z hz => h x ⟨by linarith [hx.1], by linarith [hx.2]⟩ z ⟨hz.1, by linarith [hz.2]⟩ fun k => by linarith [hz.2, k.2.2.1]
  have top := green (H := H) (x₁ := x₁) (x₂ := x₂) (z₁ := z₂) (z₂ := Z₂) a2 b3 fun x hx z hz => h x ⟨by linarith [hx.1], by linarith [hx.2]⟩ z ⟨by linarith [hz.1], hz.2⟩ fun k => by linarith [hz.1, k.2.2.2]
  have iz : ∀ x, x = x₁ ∨ x = x₂ → ∀ s ∈ Set.Icc Z₁ Z₂, ∀ t ∈ Set.Icc Z₁ Z₂, IntervalIntegrable (fun z => (H ⟨x, 0, z⟩).z) volume s t := fun x hx s hs t ht =>
    edge_z fun z hz => h x (by rcases hx with rfl | rfl <;> constructor <;> linarith) z (Set.uIcc_subset_Icc hs ht hz) fun k => by rcases hx with rfl | rfl <;> linarith [k.1, k.2.1]
  have ix : ∀ z, z = Z₁ ∨ z = Z₂ → ∀ s ∈ Set.Icc X₁ X₂, ∀ t ∈ Set.Icc X₁ X₂, IntervalIntegrable (fun x => (H ⟨x, 0, z⟩).x) volume s t := fun z hz s hs t ht =>
    edge_x fun x hx => h x (Set.uIcc_subset_Icc hs ht hx) z (by rcases hz with rfl | rfl <;> constructor <;> linarith) fun k => by rcases hz with rfl | rfl <;> linarith [k.2.2.1, k.2.2.2]
  have p1 : Z₁ ∈ Set.Icc Z₁ Z₂ := ⟨by linarith, by linarith⟩
  have p2 : z₁ ∈ Set.Icc Z₁ Z₂ := ⟨by linarith, by linarith⟩
  have p3 : z₂ ∈ Set.Icc Z₁ Z₂ := ⟨by linarith, by linarith⟩
  have p4 : Z₂ ∈ Set.Icc Z₁ Z₂ := ⟨by linarith, by linarith⟩
  have q1 : X₁ ∈ Set.Icc X₁ X₂ := ⟨by linarith, by linarith⟩
  have q2 : x₁ ∈ Set.Icc X₁ X₂ := ⟨by linarith, by linarith⟩
  have q3 : x₂ ∈ Set.Icc X₁ X₂ := ⟨by linarith, by linarith⟩
  have q4 : X₂ ∈ Set.Icc X₁ X₂ := ⟨by linarith, by linarith⟩
  have sz : ∀ x, x = x₁ ∨ x = x₂ → ∫ z in Z₁..Z₂, (H ⟨x, 0, z⟩).z = (∫ z in Z₁..z₁, (H ⟨x, 0, z⟩).z) + (∫ z in z₁..z₂, (H ⟨x, 0, z⟩).z) + ∫ z in z₂..Z₂, (H ⟨x, 0, z⟩).z := fun x hx => by
    rw [intervalIntegral.integral_add_adjacent_intervals (iz x hx _ p1 _ p2) (iz x hx _ p2 _ p3), intervalIntegral.integral_add_adjacent_intervals (iz x hx _ p1 _ p3) (iz x hx _ p3 _ p4)]
  have sx : ∀ z, z = Z₁ ∨ z = Z₂ → ∫ x in X₁..X₂, (H ⟨x, 0, z⟩).x = (∫ x in X₁..x₁, (H ⟨x, 0, z⟩).x) + (∫ x in x₁..x₂, (H ⟨x, 0, z⟩).x) + ∫ x in x₂..X₂, (H ⟨x, 0, z⟩).x := fun z hz => by
    rw [intervalIntegral.integral_add_adjacent_intervals (ix z hz _ q1 _ q2) (ix z hz _ q2 _ q3), intervalIntegral.integral_add_adjacent_intervals (ix z hz _ q1 _ q3) (ix z hz _ q3 _ q4)]
  unfold circulation at *
  rw [sz x₁ (.inl rfl)] at left
  rw [sz x₂ (.inr rfl)] at right
  rw [sx Z₁ (.inl rfl), sx Z₂ (.inr rfl)]
  linarith

/-- A bound for the field of a loop at distance `D` or more. -/
theorem far_bound {r z D : ℝ} (hr : 0 ≤ r) (hD : 0 < D) {p : V3} (h : ∀ φ, D ≤ V3.norm (p - ringPoint r z φ)) : |(ringField r z p).x| ≤ r / D ^ 2 ∧ |(ringField r z p).z| ≤ r / D ^ 2 := by
  have comp : ∀ w : V3, |w.x| ≤ V3.norm w ∧ |w.y| ≤ V3.norm w ∧ |w.z| ≤ V3.norm w := fun w => by
    refine ⟨Real.abs_le_sqrt ?_, Real.abs_le_sqrt ?_, Real.abs_le_sqrt ?_⟩ <;> simp only [V3.dot] <;> nlinarith [sq_nonneg w.x, sq_nonneg w.y, sq_nonneg w.z]
  have key : ∀ φ, ∀ t : ℝ, |t| ≤ 2 * (r * V3.norm (p - ringPoint r z φ)) → |1 / (4 * π * V3.norm (p - ringPoint r z φ) ^ 3) * t| ≤ r / (2 * π * D ^ 2) := by
    intro φ t ht
    have hd := h φ
    generalize V3.norm (p - ringPoint r z φ) = d at *
    have hd0 : 0 < d := lt_of_lt_of_le hD hd
    have hpi := Real.pi_pos
    rw [abs_mul, abs_of_pos (by positivity : 0 < 1 / (4 * π * d ^ 3))]
    calc 1 / (4 * π * d ^ 3) * |t| ≤ 1 / (4 * π * d ^ 3) * (2 * (r * d)) := by gcongr
      _ = r / (2 * π * d ^ 2) := by field_simp; norm_num
      _ ≤ r / (2 * π * D ^ 2) := by gcongr
  have hs := fun φ => abs_le.1 (Real.abs_sin_le_one φ)
  have hc := fun φ => abs_le.1 (Real.abs_cos_le_one φ)
  have hm : ∀ φ (s u : ℝ), |s| ≤ 1 → |u| ≤ V3.norm (p - ringPoint r z φ) → |r * s * u| ≤ r * V3.norm (p - ringPoint r z φ) := fun φ s u h1 h2 => by
    rw [abs_mul, abs_mul, abs_of_nonneg hr]
    have : |s| * |u| ≤ 1 * V3.norm (p - ringPoint r z φ) := mul_le_mul h1 h2 (abs_nonneg _) (by norm_num)
    rw [mul_assoc]
    exact mul_le_mul_of_nonneg_left (by linarith) hr
  have tot : ∀ f : ℝ → ℝ, (∀ φ, |f φ| ≤ r / (2 * π * D ^ 2)) → |∫ φ in (0 : ℝ)..2 * π, f φ| ≤ r / D ^ 2 := fun f hf => by
    have := intervalIntegral.norm_integral_le_of_norm_le_const (a := (0 : ℝ)) (b := 2 * π) (f := f) (C := r / (2 * π * D ^ 2)) fun φ _ => by rw [Real.norm_eq_abs]; exact hf φ
    rw [Real.norm_eq_abs, sub_zero, abs_of_pos (by have := Real.pi_pos; positivity : (0 : ℝ) < 2 * π)] at this
    refine this.trans (le_of_eq ?_)
    have := Real.pi_pos
    field_simp
  have hn : ∀ φ, 0 ≤ r * V3.norm (p - ringPoint r z φ) := fun φ => mul_nonneg hr (hD.le.trans (h φ))
  constructor
  · refine tot _ fun φ => key φ (cross ⟨-r * sin φ, r * cos φ, 0⟩ (p - ringPoint r z φ)).x ?_
    have e : (cross ⟨-r * sin φ, r * cos φ, 0⟩ (p - ringPoint r z φ)).x = r * cos φ * (p - ringPoint r z φ).z := by simp only [cross]; ring
    rw [e]
    linarith [hm φ _ _ (Real.abs_cos_le_one φ) (comp (p - ringPoint r z φ)).2.2, hn φ]
  · refine tot _ fun φ => key φ (cross ⟨-r * sin φ, r * cos φ, 0⟩ (p - ringPoint r z φ)).z ?_
    have e : (cross ⟨-r * sin φ, r * cos φ, 0⟩ (p - ringPoint r z φ)).z = -(r * sin φ * (p - ringPoint r z φ).y) - r * cos φ * (p - ringPoint r z φ).x := by simp only [cross]; ring
    rw [e]
    refine (abs_sub _ _).trans ?_
    rw [abs_neg]
    linarith [hm φ _ _ (Real.abs_sin_le_one φ) (comp (p - ringPoint r z φ)).2.1, hm φ _ _ (Real.abs_cos_le_one φ) (comp (p - ringPoint r z φ)).1]

theorem dist_z {r z D : ℝ} {p : V3} (h : D ≤ |p.z - z|) (φ : ℝ) : D ≤ V3.norm (p - ringPoint r z φ) := by
  refine h.trans (Real.abs_le_sqrt ?_)
  simp only [V3.dot, ringPoint, V3.sub_x, V3.sub_y, V3.sub_z]
  nlinarith [sq_nonneg (p.x - r * cos φ), sq_nonneg (p.y - r * sin φ)]

theorem dist_x {r z D : ℝ} (hr : 0 ≤ r) {p : V3} (h : D ≤ p.x - r) (φ : ℝ) : D ≤ V3.norm (p - ringPoint r z φ) := by
  have hc := (abs_le.1 (Real.abs_cos_le_one φ)).2
  have h1 : D ≤ |p.x - r * cos φ| := le_trans (by nlinarith) (le_abs_self _)
  refine h1.trans (Real.abs_le_sqrt ?_)
  simp only [V3.dot, ringPoint, V3.sub_x, V3.sub_y, V3.sub_z]
  nlinarith [sq_nonneg (p.y - r * sin φ), sq_nonneg (p.z - z)]

/-- A point of the plane off the point `(r, z)` is off the ring. -/
theorem off_plane {r z x z' : ℝ} (hr : 0 ≤ r) (hx : 0 ≤ x) (h : ¬ (x = r ∧ z' = z)) : OffRing ⟨x, 0, z'⟩ r z := by
  intro φ hq
  have e1 : r * cos φ = x := congrArg V3.x hq
  have e2 : r * sin φ = 0 := congrArg V3.y hq
  have e3 : z = z' := congrArg V3.z hq
  have e4 : r ^ 2 = x ^ 2 := by
    have := Real.sin_sq_add_cos_sq φ
    have h5 : (r * sin φ) ^ 2 + (r * cos φ) ^ 2 = r ^ 2 := by linear_combination r ^ 2 * this
    rw [e1, e2] at h5; linarith
  exact h ⟨by nlinarith [sq_nonneg (x - r), sq_nonneg (x + r)], e3.symm⟩

/-- Ampère's law for one loop. -/
theorem ring {r z x₁ x₂ z₁ z₂ : ℝ} (hx₁ : 0 ≤ x₁) (h1 : x₁ < r) (h2 : r < x₂) (h3 : z₁ < z) (h4 : z < z₂) : circulation (ringField r z) x₁ x₂ z₁ z₂ = 1 := by
  have hr : 0 < r := by linarith
  -- the circulation around large rectangles
  have big : ∀ L, x₂ ≤ L → -L ≤ z₁ → z₂ ≤ L → circulation (ringField r z) x₁ x₂ z₁ z₂ = circulation (ringField r z) 0 L (-L) L := fun L k1 k2 k3 =>
    enlarge hx₁ (by linarith) k1 k2 (by linarith) k3 fun x hx z' hz' hn => ringField_vacuum hr.le (off_plane hr.le hx.1 fun k => hn (by rw [k.1, k.2]; exact ⟨h1, h2, h3, h4⟩))
  -- the axis
  have ax : Tendsto (fun L : ℝ => ∫ z' in (-L)..L, (ringField r z ⟨0, 0, z'⟩).z) atTop (𝓝 1) := by
    have := (C110_rings ⟨1, [1], [[1]], [[⟨r, 0, z⟩]]⟩ (by simpa using hr)).2.2.2
    have e : superpose (fun _ : V3 => (1 : ℝ)) ⟨1, [1], [[1]], [[⟨r, 0, z⟩]]⟩ = 1 := by simp [superpose]
    have e' : ∀ p, loopsField ⟨1, [1], [[1]], [[⟨r, 0, z⟩]]⟩ p = ringField r z p := fun p => by
      unfold loopsField superpose; simp
    simp only [e, e'] at this
    have hl : Tendsto (fun L : ℝ => ((-L, L) : ℝ × ℝ)) atTop (atBot ×ˢ atTop) := (tendsto_neg_atTop_atBot).prodMk tendsto_id
    exact this.comp hl
  -- the other sides
  let c := r + |z|
  have side : ∀ L, c < L → |circulation (ringField r z) 0 L (-L) L - ∫ z' in (-L)..L, (ringField r z ⟨0, 0, z'⟩).z| ≤ 4 * L * (r / (L - c) ^ 2) := by
    intro L hL
    have hc : r ≤ c ∧ |z| ≤ c ∧ 0 < c := ⟨by simp only [c]; linarith [abs_nonneg z], by simp only [c]; linarith, by simp only [c]; linarith [abs_nonneg z]⟩
    have hD : 0 < L - c := by linarith
    have hz := abs_le.1 hc.2.1
    have t : ∀ x, |(ringField r z ⟨x, 0, L⟩).x| ≤ r / (L - c) ^ 2 := fun x => (far_bound hr.le hD fun φ => dist_z (by simp only; exact le_trans (by linarith) (le_abs_self _)) φ).1
    have b : ∀ x, |(ringField r z ⟨x, 0, -L⟩).x| ≤ r / (L - c) ^ 2 := fun x => (far_bound hr.le hD fun φ => dist_z (by simp only; exact le_trans (by linarith) (neg_le_abs _)) φ).1
    have s : ∀ z', |(ringField r z ⟨L, 0, z'⟩).z| ≤ r / (L - c) ^ 2 := fun z' => (far_bound hr.le hD fun φ => dist_x hr.le (by simp only; linarith) φ).2
    have t' := intervalIntegral.norm_integral_le_of_norm_le_const (a := 0) (b := L) (f := fun x => (ringField r z ⟨x, 0, L⟩).x) (C := r / (L - c) ^ 2) fun x _ => by rw [Real.norm_eq_abs]; exact t x
    have b' := intervalIntegral.norm_integral_le_of_norm_le_const (a := 0) (b := L) (f := fun x => (ringField r z ⟨x, 0, -L⟩).x) (C := r / (L - c) ^ 2) fun x _ => by rw [Real.norm_eq_abs]; exact b x
    have s' := intervalIntegral.norm_integral_le_of_norm_le_const (a := -L) (b := L) (f := fun z' => (ringField r z ⟨L, 0, z'⟩).z) (C := r / (L - c) ^ 2) fun x _ => by rw [Real.norm_eq_abs]; exact s x
    rw [Real.norm_eq_abs, sub_zero, abs_of_pos (by linarith : 0 < L)] at t' b'
    rw [Real.norm_eq_abs, sub_neg_eq_add, abs_of_pos (by linarith : 0 < L + L)] at s'
    unfold circulation
    rw [abs_le] at t' b' s' ⊢
    constructor <;> linarith [t'.1, t'.2, b'.1, b'.2, s'.1, s'.2]
  have zero : Tendsto (fun L : ℝ => 4 * L * (r / (L - c) ^ 2)) atTop (𝓝 0) := by
    have hc0 : 0 < c := by simp only [c]; linarith [abs_nonneg z]
    have h5 : Tendsto (fun L : ℝ => 16 * r / L) atTop (𝓝 0) := tendsto_const_nhds.div_atTop tendsto_id
    refine squeeze_zero' ?_ ?_ h5
    · filter_upwards [eventually_gt_atTop 0] with L hL
      positivity
    · filter_upwards [eventually_gt_atTop (2 * c)] with L hL
      have hL0 : 0 < L := by linarith
      have : L / 2 ≤ L - c := by linarith
      calc 4 * L * (r / (L - c) ^ 2) ≤ 4 * L * (r / (L / 2) ^ 2) := by gcongr
        _ = 16 * r / L := by field_simp; norm_num
  have lim : Tendsto (fun L : ℝ => circulation (ringField r z) 0 L (-L) L) atTop (𝓝 1) := by
    have h6 : Tendsto (fun L : ℝ => circulation (ringField r z) 0 L (-L) L - ∫ z' in (-L)..L, (ringField r z ⟨0, 0, z'⟩).z) atTop (𝓝 0) := by
      refine squeeze_zero_norm' ?_ zero
      filter_upwards [eventually_gt_atTop c] with L hL
      rw [Real.norm_eq_abs]; exact side L hL
    have := h6.add ax
    simpa using this
  refine tendsto_nhds_unique (tendsto_const_nhds.congr' ?_) lim
  filter_upwards [eventually_ge_atTop x₂, eventually_ge_atTop z₂, eventually_ge_atTop (-z₁)] with L k1 k2 k3
  exact big L k1 (by linarith) k2

end Circulation
end Traceon
