import Verif.Spec.Gauss
import Mathlib.MeasureTheory.Integral.IntervalIntegral.FundThmCalculus
import Mathlib.Analysis.SpecialFunctions.Trigonometric.ArctanDeriv
import Mathlib.Analysis.SpecialFunctions.Sqrt
import Mathlib.Tactic.Linarith
import Mathlib.Tactic.FieldSimp
import Mathlib.Tactic.Positivity

/-!
# The flux of a point charge out of a box
-/
namespace Traceon.BoxFlux
open MeasureTheory

/-- distance -/
noncomputable def dst (a y z : ℝ) : ℝ := Real.sqrt (a ^ 2 + y ^ 2 + z ^ 2)

theorem dst_pos {a : ℝ} (ha : a ≠ 0) (y z : ℝ) : 0 < dst a y z := Real.sqrt_pos.2 (by positivity)

theorem dst_sq (a y z : ℝ) : dst a y z ^ 2 = a ^ 2 + y ^ 2 + z ^ 2 := Real.sq_sqrt (by positivity)

theorem dst_deriv {a : ℝ} (ha : a ≠ 0) (y z : ℝ) : HasDerivAt (fun z => dst a y z) (z / dst a y z) z := by
  have h : HasDerivAt (fun z : ℝ => a ^ 2 + y ^ 2 + z ^ 2) (2 * z) z := by
    have := (hasDerivAt_pow 2 z).const_add (a ^ 2 + y ^ 2)
    refine this.congr_deriv ?_
    norm_num
  have h2 := h.sqrt (by positivity)
  refine h2.congr_deriv ?_
  have := dst_pos ha y z
  unfold dst at *
  field_simp

theorem dst_deriv' {a : ℝ} (ha : a ≠ 0) (y z : ℝ) : HasDerivAt (fun y => dst a y z) (y / dst a y z) y := by
  have e : ∀ y z, dst a y z = dst a z y := fun y z => by unfold dst; congr 1; ring
  rw [funext fun y => e y z, e y z]
  exact dst_deriv ha z y

theorem inner_deriv {a : ℝ} (ha : a ≠ 0) (y z : ℝ) : HasDerivAt (fun z => a * z / ((a ^ 2 + y ^ 2) * dst a y z)) (a / dst a y z ^ 3) z := by
  have hd := dst_pos ha y z
  have hs := dst_sq a y z
  have h0 : 0 < a ^ 2 + y ^ 2 := by positivity
  have := ((hasDerivAt_id z).const_mul a).div ((dst_deriv ha y z).const_mul (a ^ 2 + y ^ 2)) (by positivity)
  refine this.congr_deriv ?_
  simp only [id]
  field_simp
  rw [hs]
  ring

theorem outer_deriv {a : ℝ} (ha : a ≠ 0) (y z : ℝ) : HasDerivAt (fun y => Real.arctan (y * z / (a * dst a y z))) (a * z / ((a ^ 2 + y ^ 2) * dst a y z)) y := by
  have hd := dst_pos ha y z
  have hs := dst_sq a y z
  have h0 : 0 < a ^ 2 + y ^ 2 := by positivity
  have h1 : HasDerivAt (fun y => y * z / (a * dst a y z)) _ y := ((hasDerivAt_id y).mul_const z).div ((dst_deriv' ha y z).const_mul a) (by positivity)
  refine h1.arctan.congr_deriv ?_
  simp only [id]
  have h2 : a ^ 2 * dst a y z ^ 2 + y ^ 2 * z ^ 2 = (a ^ 2 + y ^ 2) * (a ^ 2 + z ^ 2) := by rw [hs]; ring
  have h3 : 0 < a ^ 2 + z ^ 2 := by positivity
  have e1 : 1 + (y * z / (a * dst a y z)) ^ 2 = (a ^ 2 + y ^ 2) * (a ^ 2 + z ^ 2) / (a ^ 2 * dst a y z ^ 2) := by
    rw [← h2]; field_simp
  rw [e1]
  field_simp
  rw [hs]
  ring

/-- The corner function. -/
noncomputable def G (a y z : ℝ) : ℝ := Real.arctan (y * z / (a * dst a y z))

theorem dst_continuous (a : ℝ) : Continuous fun p : ℝ × ℝ => dst a p.1 p.2 := by unfold dst; fun_prop

theorem inner_integral (a y c d : ℝ) : IntervalIntegrable (fun z => a / dst a y z ^ 3) volume c d ∧
    ∫ z in c..d, a / dst a y z ^ 3 = a * d / ((a ^ 2 + y ^ 2) * dst a y d) - a * c / ((a ^ 2 + y ^ 2) * dst a y c) := by
  rcases eq_or_ne a 0 with rfl | ha
  · simp
  · have hc : Continuous fun z => a / dst a y z ^ 3 := by
      refine continuous_const.div ((by unfold dst; fun_prop : Continuous fun z => dst a y z).pow 3) fun z => (pow_pos (dst_pos ha y z) 3).ne'
    have hi := hc.intervalIntegrable (μ := volume) c d
    exact ⟨hi, intervalIntegral.integral_eq_sub_of_hasDerivAt (fun z _ => inner_deriv ha y z) hi⟩

theorem outer_integral (a c p q : ℝ) : IntervalIntegrable (fun y => a * c / ((a ^ 2 + y ^ 2) * dst a y c)) volume p q ∧
    ∫ y in p..q, a * c / ((a ^ 2 + y ^ 2) * dst a y c) = G a q c - G a p c := by
  rcases eq_or_ne a 0 with rfl | ha
  · simp [G]
  · have hc : Continuous fun y => a * c / ((a ^ 2 + y ^ 2) * dst a y c) := by
      refine continuous_const.div ((by fun_prop : Continuous fun y => a ^ 2 + y ^ 2).mul (by unfold dst; fun_prop)) fun y => (mul_pos (by positivity) (dst_pos ha y c)).ne'
    have hi := hc.intervalIntegrable (μ := volume) p q
    exact ⟨hi, intervalIntegral.integral_eq_sub_of_hasDerivAt (fun y _ => outer_deriv ha y c) hi⟩

/-- Functions on a rectangle that can be integrated over one variable after the other. -/
structure Nice (f : ℝ → ℝ → ℝ) (p q c d : ℝ) : Prop where
  inner : ∀ y, IntervalIntegrable (f y) volume c d
  outer : IntervalIntegrable (fun y => ∫ z in c..d, f y z) volume p q

theorem Nice.smul {f : ℝ → ℝ → ℝ} {p q c d : ℝ} (h : Nice f p q c d) (w : ℝ) : Nice (fun y z => w * f y z) p q c d :=
  ⟨fun y => (h.inner y).const_mul w, by simp only [intervalIntegral.integral_const_mul]; exact h.outer.const_mul w⟩

theorem Nice.add {f g : ℝ → ℝ → ℝ} {p q c d : ℝ} (h : Nice f p q c d) (h' : Nice g p q c d) : Nice (fun y z => f y z + g y z) p q c d ∧
    ∫ y in p..q, ∫ z in c..d, (f y z + g y z) = (∫ y in p..q, ∫ z in c..d, f y z) + ∫ y in p..q, ∫ z in c..d, g y z := by
  have e : (fun y => ∫ z in c..d, (f y z + g y z)) = fun y => (∫ z in c..d, f y z) + ∫ z in c..d, g y z :=
    funext fun y => intervalIntegral.integral_add (h.inner y) (h'.inner y)
  refine ⟨⟨fun y => (h.inner y).add (h'.inner y), ?_⟩, ?_⟩
  · rw [e]; exact h.outer.add h'.outer
  · rw [e]; exact intervalIntegral.integral_add h.outer h'.outer

/-- The flux of a point charge in the origin through a rectangle at the distance `a`. -/
theorem face (a p q c d : ℝ) : Nice (fun y z => a / dst a y z ^ 3) p q c d ∧
    ∫ y in p..q, ∫ z in c..d, a / dst a y z ^ 3 = G a q d - G a p d - (G a q c - G a p c) := by
  have e : (fun y => ∫ z in c..d, a / dst a y z ^ 3) = fun y => a * d / ((a ^ 2 + y ^ 2) * dst a y d) - a * c / ((a ^ 2 + y ^ 2) * dst a y c) := funext fun y => (inner_integral a y c d).2
  obtain ⟨i1, v1⟩ := outer_integral a d p q
  obtain ⟨i2, v2⟩ := outer_integral a c p q
  refine ⟨⟨fun y => (inner_integral a y c d).1, ?_⟩, ?_⟩
  · rw [e]; exact i1.sub i2
  · rw [e, intervalIntegral.integral_sub i1 i2, v1, v2]

/-! ## The sum over the corners -/

theorem G_pos {x y z : ℝ} (hx : 0 < x) (hy : 0 < y) (hz : 0 < z) : G x y z + G y x z + G z x y = Real.pi / 2 := by
  have e1 : dst y x z = dst x y z := by unfold dst; congr 1; ring
  have e2 : dst z x y = dst x y z := by unfold dst; congr 1; ring
  have hd := dst_pos hx.ne' y z
  have hs := dst_sq x y z
  unfold G
  rw [e1, e2]
  have hpq : y * z / (x * dst x y z) * (x * z / (y * dst x y z)) < 1 := by
    have : y * z / (x * dst x y z) * (x * z / (y * dst x y z)) = z ^ 2 / dst x y z ^ 2 := by field_simp
    rw [this, div_lt_one (by positivity), hs]
    nlinarith [sq_pos_of_pos hx, sq_pos_of_pos hy]
  rw [Real.arctan_add hpq]
  have e3 : (y * z / (x * dst x y z) + x * z / (y * dst x y z)) / (1 - y * z / (x * dst x y z) * (x * z / (y * dst x y z))) = (x * y / (z * dst x y z))⁻¹ := by
    have a1 : y * z / (x * dst x y z) + x * z / (y * dst x y z) = z * (x ^ 2 + y ^ 2) / (x * y * dst x y z) := by field_simp; ring
    have a2 : 1 - y * z / (x * dst x y z) * (x * z / (y * dst x y z)) = (x ^ 2 + y ^ 2) / dst x y z ^ 2 := by
      have : y * z / (x * dst x y z) * (x * z / (y * dst x y z)) = z ^ 2 / dst x y z ^ 2 := by field_simp
      rw [this, eq_div_iff (by positivity), sub_mul, div_mul_cancel₀ _ (by positivity), hs]; ring
    rw [a1, a2]
    field_simp
  rw [e3, Real.arctan_inv_of_pos (by positivity)]
  ring

/-- The sign, as a number -/
noncomputable def sg (x : ℝ) : ℝ := if 0 < x then 1 else if x < 0 then -1 else 0

theorem sg_neg (x : ℝ) : sg (-x) = -sg x := by
  unfold sg
  rcases lt_trichotomy x 0 with h | h | h
  · simp [h, not_lt.2 h.le]
  · simp [h]
  · simp [h, not_lt.2 h.le]

theorem G_neg1 (x y z : ℝ) : G (-x) y z = -G x y z := by
  have : dst (-x) y z = dst x y z := by unfold dst; congr 1; ring
  unfold G
  rw [this, ← Real.arctan_neg]
  congr 1
  rw [neg_mul, div_neg]

theorem G_neg2 (x y z : ℝ) : G x (-y) z = -G x y z := by
  have : dst x (-y) z = dst x y z := by unfold dst; congr 1; ring
  unfold G
  rw [this, ← Real.arctan_neg]
  congr 1
  ring

theorem G_neg3 (x y z : ℝ) : G x y (-z) = -G x y z := by
  have : dst x y (-z) = dst x y z := by unfold dst; congr 1; ring
  unfold G
  rw [this, ← Real.arctan_neg]
  congr 1
  ring

/-- The solid angle of an octant, for all signs -/
theorem G_corner (x y z : ℝ) : G x y z + G y x z + G z x y = sg x * sg y * sg z * (Real.pi / 2) := by
  have main : ∀ x y z : ℝ, 0 ≤ x → 0 ≤ y → 0 ≤ z → G x y z + G y x z + G z x y = sg x * sg y * sg z * (Real.pi / 2) := by
    intro x y z hx hy hz
    rcases hx.eq_or_lt with rfl | hx
    · simp [G, sg]
    rcases hy.eq_or_lt with rfl | hy
    · simp [G, sg]
    rcases hz.eq_or_lt with rfl | hz
    · simp [G, sg]
    rw [G_pos hx hy hz]
    simp [sg, hx, hy, hz]
  have hx : ∀ x y z : ℝ, 0 ≤ y → 0 ≤ z → G x y z + G y x z + G z x y = sg x * sg y * sg z * (Real.pi / 2) := by
    intro x y z hy hz
    rcases le_total 0 x with h | h
    · exact main x y z h hy hz
    · have := main (-x) y z (by linarith) hy hz
      rw [G_neg1, G_neg2, G_neg2, sg_neg] at this
      linarith
  have hy : ∀ x y z : ℝ, 0 ≤ z → G x y z + G y x z + G z x y = sg x * sg y * sg z * (Real.pi / 2) := by
    intro x y z hz
    rcases le_total 0 y with h | h
    · exact hx x y z h hz
    · have := hx x (-y) z (by linarith) hz
      rw [G_neg1, G_neg2, G_neg3, sg_neg] at this
      linarith
  rcases le_total 0 z with h | h
  · exact hy x y z h
  · have := hy x y (-z) (by linarith)
    rw [G_neg1, G_neg3, G_neg3, sg_neg] at this
    linarith

end Traceon.BoxFlux
