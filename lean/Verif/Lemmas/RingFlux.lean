import Verif.Spec.GaussRadial
import Verif.Props.Gauss

/-!
# The flux of the field of a charged ring out of a box
-/
namespace Traceon
open Spec BoxFlux MeasureTheory Real

namespace BoxFlux

/-- A function that agrees on the rectangle with a continuous one. -/
def Flat (f : ℝ → ℝ → ℝ) (p q c d : ℝ) : Prop := ∃ g : ℝ → ℝ → ℝ, Continuous (fun v : ℝ × ℝ => g v.1 v.2) ∧ ∀ y ∈ Set.Icc p q, ∀ z ∈ Set.Icc c d, f y z = g y z

theorem flat_integral {f g : ℝ → ℝ → ℝ} {p q c d : ℝ} (hp : p ≤ q) (hc : c ≤ d) (h : ∀ y ∈ Set.Icc p q, ∀ z ∈ Set.Icc c d, f y z = g y z) :
    ∫ y in p..q, ∫ z in c..d, f y z = ∫ y in p..q, ∫ z in c..d, g y z := by
  refine intervalIntegral.integral_congr fun y hy => ?_
  rw [Set.uIcc_of_le hp] at hy
  refine intervalIntegral.integral_congr fun z hz => ?_
  rw [Set.uIcc_of_le hc] at hz
  exact h y hy z hz

theorem continuous_inner {g : ℝ → ℝ → ℝ} (hg : Continuous (fun v : ℝ × ℝ => g v.1 v.2)) (c d : ℝ) : Continuous fun y => ∫ z in c..d, g y z :=
  intervalIntegral.continuous_parametric_intervalIntegral_of_continuous' hg c d

theorem Flat.add {f f' : ℝ → ℝ → ℝ} {p q c d : ℝ} (hp : p ≤ q) (hc : c ≤ d) (h : Flat f p q c d) (h' : Flat f' p q c d) : Flat (fun y z => f y z + f' y z) p q c d ∧
    ∫ y in p..q, ∫ z in c..d, (f y z + f' y z) = (∫ y in p..q, ∫ z in c..d, f y z) + ∫ y in p..q, ∫ z in c..d, f' y z := by
  obtain ⟨g, h1, h2⟩ := h
  obtain ⟨g', h1', h2'⟩ := h'
  have h3 : ∀ y ∈ Set.Icc p q, ∀ z ∈ Set.Icc c d, f y z + f' y z = g y z + g' y z := fun y hy z hz => by rw [h2 y hy z hz, h2' y hy z hz]
  refine ⟨⟨_, h1.add h1', h3⟩, ?_⟩
  rw [flat_integral hp hc h2, flat_integral hp hc h2', flat_integral hp hc h3]
  have e : ∀ y, ∫ z in c..d, (g y z + g' y z) = (∫ z in c..d, g y z) + ∫ z in c..d, g' y z := fun y =>
    intervalIntegral.integral_add ((h1.comp (continuous_const.prodMk continuous_id)).intervalIntegrable _ _) ((h1'.comp (continuous_const.prodMk continuous_id)).intervalIntegrable _ _)
  simp only [e]
  exact intervalIntegral.integral_add ((continuous_inner h1 c d).intervalIntegrable _ _) ((continuous_inner h1' c d).intervalIntegrable _ _)

theorem Flat.smul {f : ℝ → ℝ → ℝ} {p q c d : ℝ} (h : Flat f p q c d) (w : ℝ) : Flat (fun y z => w * f y z) p q c d := by
  obtain ⟨g, h1, h2⟩ := h
  exact ⟨fun y z => w * g y z, continuous_const.mul h1, fun y hy z hz => congrArg (w * ·) (h2 y hy z hz)⟩

/-- Limit a number to an interval. -/
noncomputable def clamp (p q y : ℝ) : ℝ := max p (min q y)

theorem clamp_mem {p q : ℝ} (h : p ≤ q) (y : ℝ) : clamp p q y ∈ Set.Icc p q := ⟨le_max_left _ _, max_le h (min_le_left _ _)⟩
theorem clamp_of_mem {p q y : ℝ} (h : y ∈ Set.Icc p q) : clamp p q y = y := by unfold clamp; rw [min_eq_right h.2, max_eq_right h.1]
theorem clamp_continuous (p q : ℝ) : Continuous (clamp p q) := by unfold clamp; fun_prop

/-- Swapping the integral over the ring with those over a face. -/
theorem swap3 {K : ℝ → ℝ → ℝ → ℝ} {p q c d : ℝ} (hp : p ≤ q) (hc : c ≤ d)
    (hK : ContinuousOn (fun v : ℝ × ℝ × ℝ => K v.1 v.2.1 v.2.2) (Set.univ ×ˢ Set.Icc p q ×ˢ Set.Icc c d)) (s t : ℝ) :
    Flat (fun y z => ∫ φ in s..t, K φ y z) p q c d ∧ Continuous (fun φ => ∫ y in p..q, ∫ z in c..d, K φ y z) ∧
    ∫ y in p..q, ∫ z in c..d, ∫ φ in s..t, K φ y z = ∫ φ in s..t, ∫ y in p..q, ∫ z in c..d, K φ y z := by
  let L : ℝ → ℝ → ℝ → ℝ := fun φ y z => K φ (clamp p q y) (clamp c d z)
  have hL : Continuous fun v : ℝ × ℝ × ℝ => L v.1 v.2.1 v.2.2 := by
    refine hK.comp_continuous (f := fun v : ℝ × ℝ × ℝ => (v.1, clamp p q v.2.1, clamp c d v.2.2)) ?_ fun v => ⟨trivial, clamp_mem hp _, clamp_mem hc _⟩
    have h1 := clamp_continuous p q
    have h2 := clamp_continuous c d
    fun_prop
  have hKL : ∀ φ, ∀ y ∈ Set.Icc p q, ∀ z ∈ Set.Icc c d, K φ y z = L φ y z := fun φ y hy z hz => by
    simp only [L]; rw [clamp_of_mem hy, clamp_of_mem hz]
  have hF : Continuous fun v : ℝ × ℝ => ∫ φ in s..t, L φ v.1 v.2 := by
    have : Continuous fun w : (ℝ × ℝ) × ℝ => L w.2 w.1.1 w.1.2 := hL.comp (by fun_prop : Continuous fun w : (ℝ × ℝ) × ℝ => (w.2, w.1.1, w.1.2))
    exact intervalIntegral.continuous_parametric_intervalIntegral_of_continuous' (f := fun v : ℝ × ℝ => fun φ => L φ v.1 v.2) this s t
  have hM : Continuous fun v : ℝ × ℝ => ∫ z in c..d, L v.1 v.2 z := by
    have : Continuous fun w : (ℝ × ℝ) × ℝ => L w.1.1 w.1.2 w.2 := hL.comp (by fun_prop : Continuous fun w : (ℝ × ℝ) × ℝ => (w.1.1, w.1.2, w.2))
    exact intervalIntegral.continuous_parametric_intervalIntegral_of_continuous' (f := fun v : ℝ × ℝ => fun z => L v.1 v.2 z) this c d
  have swap2 : ∀ {h : ℝ → ℝ → ℝ}, Continuous (fun v : ℝ × ℝ => h v.1 v.2) → ∀ a b a' b' : ℝ, ∫ x in a..b, ∫ y in a'..b', h x y = ∫ y in a'..b', ∫ x in a..b, h x y := by
    intro h hh a b a' b'
    refine MeasureTheory.intervalIntegral_intervalIntegral_swap ?_
    have : IntegrableOn (fun v : ℝ × ℝ => h v.1 v.2) (Set.uIcc a b ×ˢ Set.uIcc a' b') := hh.continuousOn.integrableOn_compact (isCompact_uIcc.prod isCompact_uIcc)
    exact this.mono_set (Set.prod_mono Set.uIoc_subset_uIcc Set.uIoc_subset_uIcc)
  have e1 : ∀ φ, ∫ y in p..q, ∫ z in c..d, K φ y z = ∫ y in p..q, ∫ z in c..d, L φ y z := fun φ => flat_integral hp hc (hKL φ)
  have e2 : ∀ y ∈ Set.Icc p q, ∀ z ∈ Set.Icc c d, ∫ φ in s..t, K φ y z = ∫ φ in s..t, L φ y z := fun y hy z hz => by
    refine intervalIntegral.integral_congr fun φ _ => hKL φ y hy z hz
  refine ⟨⟨_, hF, e2⟩, ?_, ?_⟩
  · simp only [e1]
    exact continuous_inner hM p q
  · rw [flat_integral hp hc e2]
    simp only [e1]
    have e3 : ∀ y, ∫ z in c..d, ∫ φ in s..t, L φ y z = ∫ φ in s..t, ∫ z in c..d, L φ y z := fun y => by
      refine swap2 (h := fun z φ => L φ y z) ?_ c d s t
      exact hL.comp (by fun_prop : Continuous fun w : ℝ × ℝ => (w.2, y, w.1))
    simp only [e3]
    refine swap2 (h := fun y φ => ∫ z in c..d, L φ y z) ?_ p q s t
    exact hM.comp (by fun_prop : Continuous fun w : ℝ × ℝ => (w.2, w.1))

/-- A field which is continuous on the six faces. -/
structure Flat6 (E : V3 → V3) (a b : V3) : Prop where
  x0 : Flat (fun y z => (E ⟨a.x, y, z⟩).x) a.y b.y a.z b.z
  x1 : Flat (fun y z => (E ⟨b.x, y, z⟩).x) a.y b.y a.z b.z
  y0 : Flat (fun x z => (E ⟨x, a.y, z⟩).y) a.x b.x a.z b.z
  y1 : Flat (fun x z => (E ⟨x, b.y, z⟩).y) a.x b.x a.z b.z
  z0 : Flat (fun x y => (E ⟨x, y, a.z⟩).z) a.x b.x a.y b.y
  z1 : Flat (fun x y => (E ⟨x, y, b.z⟩).z) a.x b.x a.y b.y

theorem Flat6.add {E F : V3 → V3} {a b : V3} (hx : a.x ≤ b.x) (hy : a.y ≤ b.y) (hz : a.z ≤ b.z) (h : Flat6 E a b) (h' : Flat6 F a b) :
    Flat6 (fun p => E p + F p) a b ∧ boxFlux (fun p => E p + F p) a b = boxFlux E a b + boxFlux F a b := by
  have x0 := h.x0.add hy hz h'.x0
  have x1 := h.x1.add hy hz h'.x1
  have y0 := h.y0.add hx hz h'.y0
  have y1 := h.y1.add hx hz h'.y1
  have z0 := h.z0.add hx hy h'.z0
  have z1 := h.z1.add hx hy h'.z1
  refine ⟨⟨x0.1, x1.1, y0.1, y1.1, z0.1, z1.1⟩, ?_⟩
  unfold boxFlux
  simp only [V3.add_x, V3.add_y, V3.add_z]
  rw [x0.2, x1.2, y0.2, y1.2, z0.2, z1.2]
  ring

theorem Flat6.smul {E : V3 → V3} {a b : V3} (h : Flat6 E a b) (w : ℝ) : Flat6 (fun p => w * E p) a b ∧ boxFlux (fun p => w * E p) a b = w * boxFlux E a b := by
  refine ⟨⟨h.x0.smul w, h.x1.smul w, h.y0.smul w, h.y1.smul w, h.z0.smul w, h.z1.smul w⟩, ?_⟩
  unfold boxFlux
  simp only [V3.smul_x, V3.smul_y, V3.smul_z, intervalIntegral.integral_const_mul]
  ring

theorem Flat6.zero (a b : V3) : Flat6 (fun _ => (0 : V3)) a b ∧ boxFlux (fun _ => (0 : V3)) a b = 0 := by
  have : ∀ p q c d : ℝ, Flat (fun _ _ => (0 : ℝ)) p q c d := fun p q c d => ⟨fun _ _ => 0, continuous_const, fun _ _ _ _ => rfl⟩
  exact ⟨⟨this _ _ _ _, this _ _ _ _, this _ _ _ _, this _ _ _ _, this _ _ _ _, this _ _ _ _⟩, by simp [boxFlux]⟩

theorem coulombRing_unit (r z : ℝ) (p : V3) : coulombRing r z p =
    ⟨∫ φ in (0 : ℝ)..2 * π, r * (unit (ringPoint r z φ) p).x, ∫ φ in (0 : ℝ)..2 * π, r * (unit (ringPoint r z φ) p).y, ∫ φ in (0 : ℝ)..2 * π, r * (unit (ringPoint r z φ) p).z⟩ := by
  have e : ∀ q : V3, V3.norm (p - q) = V3.norm (q - p) := fun q => by
    unfold V3.norm V3.dot; congr 1; simp only [V3.sub_x, V3.sub_y, V3.sub_z]; ring
  unfold coulombRing unit dx1Potential3dPoint dy1Potential3dPoint dz1Potential3dPoint
  simp only [e, ← neg_div, neg_sub]

/-- A point that is neither inside nor outside the box. -/
theorem face_ne {a b q v : V3} (h : InsideBox a b q ∨ OutsideBox a b q) (hx : v.x ∈ Set.Icc a.x b.x) (hy : v.y ∈ Set.Icc a.y b.y) (hz : v.z ∈ Set.Icc a.z b.z)
    (hs : (v.x = a.x ∨ v.x = b.x) ∨ (v.y = a.y ∨ v.y = b.y) ∨ (v.z = a.z ∨ v.z = b.z)) : q ≠ v := by
  rintro rfl
  obtain ⟨x1, x2⟩ := hx
  obtain ⟨y1, y2⟩ := hy
  obtain ⟨z1, z2⟩ := hz
  rcases h with ⟨⟨h1, h2⟩, ⟨h3, h4⟩, h5, h6⟩ | h
  · rcases hs with (h | h) | (h | h) | (h | h) <;> linarith
  · rcases h with (h | h) | (h | h) | (h | h) <;> linarith

theorem unit_continuousOn (r z : ℝ) {S : Set (ℝ × ℝ × ℝ)} (P : ℝ × ℝ × ℝ → V3) (hx : Continuous fun v => (P v).x) (hy : Continuous fun v => (P v).y) (hz : Continuous fun v => (P v).z)
    (hne : ∀ v ∈ S, ringPoint r z v.1 ≠ P v) :
    ContinuousOn (fun v => r * (unit (ringPoint r z v.1) (P v)).x) S ∧ ContinuousOn (fun v => r * (unit (ringPoint r z v.1) (P v)).y) S ∧
    ContinuousOn (fun v => r * (unit (ringPoint r z v.1) (P v)).z) S := by
  have hn : Continuous fun v : ℝ × ℝ × ℝ => 4 * π * V3.norm (ringPoint r z v.1 - P v) ^ 3 := by
    unfold V3.norm V3.dot ringPoint
    simp only [V3.sub_x, V3.sub_y, V3.sub_z]
    fun_prop
  have h0 : ∀ v ∈ S, 4 * π * V3.norm (ringPoint r z v.1 - P v) ^ 3 ≠ 0 := by
    intro v hv
    have : 0 < V3.norm (ringPoint r z v.1 - P v) := V3.norm_pos fun h => hne v hv (V3.sub_eq_zero.1 h)
    have := Real.pi_pos
    positivity
  have key : ∀ f : ℝ × ℝ × ℝ → ℝ, Continuous f → ContinuousOn (fun v => r * -(f v / (4 * π * V3.norm (ringPoint r z v.1 - P v) ^ 3))) S := fun f hf =>
    continuousOn_const.mul (hf.continuousOn.div hn.continuousOn h0).neg
  refine ⟨key (fun v => (ringPoint r z v.1).x - (P v).x) ?_, key (fun v => (ringPoint r z v.1).y - (P v).y) ?_, key (fun v => (ringPoint r z v.1).z - (P v).z) ?_⟩ <;>
  · unfold ringPoint
    fun_prop

theorem six {A B C D E F : ℝ → ℝ} (hA : Continuous A) (hB : Continuous B) (hC : Continuous C) (hD : Continuous D) (hE : Continuous E) (hF : Continuous F) {s t : ℝ} :
    (∫ φ in s..t, B φ) - (∫ φ in s..t, A φ) + ((∫ φ in s..t, D φ) - ∫ φ in s..t, C φ) + ((∫ φ in s..t, F φ) - ∫ φ in s..t, E φ) =
      ∫ φ in s..t, (B φ - A φ + (D φ - C φ) + (F φ - E φ)) := by
  have i1 := fun {f : ℝ → ℝ} (h : Continuous f) => h.intervalIntegrable (μ := volume) s t
  have e1 := intervalIntegral.integral_sub (i1 hB) (i1 hA)
  have e2 := intervalIntegral.integral_sub (i1 hD) (i1 hC)
  have e3 := intervalIntegral.integral_sub (i1 hF) (i1 hE)
  have e4 := intervalIntegral.integral_add (i1 (hB.sub hA)) (i1 (hD.sub hC))
  have e5 := intervalIntegral.integral_add (i1 ((hB.sub hA).add (hD.sub hC))) (i1 (hF.sub hE))
  simp only [Pi.sub_apply, Pi.add_apply] at e1 e2 e3 e4 e5
  rw [e5, e4, e3, e2, e1]

/-- The flux of the field of a ring is the integral of the fluxes of its points. -/
theorem coulombRing_flux {a b : V3} (hx : a.x ≤ b.x) (hy : a.y ≤ b.y) (hz : a.z ≤ b.z) {r z : ℝ} (h : ∀ φ, InsideBox a b (ringPoint r z φ) ∨ OutsideBox a b (ringPoint r z φ)) :
    Flat6 (coulombRing r z) a b ∧ boxFlux (coulombRing r z) a b = ∫ φ in (0 : ℝ)..2 * π, r * boxFlux (unit (ringPoint r z φ)) a b := by
  have hX : ∀ c, c = a.x ∨ c = b.x → _ := fun c hc => swap3 (K := fun φ y z' => r * (unit (ringPoint r z φ) ⟨c, y, z'⟩).x) hy hz
    (unit_continuousOn r z (fun v => ⟨c, v.2.1, v.2.2⟩) (by fun_prop) (by fun_prop) (by fun_prop) fun v hv =>
      face_ne (h v.1) (by rcases hc with rfl | rfl <;> simp [hx]) hv.2.1 hv.2.2 (.inl hc)).1 0 (2 * π)
  have hY : ∀ c, c = a.y ∨ c = b.y → _ := fun c hc => swap3 (K := fun φ x z' => r * (unit (ringPoint r z φ) ⟨x, c, z'⟩).y) hx hz
    (unit_continuousOn r z (fun v => ⟨v.2.1, c, v.2.2⟩) (by fun_prop) (by fun_prop) (by fun_prop) fun v hv =>
      face_ne (h v.1) hv.2.1 (by rcases hc with rfl | rfl <;> simp [hy]) hv.2.2 (.inr (.inl hc))).2.1 0 (2 * π)
  have hZ : ∀ c, c = a.z ∨ c = b.z → _ := fun c hc => swap3 (K := fun φ x y => r * (unit (ringPoint r z φ) ⟨x, y, c⟩).z) hx hy
    (unit_continuousOn r z (fun v => ⟨v.2.1, v.2.2, c⟩) (by fun_prop) (by fun_prop) (by fun_prop) fun v hv =>
      face_ne (h v.1) hv.2.1 hv.2.2 (by rcases hc with rfl | rfl <;> simp [hz]) (.inr (.inr hc))).2.2 0 (2 * π)
  obtain ⟨a1, a2, a3⟩ := hX a.x (.inl rfl)
  obtain ⟨b1, b2, b3⟩ := hX b.x (.inr rfl)
  obtain ⟨c1, c2, c3⟩ := hY a.y (.inl rfl)
  obtain ⟨d1, d2, d3⟩ := hY b.y (.inr rfl)
  obtain ⟨e1, e2, e3⟩ := hZ a.z (.inl rfl)
  obtain ⟨f1, f2, f3⟩ := hZ b.z (.inr rfl)
  constructor
  · constructor <;> simp only [coulombRing_unit] <;> assumption
  · unfold boxFlux
    simp only [coulombRing_unit]
    rw [a3, b3, c3, d3, e3, f3]
    rw [six a2 b2 c2 d2 e2 f2]
    refine intervalIntegral.integral_congr fun φ _ => ?_
    simp only [intervalIntegral.integral_const_mul]
    ring

theorem ring_inside {a b : V3} {r z : ℝ} (h : RingInside a b r z) : Flat6 (coulombRing r z) a b ∧ boxFlux (coulombRing r z) a b = 2 * π * r := by
  obtain ⟨⟨x1, x2⟩, ⟨y1, y2⟩, z1, z2⟩ := h 0
  obtain ⟨h1, h2⟩ := coulombRing_flux (r := r) (z := z) (by linarith : a.x ≤ b.x) (by linarith : a.y ≤ b.y) (by linarith : a.z ≤ b.z) fun φ => .inl (h φ)
  refine ⟨h1, ?_⟩
  rw [h2]
  simp only [unit_inside (h _)]
  simp

theorem ring_outside {a b : V3} (hx : a.x ≤ b.x) (hy : a.y ≤ b.y) (hz : a.z ≤ b.z) {r z : ℝ} (h : RingOutside a b r z) :
    Flat6 (coulombRing r z) a b ∧ boxFlux (coulombRing r z) a b = 0 := by
  obtain ⟨h1, h2⟩ := coulombRing_flux (r := r) (z := z) hx hy hz fun φ => .inr (h φ)
  refine ⟨h1, ?_⟩
  rw [h2]
  simp only [unit_outside hx hy hz (h _)]
  simp

end BoxFlux

end Traceon
