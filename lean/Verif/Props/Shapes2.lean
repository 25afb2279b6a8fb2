import Verif.Props.Shapes

/-!
# C64: rectangles, disks and spheres are exactly the sets of points their names say
-/
namespace Traceon
open Spec V3

/-! ## The path around a rectangle -/

/-- `(s, t)` is on the outline of the rectangle between `(a, c)` and `(b, d)` -/
def Spec.OnRectangle (a b c d s t : ℝ) : Prop :=
  a ≤ s ∧ s ≤ b ∧ c ≤ t ∧ t ≤ d ∧ (s = a ∨ s = b ∨ t = c ∨ t = d)

theorem seg_outline {a b c d : ℝ} (hab : a < b) (hcd : c < d) (s t : ℝ) :
    (∃ m : ℝ, 0 ≤ m ∧ m ≤ 1 ∧ s = (1 - m) * a + m * b ∧ t = (1 - m) * c + m * c) ∨
    (∃ m : ℝ, 0 ≤ m ∧ m ≤ 1 ∧ s = (1 - m) * b + m * b ∧ t = (1 - m) * c + m * d) ∨
    (∃ m : ℝ, 0 ≤ m ∧ m ≤ 1 ∧ s = (1 - m) * b + m * a ∧ t = (1 - m) * d + m * d) ∨
    (∃ m : ℝ, 0 ≤ m ∧ m ≤ 1 ∧ s = (1 - m) * a + m * a ∧ t = (1 - m) * d + m * c) ↔ OnRectangle a b c d s t := by
  constructor
  · rintro (⟨m, m0, m1, rfl, rfl⟩ | ⟨m, m0, m1, rfl, rfl⟩ | ⟨m, m0, m1, rfl, rfl⟩ | ⟨m, m0, m1, rfl, rfl⟩)
    · refine ⟨?_, ?_, ?_, ?_, Or.inr (Or.inr (Or.inl ?_))⟩ <;> nlinarith
    · refine ⟨?_, ?_, ?_, ?_, Or.inr (Or.inl ?_)⟩ <;> nlinarith
    · refine ⟨?_, ?_, ?_, ?_, Or.inr (Or.inr (Or.inr ?_))⟩ <;> nlinarith
    · refine ⟨?_, ?_, ?_, ?_, Or.inl ?_⟩ <;> nlinarith
  · rintro ⟨h1, h2, h3, h4, h5⟩
    obtain ⟨k, k0, k1, hk⟩ := (between_iff hab).1 ⟨h1, h2⟩
    obtain ⟨l, l0, l1, hl⟩ := (between_iff hcd).1 ⟨h3, h4⟩
    rcases h5 with h | h | h | h
    · exact Or.inr (Or.inr (Or.inr ⟨1 - l, by linarith, by linarith, by linarith, by linarith⟩))
    · exact Or.inr (Or.inl ⟨l, l0, l1, by linarith, by linarith⟩)
    · exact Or.inl ⟨k, k0, k1, by linarith, by linarith⟩
    · exact Or.inr (Or.inr (Or.inl ⟨1 - k, by linarith, by linarith, by linarith, by linarith⟩))

/-- **C64**, the paths `rectangle_xz`, `rectangle_yz` and `rectangle_xy`: closed, and their points are exactly
the outline. -/
theorem C64_rectangle_paths {a b c d : ℝ} (hab : a < b) (hcd : c < d) :
    (∃ r, Path.rectangleXZ a b c d = some r ∧ GoodPath r ∧ r.start = r.endpoint ∧
      ∀ q, pathPoints r q ↔ q.y = 0 ∧ OnRectangle a b c d q.x q.z) ∧
    (∃ r, Path.rectangleYZ a b c d = some r ∧ GoodPath r ∧ r.start = r.endpoint ∧
      ∀ q, pathPoints r q ↔ q.x = 0 ∧ OnRectangle a b c d q.y q.z) ∧
    (∃ r, Path.rectangleXY a b c d = some r ∧ GoodPath r ∧ r.start = r.endpoint ∧
      ∀ q, pathPoints r q ↔ q.z = 0 ∧ OnRectangle a b c d q.x q.y) := by
  refine ⟨?_, ?_, ?_⟩
  · obtain ⟨r, hr, gr, hs, he, pr⟩ := loop_points (a := ⟨a, 0, c⟩) (b := ⟨b, 0, c⟩) (c := ⟨b, 0, d⟩) (d := ⟨a, 0, d⟩)
      (fun h => hab.ne (congrArg V3.x h)) (fun h => hcd.ne (congrArg V3.z h)) (fun h => hab.ne' (congrArg V3.x h))
      (fun h => hcd.ne' (congrArg V3.z h))
    refine ⟨r, by simpa [Path.rectangleXZ] using hr, gr, hs.trans he.symm, fun q => ?_⟩
    rw [pr, ← seg_outline hab hcd]
    simp only [Spec.segment, V3.ext_iff, add_x, add_y, add_z, smul_x, smul_y, smul_z, mul_zero, add_zero]
    constructor
    · rintro (⟨m, m0, m1, h, h', h''⟩ | ⟨m, m0, m1, h, h', h''⟩ | ⟨m, m0, m1, h, h', h''⟩ | ⟨m, m0, m1, h, h', h''⟩)
      · exact ⟨h', Or.inl ⟨m, m0, m1, h, h''⟩⟩
      · exact ⟨h', Or.inr (Or.inl ⟨m, m0, m1, h, h''⟩)⟩
      · exact ⟨h', Or.inr (Or.inr (Or.inl ⟨m, m0, m1, h, h''⟩))⟩
      · exact ⟨h', Or.inr (Or.inr (Or.inr ⟨m, m0, m1, h, h''⟩))⟩
    · rintro ⟨h', (⟨m, m0, m1, h, h''⟩ | ⟨m, m0, m1, h, h''⟩ | ⟨m, m0, m1, h, h''⟩ | ⟨m, m0, m1, h, h''⟩)⟩
      · exact Or.inl ⟨m, m0, m1, h, h', h''⟩
      · exact Or.inr (Or.inl ⟨m, m0, m1, h, h', h''⟩)
      · exact Or.inr (Or.inr (Or.inl ⟨m, m0, m1, h, h', h''⟩))
      · exact Or.inr (Or.inr (Or.inr ⟨m, m0, m1, h, h', h''⟩))
  · obtain ⟨r, hr, gr, hs, he, pr⟩ := loop_points (a := ⟨0, a, c⟩) (b := ⟨0, a, d⟩) (c := ⟨0, b, d⟩) (d := ⟨0, b, c⟩)
      (fun h => hcd.ne (congrArg V3.z h)) (fun h => hab.ne (congrArg V3.y h)) (fun h => hcd.ne' (congrArg V3.z h))
      (fun h => hab.ne' (congrArg V3.y h))
    refine ⟨r, by simpa [Path.rectangleYZ] using hr, gr, hs.trans he.symm, fun q => ?_⟩
    rw [pr, show OnRectangle a b c d q.y q.z ↔ OnRectangle c d a b q.z q.y by unfold OnRectangle; tauto,
      ← seg_outline hcd hab]
    simp only [Spec.segment, V3.ext_iff, add_x, add_y, add_z, smul_x, smul_y, smul_z, mul_zero, add_zero]
    constructor
    · rintro (⟨m, m0, m1, h, h', h''⟩ | ⟨m, m0, m1, h, h', h''⟩ | ⟨m, m0, m1, h, h', h''⟩ | ⟨m, m0, m1, h, h', h''⟩)
      · exact ⟨h, Or.inl ⟨m, m0, m1, h'', h'⟩⟩
      · exact ⟨h, Or.inr (Or.inl ⟨m, m0, m1, h'', h'⟩)⟩
      · exact ⟨h, Or.inr (Or.inr (Or.inl ⟨m, m0, m1, h'', h'⟩))⟩
      · exact ⟨h, Or.inr (Or.inr (Or.inr ⟨m, m0, m1, h'', h'⟩))⟩
    · rintro ⟨h', (⟨m, m0, m1, h, h''⟩ | ⟨m, m0, m1, h, h''⟩ | ⟨m, m0, m1, h, h''⟩ | ⟨m, m0, m1, h, h''⟩)⟩
      · exact Or.inl ⟨m, m0, m1, h', h'', h⟩
      · exact Or.inr (Or.inl ⟨m, m0, m1, h', h'', h⟩)
      · exact Or.inr (Or.inr (Or.inl ⟨m, m0, m1, h', h'', h⟩))
      · exact Or.inr (Or.inr (Or.inr ⟨m, m0, m1, h', h'', h⟩))
  · obtain ⟨r, hr, gr, hs, he, pr⟩ := loop_points (a := ⟨a, c, 0⟩) (b := ⟨a, d, 0⟩) (c := ⟨b, d, 0⟩) (d := ⟨b, c, 0⟩)
      (fun h => hcd.ne (congrArg V3.y h)) (fun h => hab.ne (congrArg V3.x h)) (fun h => hcd.ne' (congrArg V3.y h))
      (fun h => hab.ne' (congrArg V3.x h))
    refine ⟨r, by simpa [Path.rectangleXY] using hr, gr, hs.trans he.symm, fun q => ?_⟩
    rw [pr, show OnRectangle a b c d q.x q.y ↔ OnRectangle c d a b q.y q.x by unfold OnRectangle; tauto,
      ← seg_outline hcd hab]
    simp only [Spec.segment, V3.ext_iff, add_x, add_y, add_z, smul_x, smul_y, smul_z, mul_zero, add_zero]
    constructor
    · rintro (⟨m, m0, m1, h, h', h''⟩ | ⟨m, m0, m1, h, h', h''⟩ | ⟨m, m0, m1, h, h', h''⟩ | ⟨m, m0, m1, h, h', h''⟩)
      · exact ⟨h'', Or.inl ⟨m, m0, m1, h', h⟩⟩
      · exact ⟨h'', Or.inr (Or.inl ⟨m, m0, m1, h', h⟩)⟩
      · exact ⟨h'', Or.inr (Or.inr (Or.inl ⟨m, m0, m1, h', h⟩))⟩
      · exact ⟨h'', Or.inr (Or.inr (Or.inr ⟨m, m0, m1, h', h⟩))⟩
    · rintro ⟨h', (⟨m, m0, m1, h, h''⟩ | ⟨m, m0, m1, h, h''⟩ | ⟨m, m0, m1, h, h''⟩ | ⟨m, m0, m1, h, h''⟩)⟩
      · exact Or.inl ⟨m, m0, m1, h'', h, h'⟩
      · exact Or.inr (Or.inl ⟨m, m0, m1, h'', h, h'⟩)
      · exact Or.inr (Or.inr (Or.inl ⟨m, m0, m1, h'', h, h'⟩))
      · exact Or.inr (Or.inr (Or.inr ⟨m, m0, m1, h'', h, h'⟩))

/-! ## Filled rectangles -/

/-- **C64**, the surfaces `rectangle_xz`, `rectangle_yz` and `rectangle_xy`: all points of the rectangle and
no others. -/
theorem C64_rectangles {a b c d : ℝ} (hab : a < b) (hcd : c < d) :
    (SurfaceDefined (Surface.rectangleXZ a b c d) ∧ ∀ q, surfacePoints (Surface.rectangleXZ a b c d) q ↔
      q.y = 0 ∧ a ≤ q.x ∧ q.x ≤ b ∧ c ≤ q.z ∧ q.z ≤ d) ∧
    (SurfaceDefined (Surface.rectangleYZ a b c d) ∧ ∀ q, surfacePoints (Surface.rectangleYZ a b c d) q ↔
      q.x = 0 ∧ a ≤ q.y ∧ q.y ≤ b ∧ c ≤ q.z ∧ q.z ≤ d) ∧
    (SurfaceDefined (Surface.rectangleXY a b c d) ∧ ∀ q, surfacePoints (Surface.rectangleXY a b c d) q ↔
      q.z = 0 ∧ a ≤ q.x ∧ q.x ≤ b ∧ c ≤ q.y ∧ q.y ≤ d) := by
  refine ⟨?_, ?_, ?_⟩
  · have hl : (⟨a, 0, c⟩ : V3) ≠ ⟨a, 0, d⟩ := fun h => hcd.ne (congrArg V3.z h)
    have hw : (⟨b - a, 0, 0⟩ : V3) ≠ 0 := by intro h; have := congrArg V3.x h; simp at this; linarith
    obtain ⟨h1, h2⟩ := extrude_points (line_good hl) hw
    refine ⟨h1, fun q => ?_⟩
    rw [Surface.rectangleXZ, h2]
    simp only [line_points hl, Spec.segment]
    constructor
    · rintro ⟨q0, m, m0, m1, ⟨k, k0, k1, rfl⟩, rfl⟩
      simp only [add_x, add_y, add_z, smul_x, smul_y, smul_z]
      refine ⟨?_, ?_, ?_, ?_, ?_⟩ <;> nlinarith
    · rintro ⟨h0, h3, h4, h5, h6⟩
      obtain ⟨k, k0, k1, hk⟩ := (between_iff hcd).1 ⟨h5, h6⟩
      obtain ⟨m, m0, m1, hm⟩ := (between_iff hab).1 ⟨h3, h4⟩
      refine ⟨_, m, m0, m1, ⟨k, k0, k1, rfl⟩, ?_⟩
      ext <;> simp <;> linarith
  · have hl : (⟨0, a, c⟩ : V3) ≠ ⟨0, a, d⟩ := fun h => hcd.ne (congrArg V3.z h)
    have hw : (⟨0, b - a, 0⟩ : V3) ≠ 0 := by intro h; have := congrArg V3.y h; simp at this; linarith
    obtain ⟨h1, h2⟩ := extrude_points (line_good hl) hw
    refine ⟨h1, fun q => ?_⟩
    rw [Surface.rectangleYZ, h2]
    simp only [line_points hl, Spec.segment]
    constructor
    · rintro ⟨q0, m, m0, m1, ⟨k, k0, k1, rfl⟩, rfl⟩
      simp only [add_x, add_y, add_z, smul_x, smul_y, smul_z]
      refine ⟨?_, ?_, ?_, ?_, ?_⟩ <;> nlinarith
    · rintro ⟨h0, h3, h4, h5, h6⟩
      obtain ⟨k, k0, k1, hk⟩ := (between_iff hcd).1 ⟨h5, h6⟩
      obtain ⟨m, m0, m1, hm⟩ := (between_iff hab).1 ⟨h3, h4⟩
      refine ⟨_, m, m0, m1, ⟨k, k0, k1, rfl⟩, ?_⟩
      ext <;> simp <;> linarith
  · have hl : (⟨a, c, 0⟩ : V3) ≠ ⟨a, d, 0⟩ := fun h => hcd.ne (congrArg V3.y h)
    have hw : (⟨b - a, 0, 0⟩ : V3) ≠ 0 := by intro h; have := congrArg V3.x h; simp at this; linarith
    obtain ⟨h1, h2⟩ := extrude_points (line_good hl) hw
    refine ⟨h1, fun q => ?_⟩
    rw [Surface.rectangleXY, h2]
    simp only [line_points hl, Spec.segment]
    constructor
    · rintro ⟨q0, m, m0, m1, ⟨k, k0, k1, rfl⟩, rfl⟩
      simp only [add_x, add_y, add_z, smul_x, smul_y, smul_z]
      refine ⟨?_, ?_, ?_, ?_, ?_⟩ <;> nlinarith
    · rintro ⟨h0, h3, h4, h5, h6⟩
      obtain ⟨k, k0, k1, hk⟩ := (between_iff hcd).1 ⟨h5, h6⟩
      obtain ⟨m, m0, m1, hm⟩ := (between_iff hab).1 ⟨h3, h4⟩
      refine ⟨_, m, m0, m1, ⟨k, k0, k1, rfl⟩, ?_⟩
      ext <;> simp <;> linarith

/-! ## Disks and spheres -/

/-- Every point of the plane has polar coordinates with an angle between 0 and 2π. -/
theorem exists_polar (x y : ℝ) : ∃ φ, 0 ≤ φ ∧ φ ≤ 2 * Real.pi ∧
    Real.sqrt (x ^ 2 + y ^ 2) * Real.cos φ = x ∧ Real.sqrt (x ^ 2 + y ^ 2) * Real.sin φ = y := by
  have h := polar y x
  rw [← pow_two, ← pow_two] at h
  have h1 := Complex.neg_pi_lt_arg ⟨x, y⟩
  have h2 := Complex.arg_le_pi ⟨x, y⟩
  have hpi := Real.pi_pos
  by_cases h0 : 0 ≤ atan2 y x
  · exact ⟨_, h0, by unfold atan2; linarith, h⟩
  · refine ⟨atan2 y x + 2 * Real.pi, by unfold atan2; linarith, by linarith, ?_⟩
    rw [Real.cos_add_two_pi, Real.sin_add_two_pi]
    exact h

/-- What the three disks have in common: for a segment of length `r` from the axis turned about the axis. -/
theorem disk_aux {r : ℝ} (hr : 0 < r) (s t : ℝ) :
    (∃ k m : ℝ, 0 ≤ k ∧ k ≤ 1 ∧ 0 ≤ m ∧ m ≤ 1 ∧ s = k * r * Real.cos (m * (2 * Real.pi)) ∧
      t = k * r * Real.sin (m * (2 * Real.pi))) ↔ s ^ 2 + t ^ 2 ≤ r ^ 2 := by
  have hpi := Real.pi_pos
  constructor
  · rintro ⟨k, m, k0, k1, m0, m1, rfl, rfl⟩
    have := Real.cos_sq_add_sin_sq (m * (2 * Real.pi))
    have e : (k * r * Real.cos (m * (2 * Real.pi))) ^ 2 + (k * r * Real.sin (m * (2 * Real.pi))) ^ 2 = (k * r) ^ 2 := by
      linear_combination (k * r) ^ 2 * this
    rw [e]
    have : k * r ≤ r := by nlinarith
    have : 0 ≤ k * r := by positivity
    nlinarith
  · intro h
    obtain ⟨φ, φ0, φ1, hx, hy⟩ := exists_polar s t
    refine ⟨Real.sqrt (s ^ 2 + t ^ 2) / r, φ / (2 * Real.pi), by positivity, ?_, by positivity, ?_, ?_, ?_⟩
    · rw [div_le_one hr]
      exact Real.sqrt_le_iff.2 ⟨hr.le, h⟩
    · rw [div_le_one (by positivity)]; exact φ1
    · rw [div_mul_cancel₀ _ hr.ne', div_mul_cancel₀ _ (by positivity : (2 * Real.pi) ≠ 0), hx]
    · rw [div_mul_cancel₀ _ hr.ne', div_mul_cancel₀ _ (by positivity : (2 * Real.pi) ≠ 0), hy]

/-- the same with the angle turning the other way -/
theorem disk_aux' {r : ℝ} (hr : 0 < r) (s t : ℝ) :
    (∃ k m : ℝ, 0 ≤ k ∧ k ≤ 1 ∧ 0 ≤ m ∧ m ≤ 1 ∧ s = Real.cos (m * (2 * Real.pi)) * (k * r) ∧
      t = Real.sin (m * (2 * Real.pi)) * (k * r)) ↔ s ^ 2 + t ^ 2 ≤ r ^ 2 := by
  rw [← disk_aux hr]
  simp only [mul_comm]

/-- **C64**, disks: whatever (positive) average radius the numerical integration gives, all points at distance
at most `radius` of the centre in the plane, and no others. -/
theorem C64_disks (s0 t0 : ℝ) {r rAvg : ℝ} (hr : 0 < r) (ha : 0 < rAvg) :
    (∃ s, Surface.diskXZ s0 t0 r rAvg = some s ∧ SurfaceDefined s ∧ ∀ q, surfacePoints s q ↔
      q.y = 0 ∧ (q.x - s0) ^ 2 + (q.z - t0) ^ 2 ≤ r ^ 2) ∧
    (∃ s, Surface.diskYZ s0 t0 r rAvg = some s ∧ SurfaceDefined s ∧ ∀ q, surfacePoints s q ↔
      q.x = 0 ∧ (q.y - s0) ^ 2 + (q.z - t0) ^ 2 ≤ r ^ 2) ∧
    (∃ s, Surface.diskXY s0 t0 r rAvg = some s ∧ SurfaceDefined s ∧ ∀ q, surfacePoints s q ↔
      q.z = 0 ∧ (q.x - s0) ^ 2 + (q.y - t0) ^ 2 ≤ r ^ 2) := by
  have hpi := Real.pi_pos
  have hl2 : 0 < 2 * Real.pi * rAvg := by positivity
  have common : ∀ (s : Surface) (P : V3 → Prop) (g : ℝ → ℝ → V3), s.length1 = r → s.length2 = 2 * Real.pi * rAvg →
      (∀ u v, s.func u v = some (g (u / r) (v / (2 * Real.pi * rAvg)))) →
      (∀ q, (∃ k m : ℝ, 0 ≤ k ∧ k ≤ 1 ∧ 0 ≤ m ∧ m ≤ 1 ∧ q = g k m) ↔ P q) →
      SurfaceDefined s ∧ ∀ q, surfacePoints s q ↔ P q := by
    intro s P g h1 h2 hf hP
    refine ⟨fun u v _ _ _ _ => ⟨_, hf u v⟩, fun q => ?_⟩
    rw [← hP]
    constructor
    · rintro ⟨u, v, u0, u1, v0, v1, h⟩
      rw [hf] at h
      rw [h1] at u1; rw [h2] at v1
      exact ⟨u / r, v / (2 * Real.pi * rAvg), div_nonneg u0 hr.le, by rw [div_le_one hr]; exact u1,
        div_nonneg v0 hl2.le, by rw [div_le_one hl2]; exact v1, (Option.some.inj h).symm⟩
    · rintro ⟨k, m, k0, k1, m0, m1, rfl⟩
      refine ⟨k * r, m * (2 * Real.pi * rAvg), by positivity, by rw [h1]; nlinarith, by positivity, by rw [h2]; nlinarith, ?_⟩
      rw [hf, mul_div_cancel_right₀ _ hr.ne', mul_div_cancel_right₀ _ hl2.ne']
  have nrm : ∀ a : V3, V3.norm (0 - a) = V3.norm a := by
    intro a; rw [show (0 : V3) - a = -a by ext <;> simp, norm_neg]
  refine ⟨?_, ?_, ?_⟩
  · have hne : (0 : V3) ≠ ⟨r, 0, 0⟩ := fun h => hr.ne (congrArg V3.x h)
    have hn : V3.norm (0 - ⟨r, 0, 0⟩) = r := by rw [nrm]; simp [V3.norm, dot, Real.sqrt_mul_self hr.le]
    refine ⟨_, by rw [Surface.diskXZ, if_pos hr], ?_⟩
    refine common _ _ (fun k m => rotC 1 (-(m * (2 * Real.pi))) 0 ((1 - k) * (0 : V3) + k * (⟨r, 0, 0⟩ : V3)) + ⟨s0, 0, t0⟩)
      hn rfl ?_ ?_
    · intro u v
      simp only [Surface.move, Surface.mapPoints]
      rw [revolveY_func _ ha.ne' _ _ _ (line_func hne u), hn]
      rfl
    · intro q
      rw [← disk_aux' hr]
      simp only [rotC, V3.ext_iff, add_x, add_y, add_z, smul_x, smul_y, smul_z, sub_x, sub_y, sub_z, zero_x, zero_y, zero_z,
        Real.cos_neg, Real.sin_neg, neg_neg, mul_zero, zero_add, sub_zero, add_zero]
      constructor
      · rintro ⟨k, m, k0, k1, m0, m1, h1, h2, h3⟩
        exact ⟨h2, k, m, k0, k1, m0, m1, by linarith, by linarith⟩
      · rintro ⟨h2, k, m, k0, k1, m0, m1, h1, h3⟩
        exact ⟨k, m, k0, k1, m0, m1, by linarith, h2, by linarith⟩
  · have hne : (0 : V3) ≠ ⟨0, r, 0⟩ := fun h => hr.ne (congrArg V3.y h)
    have hn : V3.norm (0 - ⟨0, r, 0⟩) = r := by rw [nrm]; simp [V3.norm, dot, Real.sqrt_mul_self hr.le]
    refine ⟨_, by rw [Surface.diskYZ, if_pos hr], ?_⟩
    refine common _ _ (fun k m => rotC 0 (m * (2 * Real.pi)) 0 ((1 - k) * (0 : V3) + k * (⟨0, r, 0⟩ : V3)) + ⟨0, s0, t0⟩)
      hn rfl ?_ ?_
    · intro u v
      simp only [Surface.move, Surface.mapPoints]
      rw [revolveX_func _ ha.ne' _ _ _ (line_func hne u), hn]
      rfl
    · intro q
      rw [← disk_aux' hr]
      simp only [rotC, V3.ext_iff, add_x, add_y, add_z, smul_x, smul_y, smul_z, sub_x, sub_y, sub_z, zero_x, zero_y, zero_z,
        mul_zero, zero_add, sub_zero, add_zero]
      constructor
      · rintro ⟨k, m, k0, k1, m0, m1, h1, h2, h3⟩
        exact ⟨h1, k, m, k0, k1, m0, m1, by linarith, by linarith⟩
      · rintro ⟨h2, k, m, k0, k1, m0, m1, h1, h3⟩
        exact ⟨k, m, k0, k1, m0, m1, h2, by linarith, by linarith⟩
  · have hne : (0 : V3) ≠ ⟨r, 0, 0⟩ := fun h => hr.ne (congrArg V3.x h)
    have hn : V3.norm (0 - ⟨r, 0, 0⟩) = r := by rw [nrm]; simp [V3.norm, dot, Real.sqrt_mul_self hr.le]
    refine ⟨_, by rw [Surface.diskXY, if_pos hr], ?_⟩
    refine common _ _ (fun k m => rotC 2 (m * (2 * Real.pi)) 0 ((1 - k) * (0 : V3) + k * (⟨r, 0, 0⟩ : V3)) + ⟨s0, t0, 0⟩)
      hn rfl ?_ ?_
    · intro u v
      simp only [Surface.move, Surface.mapPoints]
      rw [revolveZ_func _ ha.ne' _ _ _ (line_func hne u), hn]
      rfl
    · intro q
      rw [← disk_aux' hr]
      simp only [rotC, V3.ext_iff, add_x, add_y, add_z, smul_x, smul_y, smul_z, sub_x, sub_y, sub_z, zero_x, zero_y, zero_z,
        mul_zero, zero_add, sub_zero, add_zero]
      constructor
      · rintro ⟨k, m, k0, k1, m0, m1, h1, h2, h3⟩
        exact ⟨h3, k, m, k0, k1, m0, m1, by linarith, by linarith⟩
      · rintro ⟨h2, k, m, k0, k1, m0, m1, h1, h3⟩
        exact ⟨k, m, k0, k1, m0, m1, by linarith, by linarith, h2⟩

/-- **C64**, the sphere: all points at distance `radius` of the origin and no others. -/
theorem C64_sphere {r : ℝ} (hr : 0 < r) :
    SurfaceDefined (Surface.sphere r) ∧ ∀ q, surfacePoints (Surface.sphere r) q ↔ Spec.dist q 0 = r := by
  have hpi := Real.pi_pos
  have hf : ∀ u v, (Surface.sphere r).func u v = some ⟨r * Real.sin (v / r) * Real.cos (u / r),
      r * Real.sin (v / r) * Real.sin (u / r), r * Real.cos (v / r)⟩ := by
    intro u v; simp [Surface.sphere, safeDiv, hr.ne']
  refine ⟨fun u v _ _ _ _ => ⟨_, hf u v⟩, fun q => ?_⟩
  rw [dist_eq_sqrt]
  simp only [zero_x, zero_y, zero_z, sub_zero]
  constructor
  · rintro ⟨u, v, u0, u1, v0, v1, h⟩
    rw [hf] at h
    cases h
    have h1 := Real.cos_sq_add_sin_sq (u / r)
    have h2 := Real.cos_sq_add_sin_sq (v / r)
    rw [show (r * Real.sin (v / r) * Real.cos (u / r)) ^ 2 + (r * Real.sin (v / r) * Real.sin (u / r)) ^ 2
      + (r * Real.cos (v / r)) ^ 2 = r ^ 2 by linear_combination (r * Real.sin (v / r)) ^ 2 * h1 + r ^ 2 * h2]
    exact Real.sqrt_sq hr.le
  · intro h
    have h' : q.x ^ 2 + q.y ^ 2 + q.z ^ 2 = r ^ 2 := by
      rw [← h, Real.sq_sqrt (by positivity)]
    obtain ⟨φ, φ0, φ1, hx, hy⟩ := exists_polar q.x q.y
    have hz1 : -1 ≤ q.z / r := by rw [le_div_iff₀ hr]; nlinarith [sq_nonneg q.x, sq_nonneg q.y, sq_nonneg (q.z + r)]
    have hz2 : q.z / r ≤ 1 := by rw [div_le_iff₀ hr]; nlinarith [sq_nonneg q.x, sq_nonneg q.y, sq_nonneg (q.z - r)]
    have hs : r * Real.sin (Real.arccos (q.z / r)) = Real.sqrt (q.x ^ 2 + q.y ^ 2) := by
      rw [Real.sin_arccos, show q.x ^ 2 + q.y ^ 2 = r ^ 2 * (1 - (q.z / r) ^ 2) by field_simp; linarith,
        Real.sqrt_mul (by positivity), Real.sqrt_sq hr.le]
    refine ⟨φ * r, Real.arccos (q.z / r) * r, by positivity, ?_, mul_nonneg (Real.arccos_nonneg _) hr.le, ?_, ?_⟩
    · show φ * r ≤ 2 * Real.pi * r
      nlinarith
    · show _ ≤ Real.pi * r
      have := Real.arccos_le_pi (q.z / r)
      nlinarith
    · rw [hf, mul_div_cancel_right₀ _ hr.ne', mul_div_cancel_right₀ _ hr.ne', hs, hx, hy, Real.cos_arccos hz1 hz2,
        mul_div_cancel₀ _ hr.ne']

example : Spec.dist ⟨1, 2, 2⟩ 0 = 3 := by
  rw [dist_eq_sqrt]; norm_num
  rw [show (9 : ℝ) = 3 ^ 2 by norm_num, Real.sqrt_sq (by norm_num)]

end Traceon
