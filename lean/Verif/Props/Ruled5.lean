import Verif.Props.Ruled4

/-!
# C18, C67: the surfaces of geometry.py that have a name
-/
namespace Traceon
open Spec SMesh

/-- **C67**: the mesh of a contour of lines and arcs turned about an axis covers the surface, if between the corners the distance to the
axis does not bulge. What is missing: contours that bulge, see `C67_refuted`. -/
theorem C67_revolve_partial {p : Path} (h : Contour p) {rAvg : ℝ} (hr : 0 < rAvg) (angle : ℝ) :
    (SlimPath 0 p → Covered (p.revolveX rAvg angle)) ∧ (SlimPath 1 p → Covered (p.revolveY rAvg angle)) ∧
    (SlimPath 2 p → Covered (p.revolveZ rAvg angle)) := by
  obtain ⟨hp, he, hl⟩ := contour_even h
  obtain ⟨h0, h1, h2⟩ := revolve_tame hp zero_le_one hl he hr angle
  exact ⟨fun g => C67_tame_partial (h0 g), fun g => C67_tame_partial (h1 g), fun g => C67_tame_partial (h2 g)⟩

theorem move_tame {s : Surface} (h : Tame s) (d : V3) : Tame (s.move d) :=
  tame_rigid h (fun p => by simp [moveFn]) (fun p q P Q h1 h2 => by
    simp only [moveFn, Option.some.injEq] at h1 h2
    subst h1; subst h2
    unfold Spec.dist; congr 1; ext <;> simp)

/-- moving a path rigidly leaves it straight -/
theorem straight_move {p : Path} (hp : GoodPath p) (h : StraightPath p) (d : V3) : GoodPath (p.move d) ∧ StraightPath (p.move d) := by
  refine ⟨⟨hp.len, hp.sorted, hp.inside, fun u h1 h2 => ?_⟩, fun uu hu => ?_⟩
  · obtain ⟨q, hq⟩ := hp.defined u h1 h2
    exact ⟨q + d, by simp [Path.move, Path.mapPoints, hq]⟩
  · obtain ⟨o, e, hoe⟩ := h uu hu
    refine ⟨o + d, e, fun u h1 h2 => ?_⟩
    simp only [Path.move, Path.mapPoints, hoe u h1 h2, Option.bind_some, Option.some.injEq]
    ext <;> simp <;> ring

theorem straight_revolve_tame {p : Path} (hp : GoodPath p) (hs : StraightPath p) {rAvg : ℝ} (hr : 0 < rAvg) (angle : ℝ) :
    Tame (p.revolveX rAvg angle) ∧ Tame (p.revolveY rAvg angle) ∧ Tame (p.revolveZ rAvg angle) := by
  obtain ⟨K, hK, hl⟩ := straight_lipschitz hp hs
  obtain ⟨h0, h1, h2⟩ := revolve_tame hp hK hl (straight_even hs) hr angle
  exact ⟨h0 (straight_slim hs 0), h1 (straight_slim hs 1), h2 (straight_slim hs 2)⟩

/-- **C67**, disks: `Surface.disk_xz`, `disk_yz`, `disk_xy`. -/
theorem C67_disk_partial (x0 y0 : ℝ) {radius rAvg : ℝ} (h : 0 < radius) (hr : 0 < rAvg) :
    (∃ s, Surface.diskXZ x0 y0 radius rAvg = some s ∧ Covered s) ∧ (∃ s, Surface.diskYZ x0 y0 radius rAvg = some s ∧ Covered s) ∧
    (∃ s, Surface.diskXY x0 y0 radius rAvg = some s ∧ Covered s) := by
  have n1 : (0 : V3) ≠ ⟨radius, 0, 0⟩ := fun e => by have := congrArg V3.x e; simp at this; linarith
  have n2 : (0 : V3) ≠ ⟨0, radius, 0⟩ := fun e => by have := congrArg V3.y e; simp at this; linarith
  refine ⟨⟨_, if_pos h, ?_⟩, ⟨_, if_pos h, ?_⟩, ⟨_, if_pos h, ?_⟩⟩
  · exact C67_tame_partial (move_tame (polygon_revolve_tame (.line n1) hr _).2.1 _)
  · exact C67_tame_partial (move_tame (polygon_revolve_tame (.line n2) hr _).1 _)
  · exact C67_tame_partial (move_tame (polygon_revolve_tame (.line n1) hr _).2.2 _)

/-- **C67**, rectangles: `Surface.rectangle_xz`, `rectangle_yz`, `rectangle_xy`. -/
theorem C67_rectangle_partial {a b c d : ℝ} (h1 : a ≠ b) (h2 : c ≠ d) :
    Covered (Surface.rectangleXZ a b c d) ∧ Covered (Surface.rectangleYZ a b c d) ∧ Covered (Surface.rectangleXY a b c d) := by
  have hab : b - a ≠ 0 := sub_ne_zero.2 (Ne.symm h1)
  have w1 : (⟨b - a, 0, 0⟩ : V3) ≠ 0 := fun e => hab (congrArg V3.x e)
  have w2 : (⟨0, b - a, 0⟩ : V3) ≠ 0 := fun e => hab (congrArg V3.y e)
  refine ⟨C67_extrude_partial (.line fun e => h2 (congrArg V3.z e)) w1, C67_extrude_partial (.line fun e => h2 (congrArg V3.z e)) w2,
    C67_extrude_partial (.line fun e => h2 (congrArg V3.y e)) w1⟩

/-- **C67**, apertures: `Surface.aperture`. -/
theorem C67_aperture_partial {height radius extent rAvg : ℝ} (z : ℝ) (hh : 0 < height) (hr : radius < extent) (ha : 0 < rAvg) :
    ∃ s, Surface.aperture height radius extent z rAvg = some s ∧ Covered s := by
  have n1 : (⟨extent, 0, -height / 2⟩ : V3) ≠ ⟨radius, 0, -height / 2⟩ := fun h => hr.ne' (congrArg V3.x h)
  have n2 : (⟨radius, 0, -height / 2⟩ : V3) ≠ ⟨radius, 0, height / 2⟩ := fun h => by have := congrArg V3.z h; simp at this; linarith
  have n3 : (⟨radius, 0, height / 2⟩ : V3) ≠ ⟨extent, 0, height / 2⟩ := fun h => hr.ne (congrArg V3.x h)
  obtain ⟨r1, h1, g1, s1, e1⟩ := lineTo_straight (line_good n1) (line_straight n1) (line_end n1) n2
  obtain ⟨r2, h2, g2, s2, e2⟩ := lineTo_straight g1 s1 e1 n3
  obtain ⟨g3, s3⟩ := straight_move g2 s2 ⟨0, 0, z⟩
  exact ⟨_, by simp [Surface.aperture, Path.aperture, h1, h2]; rfl, C67_tame_partial (straight_revolve_tame g3 s3 ha _).2.2⟩

theorem noBulge_of {len : ℝ} (hl : 0 ≤ len) {f : ℝ → ℝ}
    (hmono : (∀ x y, 0 ≤ x → x ≤ y → y ≤ len / 2 → f y ≤ f x) ∨ (∀ x y, 0 ≤ x → x ≤ y → y ≤ len / 2 → f x ≤ f y))
    (hmono' : (∀ x y, len / 2 ≤ x → x ≤ y → y ≤ len → f y ≤ f x) ∨ (∀ x y, len / 2 ≤ x → x ≤ y → y ≤ len → f x ≤ f y)) : NoBulge len f := by
  intro k hk x y z e1 e2 e3 e4
  have hk' : (k : ℝ) ≤ 3 := by exact_mod_cast Nat.le_of_lt_succ hk
  have hz : z ≤ len := by nlinarith
  have hx : 0 ≤ x := le_trans (by positivity) e1
  rcases Nat.lt_or_ge k 2 with h | h
  · have : (k : ℝ) ≤ 1 := by exact_mod_cast Nat.le_of_lt_succ h
    have hz' : z ≤ len / 2 := by nlinarith
    rcases hmono with h | h
    · exact le_max_of_le_left (h x y hx e2 (by linarith))
    · exact le_max_of_le_right (h y z (by linarith) e3 hz')
  · have : (2 : ℝ) ≤ k := by exact_mod_cast h
    have hx' : len / 2 ≤ x := by nlinarith
    rcases hmono' with h | h
    · exact le_max_of_le_left (h x y hx' e2 (by linarith))
    · exact le_max_of_le_right (h y z (by linarith) e3 hz)

theorem cos_second_half {a b : ℝ} (h1 : Real.pi ≤ a) (h2 : a ≤ b) (h3 : b ≤ 2 * Real.pi) : Real.cos a ≤ Real.cos b := by
  rw [← Real.cos_two_pi_sub a, ← Real.cos_two_pi_sub b]
  exact Real.cos_le_cos_of_nonneg_of_le_pi (by linarith) (by linarith) (by linarith)

/-- **C67**, tori: a circle at distance `x0` from the z-axis turned about the z-axis, over any angle. -/
theorem C67_torus_partial {x0 z0 r rAvg : ℝ} (hr : 0 < r) (hx : r ≤ x0) (ha : 0 < rAvg) (angle : ℝ) :
    Covered ((Path.circleXZ x0 z0 r (2 * Real.pi)).revolveZ rAvg angle) := by
  refine (C67_revolve_partial (.circleXZ x0 z0 hr (by positivity)) ha angle).2.2 ?_
  intro uu hu
  have hpi := Real.pi_pos
  have hu' : uu = (0, 2 * Real.pi * r) := by
    simpa [pieces, Surface.pairs, Path.circleXZ, Path.move, Path.mapPoints] using hu
  subst hu'
  refine ⟨fun x => x0 + r * Real.cos (x / r), ?_, ?_⟩
  · simp only [sub_zero]
    have hl : 0 ≤ 2 * Real.pi * r := by positivity
    have m1 : ∀ x y, 0 ≤ x → x ≤ y → y ≤ 2 * Real.pi * r / 2 → x0 + r * Real.cos (y / r) ≤ x0 + r * Real.cos (x / r) := by
      intro x y h1 h2 h3
      have : Real.cos (y / r) ≤ Real.cos (x / r) := Real.cos_le_cos_of_nonneg_of_le_pi (by positivity)
        (by rw [div_le_iff₀ hr]; linarith) (div_le_div_of_nonneg_right h2 hr.le)
      nlinarith
    refine noBulge_of hl (Or.inl m1) (Or.inr ?_)
    intro x y h1 h2 h3
    have : Real.cos (x / r) ≤ Real.cos (y / r) := cos_second_half (by rw [le_div_iff₀ hr]; linarith) (div_le_div_of_nonneg_right h2 hr.le)
      (by rw [div_le_iff₀ hr]; linarith)
    nlinarith
  · intro x q h1 h2 hq
    simp only [zero_add, Path.circleXZ, Path.move, Path.mapPoints, safeDiv, hr.ne', if_false, Option.map_some, Option.bind_some, Option.some.injEq] at hq
    subst hq
    have hc := Real.neg_one_le_cos (x / r)
    simp only [offAxis, V3.add_x, V3.add_y]
    rw [show (r * Real.cos (x / r) + x0) ^ 2 + ((0 : ℝ) + 0) ^ 2 = (x0 + r * Real.cos (x / r)) ^ 2 by ring]
    exact Real.sqrt_sq (by nlinarith)

/-- **C67**, spheres: `Surface.sphere`. -/
theorem C67_sphere_partial {r : ℝ} (hr : 0 < r) : Covered (Surface.sphere r) := by
  have hpi := Real.pi_pos
  have hf : ∀ u v, (Surface.sphere r).func u v = some ⟨r * Real.sin (v / r) * Real.cos (u / r), r * Real.sin (v / r) * Real.sin (u / r), r * Real.cos (v / r)⟩ := by
    intro u v
    simp [Surface.sphere, safeDiv, hr.ne']
  have hl1 : 0 ≤ (Surface.sphere r).length1 := by simp only [Surface.sphere]; positivity
  have hl2 : 0 ≤ (Surface.sphere r).length2 := by simp only [Surface.sphere]; positivity
  have cs : ∀ a b : ℝ, Real.cos ((a - b) / r) = Real.cos (|a - b| / r) := by
    intro a b
    rcases abs_choice (a - b) with h | h <;> rw [h]
    rw [neg_div, Real.cos_neg]
  have d1 : ∀ u u' v, Spec.dist (⟨r * Real.sin (v / r) * Real.cos (u / r), r * Real.sin (v / r) * Real.sin (u / r), r * Real.cos (v / r)⟩ : V3)
      ⟨r * Real.sin (v / r) * Real.cos (u' / r), r * Real.sin (v / r) * Real.sin (u' / r), r * Real.cos (v / r)⟩
      = |Real.sin (v / r)| * (r * Real.sqrt (2 - 2 * Real.cos (|u - u'| / r))) := by
    intro u u' v
    rw [← cs, sub_div, Real.cos_sub]
    have : ∀ x : ℝ, |Real.sin (v / r)| * (r * Real.sqrt x) = Real.sqrt ((r * Real.sin (v / r)) ^ 2 * x) := by
      intro x
      rw [Real.sqrt_mul (sq_nonneg _), Real.sqrt_sq_eq_abs, abs_mul, abs_of_pos hr]; ring
    rw [this]
    unfold Spec.dist V3.norm V3.dot
    congr 1
    simp only [V3.sub_x, V3.sub_y, V3.sub_z]
    linear_combination (r * Real.sin (v / r)) ^ 2 * (Real.sin_sq_add_cos_sq (u / r) + Real.sin_sq_add_cos_sq (u' / r))
  have d2 : ∀ u v v', Spec.dist (⟨r * Real.sin (v / r) * Real.cos (u / r), r * Real.sin (v / r) * Real.sin (u / r), r * Real.cos (v / r)⟩ : V3)
      ⟨r * Real.sin (v' / r) * Real.cos (u / r), r * Real.sin (v' / r) * Real.sin (u / r), r * Real.cos (v' / r)⟩
      = r * Real.sqrt (2 - 2 * Real.cos (|v - v'| / r)) := by
    intro u v v'
    rw [← cs, sub_div, Real.cos_sub]
    have : ∀ x : ℝ, r * Real.sqrt x = Real.sqrt (r ^ 2 * x) := by
      intro x
      rw [Real.sqrt_mul (sq_nonneg _), Real.sqrt_sq hr.le]
    rw [this]
    unfold Spec.dist V3.norm V3.dot
    congr 1
    simp only [V3.sub_x, V3.sub_y, V3.sub_z]
    linear_combination r ^ 2 * (Real.sin_sq_add_cos_sq (v / r) + Real.sin_sq_add_cos_sq (v' / r))
      + r ^ 2 * (Real.sin (v / r) - Real.sin (v' / r)) ^ 2 * Real.sin_sq_add_cos_sq (u / r)
  have hch : ∀ x, r * Real.sqrt (2 - 2 * Real.cos (|x| / r)) ≤ |x| := by
    intro x
    have := sqrt_chord_le (|x| / r)
    rw [abs_div, abs_abs, abs_of_pos hr] at this
    calc _ ≤ r * (|x| / r) := mul_le_mul_of_nonneg_left this hr.le
      _ = |x| := by field_simp
  have hsin : ∀ v, 0 ≤ v → v ≤ (Surface.sphere r).length2 → 0 ≤ Real.sin (v / r) := by
    intro v h1 h2
    simp only [Surface.sphere] at h2
    exact Real.sin_nonneg_of_nonneg_of_le_pi (by positivity) (by rw [div_le_iff₀ hr]; linarith)
  have hg : GoodSurface (Surface.sphere r) := ⟨by simpa [GoodBreaks, Surface.sphere] using hl1, by simpa [GoodBreaks, Surface.sphere] using hl2, fun u v _ _ _ _ => by rw [hf]; rfl⟩
  refine C67_tame_partial ⟨hg, Or.inl rfl, ?_, 1, zero_le_one, ?_, ?_⟩
  · intro sec hsec
    have hsec' : sec = { func := fun u v => (Surface.sphere r).func (0 + u) (0 + v), length1 := 2 * Real.pi * r - 0, length2 := Real.pi * r - 0 } := by
      simpa [Surface.sections, Surface.pairs, Surface.sphere] using hsec
    subst hsec'
    refine ⟨fun _ => 1, fun v => Real.sin (v / r), fun x => r * Real.sqrt (2 - 2 * Real.cos (x / r)), fun x => r * Real.sqrt (2 - 2 * Real.cos (x / r)), ?_, ?_,
      fun k _ x y z _ _ _ _ => by simp, ?_, fun x => by positivity, fun x => by positivity⟩
    · intro u u' v P P' h1 h2 h3 h4 h5 h6 e1 e2
      simp only [zero_add, hf, Option.some.injEq, sub_zero] at e1 e2 h6
      subst e1; subst e2
      rw [d1, abs_of_nonneg (hsin v h5 h6)]
    · intro u v v' P P' h1 h2 h3 h4 h5 h6 e1 e2
      simp only [zero_add, hf, Option.some.injEq] at e1 e2
      subst e1; subst e2
      rw [d2, one_mul]
    · simp only [sub_zero]
      have hl : 0 ≤ Real.pi * r := by positivity
      have m1 : ∀ x y, 0 ≤ x → x ≤ y → y ≤ Real.pi * r / 2 → Real.sin (x / r) ≤ Real.sin (y / r) := by
        intro x y h1 h2 h3
        have hx0 : 0 ≤ x / r := by positivity
        exact Real.sin_le_sin_of_le_of_le_pi_div_two (by linarith) (by rw [div_le_iff₀ hr]; linarith) (div_le_div_of_nonneg_right h2 hr.le)
      refine noBulge_of hl (Or.inr m1) (Or.inl ?_)
      intro x y h1 h2 h3
      rw [← Real.sin_pi_sub (y / r), ← Real.sin_pi_sub (x / r)]
      have a1 : x / r ≤ y / r := div_le_div_of_nonneg_right h2 hr.le
      have a2 : y / r ≤ Real.pi := by rw [div_le_iff₀ hr]; linarith
      have a3 : Real.pi / 2 ≤ x / r := by rw [le_div_iff₀ hr]; linarith
      exact Real.sin_le_sin_of_le_of_le_pi_div_two (by linarith) (by linarith) (by linarith)
  · intro u u' v P P' h1 h2 h3 h4 h5 h6 e1 e2
    rw [hf] at e1 e2
    cases e1; cases e2
    rw [d1, one_mul]
    have := Real.abs_sin_le_one (v / r)
    have h7 := hch (u - u')
    have h8 : 0 ≤ r * Real.sqrt (2 - 2 * Real.cos (|u - u'| / r)) := by positivity
    nlinarith [abs_nonneg (Real.sin (v / r))]
  · intro u v v' P P' h1 h2 h3 h4 h5 h6 e1 e2
    rw [hf] at e1 e2
    cases e1; cases e2
    rw [d2, one_mul]
    exact hch _

end Traceon
