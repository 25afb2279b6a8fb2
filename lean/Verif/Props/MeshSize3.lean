import Verif.Props.MeshSize2
import Verif.Props.SurfaceMesh7

/-!
# The sizes of the triangles: the ready-made surfaces, and the finished mesh (C108)
-/
namespace Traceon
open Spec

theorem move_steady {s : Surface} (h : Steady s) (d : V3) : Steady (s.move d) := by
  have hf : ∀ u v p, (s.move d).func u v = some p → s.func u v = some (p - d) := by
    intro u v p e
    simp only [Surface.move, Surface.mapPoints, moveFn] at e
    obtain ⟨q, hq, hqe⟩ := Option.bind_eq_some_iff.1 e
    cases hqe
    rw [hq]
    congr 1
    ext <;> simp
  have hd : ∀ p q : V3, Spec.dist (p - d) (q - d) = Spec.dist p q := by
    intro p q; unfold Spec.dist; congr 1; ext <;> simp
  refine ⟨⟨h.good.breaks1, h.good.breaks2, fun u v h1 h2 h3 h4 => ?_⟩, h.breaks, ?_⟩
  · obtain ⟨q, hq⟩ := Option.isSome_iff_exists.1 (h.good.total u v h1 h2 h3 h4)
    simp [Surface.move, Surface.mapPoints, moveFn, hq]
  · intro sec hsec
    unfold Surface.sections at hsec
    obtain ⟨uu, hu, hsec⟩ := List.mem_flatMap.1 hsec
    obtain ⟨vv, hv, rfl⟩ := List.mem_map.1 hsec
    have ho := h.onward { func := fun u v => s.func (uu.1 + u) (vv.1 + v), length1 := uu.2 - uu.1, length2 := vv.2 - vv.1 }
      (List.mem_flatMap.2 ⟨uu, hu, List.mem_map.2 ⟨vv, hv, rfl⟩⟩)
    constructor
    · intro u u' u'' v p p' p'' h1 h2 h3 h4 h5 h6 h7 e1 e2 e3
      have := ho.first u u' u'' v _ _ _ h1 h2 h3 h4 h5 h6 h7 (hf _ _ _ e1) (hf _ _ _ e2) (hf _ _ _ e3)
      unfold Amid at this ⊢
      rwa [hd, hd, hd] at this
    · intro u v v' v'' p p' p'' h1 h2 h3 h4 h5 h6 h7 e1 e2 e3
      have := ho.second u v v' v'' _ _ _ h1 h2 h3 h4 h5 h6 h7 (hf _ _ _ e1) (hf _ _ _ e2) (hf _ _ _ e3)
      unfold Amid at this ⊢
      rwa [hd, hd, hd] at this

theorem straight_steady {p : Path} (h : StraightPath p) : SteadyPath p := by
  intro uu hu
  obtain ⟨o, d, hod⟩ := h uu hu
  refine ⟨fun x => x * V3.norm d, fun x y _ h _ => mul_le_mul_of_nonneg_right h (norm_nonneg' _), fun u u' q q' h1 h2 h3 h4 e1 e2 => ?_⟩
  rw [hod u h1 h2] at e1
  rw [hod u' h3 h4] at e2
  cases e1; cases e2
  unfold Spec.dist
  rw [show (o + u * d) - (o + u' * d) = (u - u') * d by ext <;> simp <;> ring, norm_smul']

/-- **C108**, disks: `Surface.disk_xz`, `disk_yz`, `disk_xy`. -/
theorem C108_disk (x0 y0 : ℝ) {radius rAvg : ℝ} (h : 0 < radius) (hr : 0 < rAvg) :
    (∃ s, Surface.diskXZ x0 y0 radius rAvg = some s ∧ SizedBy s) ∧ (∃ s, Surface.diskYZ x0 y0 radius rAvg = some s ∧ SizedBy s) ∧
    (∃ s, Surface.diskXY x0 y0 radius rAvg = some s ∧ SizedBy s) := by
  have n1 : (0 : V3) ≠ ⟨radius, 0, 0⟩ := fun e => by have := congrArg V3.x e; simp at this; linarith
  have n2 : (0 : V3) ≠ ⟨0, radius, 0⟩ := fun e => by have := congrArg V3.y e; simp at this; linarith
  have hpi : |2 * Real.pi| ≤ 4 * Real.pi := by rw [abs_of_pos (by positivity)]; linarith [Real.pi_pos]
  have o1 := steady_onward (plain_steady (.line n1)).2
  have o2 := steady_onward (plain_steady (.line n2)).2
  refine ⟨⟨_, if_pos h, ?_⟩, ⟨_, if_pos h, ?_⟩, ⟨_, if_pos h, ?_⟩⟩
  · exact steady_sized (move_steady (revolve_steady (line_good n1) o1 hr hpi).2.1 _)
  · exact steady_sized (move_steady (revolve_steady (line_good n2) o2 hr hpi).1 _)
  · exact steady_sized (move_steady (revolve_steady (line_good n1) o1 hr hpi).2.2 _)

/-- **C108**, rectangles: `Surface.rectangle_xz`, `rectangle_yz`, `rectangle_xy`. -/
theorem C108_rectangle {a b c d : ℝ} (h1 : a ≠ b) (h2 : c ≠ d) :
    SizedBy (Surface.rectangleXZ a b c d) ∧ SizedBy (Surface.rectangleYZ a b c d) ∧ SizedBy (Surface.rectangleXY a b c d) := by
  have hab : b - a ≠ 0 := sub_ne_zero.2 (Ne.symm h1)
  have w1 : (⟨b - a, 0, 0⟩ : V3) ≠ 0 := fun e => hab (congrArg V3.x e)
  have w2 : (⟨0, b - a, 0⟩ : V3) ≠ 0 := fun e => hab (congrArg V3.y e)
  exact ⟨C108_extrude (.line fun e => h2 (congrArg V3.z e)) w1, C108_extrude (.line fun e => h2 (congrArg V3.z e)) w2,
    C108_extrude (.line fun e => h2 (congrArg V3.y e)) w1⟩

/-- **C108**, apertures: `Surface.aperture`. -/
theorem C108_aperture {height radius extent rAvg : ℝ} (z : ℝ) (hh : 0 < height) (hr : radius < extent) (ha : 0 < rAvg) :
    ∃ s, Surface.aperture height radius extent z rAvg = some s ∧ SizedBy s := by
  have n1 : (⟨extent, 0, -height / 2⟩ : V3) ≠ ⟨radius, 0, -height / 2⟩ := fun h => hr.ne' (congrArg V3.x h)
  have n2 : (⟨radius, 0, -height / 2⟩ : V3) ≠ ⟨radius, 0, height / 2⟩ := fun h => by have := congrArg V3.z h; simp at this; linarith
  have n3 : (⟨radius, 0, height / 2⟩ : V3) ≠ ⟨extent, 0, height / 2⟩ := fun h => hr.ne (congrArg V3.x h)
  have hpi : |2 * Real.pi| ≤ 4 * Real.pi := by rw [abs_of_pos (by positivity)]; linarith [Real.pi_pos]
  obtain ⟨r1, h1, g1, s1, e1⟩ := lineTo_straight (line_good n1) (line_straight n1) (line_end n1) n2
  obtain ⟨r2, h2, g2, s2, e2⟩ := lineTo_straight g1 s1 e1 n3
  obtain ⟨g3, s3⟩ := straight_move g2 s2 ⟨0, 0, z⟩
  exact ⟨_, by simp [Surface.aperture, Path.aperture, h1, h2], steady_sized (revolve_steady g3 (steady_onward (straight_steady s3)) ha hpi).2.2⟩

/-- **C108**, spheres: `Surface.sphere`. -/
theorem C108_sphere {r : ℝ} (hr : 0 < r) : SizedBy (Surface.sphere r) := by
  have hpi := Real.pi_pos
  have hf : ∀ u v, (Surface.sphere r).func u v = some ⟨r * Real.sin (v / r) * Real.cos (u / r), r * Real.sin (v / r) * Real.sin (u / r), r * Real.cos (v / r)⟩ := by
    intro u v
    simp [Surface.sphere, safeDiv, hr.ne']
  have hl1 : 0 ≤ (Surface.sphere r).length1 := by simp only [Surface.sphere]; positivity
  have hl2 : 0 ≤ (Surface.sphere r).length2 := by simp only [Surface.sphere]; positivity
  have cs : ∀ a b : ℝ, Real.cos ((a - b) / r) = Real.cos (|a - b| / r) := by
    intro a b
    rcases abs_choice (a - b) with h | h <;> rw [h]
    rw [neg_div, Real.cos_neg]
  have d1 : ∀ u u' v, Spec.dist (⟨r * Real.sin (v / r) * Real.cos (u / r), r * Real.sin (v / r) * Real.sin (u / r), r * Real.cos (v / r)⟩ : V3)
      ⟨r * Real.sin (v / r) * Real.cos (u' / r), r * Real.sin (v / r) * Real.sin (u' / r), r * Real.cos (v / r)⟩
      = |Real.sin (v / r)| * (r * Real.sqrt (2 - 2 * Real.cos (|u - u'| / r))) := by
    intro u u' v
    rw [← cs, sub_div, Real.cos_sub]
    have : ∀ x : ℝ, |Real.sin (v / r)| * (r * Real.sqrt x) = Real.sqrt ((r * Real.sin (v / r)) ^ 2 * x) := by
      intro x
      rw [Real.sqrt_mul (sq_nonneg _), Real.sqrt_sq_eq_abs, abs_mul, abs_of_pos hr]; ring
    rw [this]
    unfold Spec.dist V3.norm V3.dot
    congr 1
    simp only [V3.sub_x, V3.sub_y, V3.sub_z]
    linear_combination (r * Real.sin (v / r)) ^ 2 * (Real.sin_sq_add_cos_sq (u / r) + Real.sin_sq_add_cos_sq (u' / r))
  have d2 : ∀ u v v', Spec.dist (⟨r * Real.sin (v / r) * Real.cos (u / r), r * Real.sin (v / r) * Real.sin (u / r), r * Real.cos (v / r)⟩ : V3)
      ⟨r * Real.sin (v' / r) * Real.cos (u / r), r * Real.sin (v' / r) * Real.sin (u / r), r * Real.cos (v' / r)⟩
      = r * Real.sqrt (2 - 2 * Real.cos (|v - v'| / r)) := by
    intro u v v'
    rw [← cs, sub_div, Real.cos_sub]
    have : ∀ x : ℝ, r * Real.sqrt x = Real.sqrt (r ^ 2 * x) := by
      intro x
      rw [Real.sqrt_mul (sq_nonneg _), Real.sqrt_sq hr.le]
    rw [this]
    unfold Spec.dist V3.norm V3.dot
    congr 1
    simp only [V3.sub_x, V3.sub_y, V3.sub_z]
    linear_combination r ^ 2 * (Real.sin_sq_add_cos_sq (v / r) + Real.sin_sq_add_cos_sq (v' / r))
      + r ^ 2 * (Real.sin (v / r) - Real.sin (v' / r)) ^ 2 * Real.sin_sq_add_cos_sq (u / r)
  have mono : ∀ (k : ℝ), 0 ≤ k → ∀ x y, 0 ≤ x → x ≤ y → y ≤ 2 * Real.pi * r / 4 → k * (r * Real.sqrt (2 - 2 * Real.cos (x / r))) ≤ k * (r * Real.sqrt (2 - 2 * Real.cos (y / r))) := by
    intro k hk x y h1 h2 h3
    refine mul_le_mul_of_nonneg_left (mul_le_mul_of_nonneg_left (sqrt_chord_mono (by positivity) (div_le_div_of_nonneg_right h2 hr.le) ?_) hr.le) hk
    rw [div_le_iff₀ hr]
    nlinarith
  have hg : GoodSurface (Surface.sphere r) := ⟨by simpa [GoodBreaks, Surface.sphere] using hl1, by simpa [GoodBreaks, Surface.sphere] using hl2, fun u v _ _ _ _ => by rw [hf]; rfl⟩
  refine steady_sized ⟨hg, Or.inl rfl, ?_⟩
  intro sec hsec
  have hsec' : sec = { func := fun u v => (Surface.sphere r).func (0 + u) (0 + v), length1 := 2 * Real.pi * r - 0, length2 := Real.pi * r - 0 } := by
    simpa [Surface.sections, Surface.pairs, Surface.sphere] using hsec
  subst hsec'
  constructor
  · intro u u' u'' v p p' p'' h1 h2 h3 h4 h5 h6 h7 e1 e2 e3
    simp only [zero_add, hf, Option.some.injEq, sub_zero] at e1 e2 e3 h4 h5 h7
    subst e1; subst e2; subst e3
    exact amid_of (mono |Real.sin (v / r)| (abs_nonneg _)) h2 h3 h5 (d1 _ _ _) (d1 _ _ _) (d1 _ _ _)
  · intro u v v' v'' p p' p'' h1 h2 h3 h4 h5 h6 h7 e1 e2 e3
    simp only [zero_add, hf, Option.some.injEq, sub_zero] at e1 e2 e3 h4 h5 h7
    subst e1; subst e2; subst e3
    have := mono 1 zero_le_one
    simp only [one_mul] at this
    refine amid_of this h2 h3 ?_ (d2 _ _ _) (d2 _ _ _) (d2 _ _ _)
    have : 0 ≤ Real.pi * r := by positivity
    linarith

theorem amid_straight {o d : V3} {u u' u'' : ℝ} (h1 : u ≤ u') (h2 : u' ≤ u'') : Amid (o + u * d) (o + u' * d) (o + u'' * d) := by
  have e : ∀ x y : ℝ, Spec.dist (o + x * d) (o + y * d) = |x - y| * V3.norm d := by
    intro x y
    unfold Spec.dist
    rw [show (o + x * d) - (o + y * d) = (x - y) * d by ext <;> simp <;> ring, norm_smul']
  exact amid_of (f := fun x => x * V3.norm d) (T := u'' - u) (fun x y _ h _ => mul_le_mul_of_nonneg_right h (norm_nonneg' _)) h1 h2 le_rfl (e _ _) (e _ _) (e _ _)

/-- **C108**, surfaces between two straight lines (`Surface.spanned_by_paths`): any quadrilateral, flat or not. -/
theorem C108_spanned {a b c d : V3} (hab : a ≠ b) (hcd : c ≠ d) (hac : a ≠ c ∨ b ≠ d) :
    ∃ s, Surface.spannedByPaths (Path.line a b) (Path.line c d) = some s ∧ SizedBy s := by
  obtain ⟨s, hs, ht⟩ := spanned_tame hab hcd hac
  refine ⟨s, hs, ?_⟩
  have n1 : 0 < V3.norm (a - b) := norm_sub_pos hab
  have n2 : 0 < V3.norm (c - d) := norm_sub_pos hcd
  set L := max (V3.norm (a - b)) (V3.norm (c - d)) with hL
  set M := (V3.norm (a - c) + V3.norm (b - d)) / 2 with hM
  have L0 : 0 < L := lt_of_lt_of_le n1 (le_max_left _ _)
  have M0 : 0 < M := by
    have k1 := norm_nonneg' (a - c)
    have k2 := norm_nonneg' (b - d)
    rcases hac with h | h
    · have := norm_sub_pos h; rw [hM]; linarith
    · have := norm_sub_pos h; rw [hM]; linarith
  simp only [Surface.spannedByPaths, line_start hab, line_start hcd, line_end hab, line_end hcd, Option.bind_eq_bind, Option.bind_some,
    Option.pure_def, Option.some.injEq] at hs
  have l1 : s.length1 = L := by rw [← hs]; rfl
  have l2 : s.length2 = M := by rw [← hs]
  have b1 : s.breaks1 = [] := by rw [← hs]; rfl
  have b2 : s.breaks2 = [] := by rw [← hs]
  have hf : ∀ u v, s.func u v = some (a + (u / L) * (b - a) + (v / M) * ((c - a) + (u / L) * ((d - c) - (b - a)))) := by
    intro u v
    rw [← hs]
    have hl : (Path.line a b).length = V3.norm (a - b) := rfl
    have hl' : (Path.line c d).length = V3.norm (c - d) := rfl
    simp only [hl, hl', ← hL, ← hM, safeDiv, L0.ne', M0.ne', if_false, Option.bind_some, line_func hab, line_func hcd, mul_div_cancel_right₀ _ n1.ne',
      mul_div_cancel_right₀ _ n2.ne', Option.some.injEq]
    ext <;> simp <;> ring
  have f1 : ∀ v u, a + (u / L) * (b - a) + (v / M) * ((c - a) + (u / L) * ((d - c) - (b - a)))
      = (a + (v / M) * (c - a)) + u * ((1 / L) * (b - a) + (v / M) * ((1 / L) * ((d - c) - (b - a)))) := by
    intro v u; ext <;> simp <;> ring
  have f2 : ∀ u v, a + (u / L) * (b - a) + (v / M) * ((c - a) + (u / L) * ((d - c) - (b - a)))
      = (a + (u / L) * (b - a)) + v * ((1 / M) * ((c - a) + (u / L) * ((d - c) - (b - a)))) := by
    intro u v; ext <;> simp <;> ring
  refine steady_sized ⟨ht.1, ht.2, ?_⟩
  intro sec hsec
  have hsec' : sec = { func := fun u v => s.func (0 + u) (0 + v), length1 := L - 0, length2 := M - 0 } := by
    simpa [Surface.sections, Surface.pairs, b1, b2, l1, l2] using hsec
  subst hsec'
  constructor
  · intro u u' u'' v p p' p'' h1 h2 h3 h4 h5 h6 h7 e1 e2 e3
    simp only [zero_add, hf, Option.some.injEq] at e1 e2 e3
    rw [f1 v] at e1 e2 e3
    subst e1; subst e2; subst e3
    exact amid_straight h2 h3
  · intro u v v' v'' p p' p'' h1 h2 h3 h4 h5 h6 h7 e1 e2 e3
    simp only [zero_add, hf, Option.some.injEq] at e1 e2 e3
    rw [f2 u] at e1 e2 e3
    subst e1; subst e2; subst e3
    exact amid_straight h2 h3

/-- **C108**, boxes: the three surfaces that make up `Surface.box`. -/
theorem C108_box {p0 p1 : V3} (hx : p0.x ≠ p1.x) (hy : p0.y ≠ p1.y) (hz : p0.z ≠ p1.z) :
    ∃ ss, Surface.box p0 p1 = some ss ∧ ss.length = 3 ∧ ∀ s ∈ ss, SizedBy s := by
  have mx : min p0.x p1.x < max p0.x p1.x := min_lt_max.2 hx
  have my : min p0.y p1.y < max p0.y p1.y := min_lt_max.2 hy
  have mz : min p0.z p1.z < max p0.z p1.z := min_lt_max.2 hz
  unfold Surface.box
  generalize min p0.x p1.x = x0 at *
  generalize max p0.x p1.x = x1 at *
  generalize min p0.y p1.y = y0 at *
  generalize max p0.y p1.y = y1 at *
  generalize min p0.z p1.z = z0 at *
  generalize max p0.z p1.z = z1 at *
  have nx : ∀ y z : ℝ, (⟨x0, y, z⟩ : V3) ≠ ⟨x1, y, z⟩ := fun y z h => mx.ne (congrArg V3.x h)
  have nx' : ∀ y z : ℝ, (⟨x1, y, z⟩ : V3) ≠ ⟨x0, y, z⟩ := fun y z h => mx.ne' (congrArg V3.x h)
  have nz : ∀ x y : ℝ, (⟨x, y, z0⟩ : V3) ≠ ⟨x, y, z1⟩ := fun x y h => mz.ne (congrArg V3.z h)
  have nz' : ∀ x y : ℝ, (⟨x, y, z1⟩ : V3) ≠ ⟨x, y, z0⟩ := fun x y h => mz.ne' (congrArg V3.z h)
  obtain ⟨r1, h1, g1, e1, s1⟩ := polygon_lineTo (.line (nx y0 z0)) (line_end (nx y0 z0)) (nz x1 y0)
  obtain ⟨r2, h2, g2, e2, s2⟩ := polygon_lineTo g1 e1 (nx' y0 z1)
  obtain ⟨r3, h3, g3, e3, s3⟩ := polygon_lineTo g2 e2 (nz' x0 y0)
  have hc : r2.close = some r3 := by
    simp only [Path.close, s2, s1, line_start (nx y0 z0), Option.bind_eq_bind, Option.bind_some, h3]
  obtain ⟨top, ht, ct⟩ := C108_spanned (nx y0 z1) (nx y0 z0) (Or.inl (nz' x0 y0))
  obtain ⟨bot, hb, cb⟩ := C108_spanned (nx y1 z0) (nx y1 z1) (Or.inl (nz x0 y1))
  refine ⟨[top, bot, r3.extrude ⟨0, y1 - y0, 0⟩], ?_, rfl, ?_⟩
  · simp only [h1, h2, hc, ht, hb, Option.bind_eq_bind, Option.bind_some]; rfl
  · intro s hs
    simp only [List.mem_cons, List.not_mem_nil, or_false] at hs
    rcases hs with rfl | rfl | rfl
    · exact ct
    · exact cb
    · exact C108_extrude (polygon_plain g3) (fun h => (sub_pos.2 my).ne' (congrArg V3.y h))

theorem near_side {p q p' q' : V3} {ε d : ℝ} (h1 : Spec.dist p p' ≤ ε) (h2 : Spec.dist q q' ≤ ε) (h : Spec.dist p q ≤ d) : Spec.dist p' q' ≤ d + 2 * ε := by
  have a := dist_triangle' p' p q'
  have b := dist_triangle' p q q'
  rw [dist_comm3 p' p] at a
  linarith

/-- **C108**, the finished mesh. `Surface.mesh` also clears the low bits of the coordinates, merges the points that coincide then, drops degenerate triangles and
orients the triangles. If clearing the low bits moves no point by more than `ε`, no side of a triangle of the result is longer than twice the mesh size plus `2ε`. -/
theorem C108_mesh {s : Surface} (hz : SizedBy s) (hs : GoodSurface s) {K : ℝ} (hK : 0 ≤ K) (hl : LipschitzSurface s K)
    (hpos : 0 < s.length1 ∧ 0 < s.length2) {ms : ℝ} (hms : 0 < ms) (name : Option String) (ensure : Bool)
    {trunc : V3 → V3} {ε : ℝ} (hε : ∀ p, Spec.dist p (trunc p) ≤ ε) :
    ∃ fuel0, ∀ fuel, fuel0 ≤ fuel → ∃ M, s.mesh (realGeo trunc) fuel (some fun _ => ms) none name ensure = some M ∧ SidesAtMost M (2 * ms + 2 * ε) := by
  obtain ⟨fuel0, h⟩ := C66_finishes hs hK hl hms (fun _ => le_refl ms) (name.or s.name) (realGeo_lawful trunc) ensure
  refine ⟨fuel0, fun fuel hfu => ?_⟩
  obtain ⟨raw, M, h1, h2, h3, h4, h5, h6⟩ := h fuel hfu
  obtain ⟨M', hM', r⟩ := Mesh.build_shapes (realGeo_lawful trunc) raw h2 ensure
  rw [h5] at hM'; cases hM'
  have h1' : s.rawMesh (s.meshSize (some fun _ => ms) none) fuel (name.or s.name) = some raw := h1
  refine ⟨M, by simp [Surface.mesh, h1', h5], ?_⟩
  have hraw := C108_constant hz ms fuel _ raw h1
  intro t ht i hi j hj p q hp hq
  have hmem : coords M.points t ∈ triShapes M := List.mem_map_of_mem ht
  obtain ⟨k, hk⟩ := List.getElem?_of_mem hmem
  obtain ⟨a, ha⟩ : ∃ a, ((triShapes raw).filter (nonDegShape (realGeo trunc)))[k]? = some a := by
    have := (List.getElem?_eq_some_iff.1 hk).1
    rw [← r.tris.1] at this
    exact ⟨_, List.getElem?_eq_getElem this⟩
  have hsame := r.tris.2 k _ _ ha hk
  have ha' := List.mem_of_mem_filter (List.mem_of_getElem? ha)
  obtain ⟨t0, ht0, rfl⟩ := List.mem_map.1 ha'
  have hside : ∀ x ∈ coords raw.points t0, ∀ y ∈ coords raw.points t0, Spec.dist x y ≤ 2 * ms := by
    intro x hx y hy
    obtain ⟨i0, hi0, hxi⟩ := List.mem_filterMap.1 hx
    obtain ⟨j0, hj0, hyj⟩ := List.mem_filterMap.1 hy
    exact hraw t0 ht0 i0 hi0 j0 hj0 x y hxi hyj
  have hrev : ∀ x : V3, x ∈ revTri (coords raw.points t0) → x ∈ coords raw.points t0 := by
    intro x hx
    unfold revTri at hx
    split at hx
    · rename_i e
      rw [e]
      simp only [List.mem_cons, List.not_mem_nil, or_false] at hx ⊢
      tauto
    · exact hx
  have hfrom : ∀ y ∈ coords M.points t, ∃ x ∈ coords raw.points t0, Spec.dist x y ≤ ε := by
    intro y hy
    obtain ⟨n, hn⟩ := List.getElem?_of_mem hy
    have go : ∀ l : List V3, SameShape (realGeo trunc) l (coords M.points t) → ∃ x ∈ l, Spec.dist x y ≤ ε := by
      intro l hl
      obtain ⟨x, hx⟩ : ∃ x, l[n]? = some x := by
        have := (List.getElem?_eq_some_iff.1 hn).1
        rw [← hl.1] at this
        exact ⟨_, List.getElem?_eq_getElem this⟩
      refine ⟨x, List.mem_of_getElem? hx, ?_⟩
      have := hl.2 n x y hx hn
      simp only [realGeo, decide_eq_true_eq] at this
      rw [this]
      exact hε x
    rcases hsame with hsame | hsame
    · exact go _ hsame
    · obtain ⟨x, hx, hd⟩ := go _ hsame
      exact ⟨x, hrev x hx, hd⟩
  obtain ⟨x, hx, hxd⟩ := hfrom p (List.mem_filterMap.2 ⟨i, hi, hp⟩)
  obtain ⟨y, hy, hyd⟩ := hfrom q (List.mem_filterMap.2 ⟨j, hj, hq⟩)
  exact near_side hxd hyd (hside x hx y hy)

/-- The unit sphere, with every mesh size: there is a mesh, it has triangles, and no side of these is longer than twice the mesh size. -/
theorem C108_example {ms : ℝ} (hms : 0 < ms) : ∃ fuel mesh, (Surface.sphere 1).rawMesh (fun _ => ms) fuel none = some mesh ∧ mesh.triangles ≠ [] ∧ SidesAtMost mesh (2 * ms) := by
  obtain ⟨fuel, h⟩ := C67_sphere_partial one_pos ms hms none
  obtain ⟨mesh, hm, hc⟩ := h fuel le_rfl
  refine ⟨fuel, mesh, hm, ?_, C108_constant (C108_sphere one_pos) ms fuel none mesh hm⟩
  have hpi := Real.pi_pos
  obtain ⟨t, ht, -⟩ := hc 0 0 le_rfl (by simp only [Surface.sphere]; positivity) le_rfl (by simp only [Surface.sphere]; positivity)
  exact fun e => by rw [e] at ht; cases ht

end Traceon
