import Verif.Props.Shapes3
import Verif.Props.Shapes2

/-! # C27, C64, C65: full turns, apertures, boundaries extruded along a path -/
namespace Traceon
open Spec V3

/-- Two points of the plane at the same distance of the origin: one turn reaches one from the other. -/
theorem turn_aux {a b x y : ℝ} (h : a ^ 2 + b ^ 2 = x ^ 2 + y ^ 2) : ∃ m : ℝ, 0 ≤ m ∧ m ≤ 1 ∧
    Real.cos (m * (2 * Real.pi)) * a - Real.sin (m * (2 * Real.pi)) * b = x ∧
    Real.sin (m * (2 * Real.pi)) * a + Real.cos (m * (2 * Real.pi)) * b = y := by
  have hpi := Real.pi_pos
  obtain ⟨α, α0, α1, h1, h2⟩ := exists_polar a b
  obtain ⟨β, β0, β1, h3, h4⟩ := exists_polar x y
  rw [h] at h1 h2
  generalize Real.sqrt (x ^ 2 + y ^ 2) = r at h1 h2 h3 h4
  have fin : ∀ m : ℝ, Real.cos (m * (2 * Real.pi)) = Real.cos (β - α) → Real.sin (m * (2 * Real.pi)) = Real.sin (β - α) →
      Real.cos (m * (2 * Real.pi)) * a - Real.sin (m * (2 * Real.pi)) * b = x ∧
      Real.sin (m * (2 * Real.pi)) * a + Real.cos (m * (2 * Real.pi)) * b = y := by
    intro m hc hs
    have hone := Real.cos_sq_add_sin_sq α
    rw [hc, hs, Real.cos_sub, Real.sin_sub, ← h1, ← h2, ← h3, ← h4]
    constructor
    · linear_combination r * Real.cos β * hone
    · linear_combination r * Real.sin β * hone
  by_cases hab : α ≤ β
  · refine ⟨(β - α) / (2 * Real.pi), div_nonneg (by linarith) (by positivity), by rw [div_le_one (by positivity)]; linarith, ?_⟩
    exact fin _ (by rw [div_mul_cancel₀ _ (by positivity)]) (by rw [div_mul_cancel₀ _ (by positivity)])
  · push Not at hab
    refine ⟨(β - α + 2 * Real.pi) / (2 * Real.pi), div_nonneg (by linarith) (by positivity), by rw [div_le_one (by positivity)]; linarith, ?_⟩
    exact fin _ (by rw [div_mul_cancel₀ _ (by positivity), Real.cos_add_two_pi]) (by rw [div_mul_cancel₀ _ (by positivity), Real.sin_add_two_pi])


/-- **C27**, a full turn about an axis (also the y-axis): the points of the revolved path are exactly all the points
that have the same position along the axis and the same distance to it as some point of the path. -/
theorem C27_full_turn (p : Path) {rAvg : ℝ} (hr : 0 < rAvg) (q : V3) :
    (surfacePoints (p.revolveX rAvg (2 * Real.pi)) q ↔ ∃ o, pathPoints p o ∧ q.x = o.x ∧ q.y ^ 2 + q.z ^ 2 = o.y ^ 2 + o.z ^ 2) ∧
    (surfacePoints (p.revolveY rAvg (2 * Real.pi)) q ↔ ∃ o, pathPoints p o ∧ q.y = o.y ∧ q.x ^ 2 + q.z ^ 2 = o.x ^ 2 + o.z ^ 2) ∧
    (surfacePoints (p.revolveZ rAvg (2 * Real.pi)) q ↔ ∃ o, pathPoints p o ∧ q.z = o.z ∧ q.x ^ 2 + q.y ^ 2 = o.x ^ 2 + o.y ^ 2) := by
  have hpi := Real.pi_pos
  have hl : 0 < 2 * Real.pi * rAvg := by positivity
  have trig := fun t : ℝ => Real.cos_sq_add_sin_sq t
  refine ⟨⟨?_, ?_⟩, ⟨?_, ?_⟩, ⟨?_, ?_⟩⟩
  · rintro ⟨u, v, u0, u1, v0, v1, h⟩
    obtain ⟨o, ho⟩ : ∃ o, p.func u = some o := by
      cases hu : p.func u with
      | some o => exact ⟨o, rfl⟩
      | none => simp [Path.revolveX, hu] at h
    rw [revolveX_func p hr.ne' _ _ _ ho] at h
    cases h
    refine ⟨o, ⟨u, u0, u1, ho⟩, by simp [rotC], ?_⟩
    simp only [rotC, V3.add_y, V3.add_z, V3.sub_y, V3.sub_z, V3.zero_y, V3.zero_z, sub_zero, zero_add]
    linear_combination (o.y ^ 2 + o.z ^ 2) * trig (v / (2 * Real.pi * rAvg) * (2 * Real.pi))
  · rintro ⟨o, ⟨u, u0, u1, ho⟩, h1, h2⟩
    obtain ⟨m, m0, m1, e1, e2⟩ := turn_aux h2.symm
    refine ⟨u, m * (2 * Real.pi * rAvg), u0, u1, by positivity, mul_le_of_le_one_left hl.le m1, ?_⟩
    rw [revolveX_func p hr.ne' _ _ _ ho, mul_div_cancel_right₀ _ hl.ne']
    congr 1
    ext
    · simp [rotC, h1]
    · simpa [rotC] using e1
    · simpa [rotC] using e2
  · rintro ⟨u, v, u0, u1, v0, v1, h⟩
    obtain ⟨o, ho⟩ : ∃ o, p.func u = some o := by
      cases hu : p.func u with
      | some o => exact ⟨o, rfl⟩
      | none => simp [Path.revolveY, hu] at h
    rw [revolveY_func p hr.ne' _ _ _ ho] at h
    cases h
    refine ⟨o, ⟨u, u0, u1, ho⟩, by simp [rotC], ?_⟩
    simp only [rotC, V3.add_x, V3.add_z, V3.sub_x, V3.sub_z, V3.zero_x, V3.zero_z, sub_zero, zero_add, Real.cos_neg, Real.sin_neg]
    linear_combination (o.x ^ 2 + o.z ^ 2) * trig (v / (2 * Real.pi * rAvg) * (2 * Real.pi))
  · rintro ⟨o, ⟨u, u0, u1, ho⟩, h1, h2⟩
    obtain ⟨m, m0, m1, e1, e2⟩ := turn_aux h2.symm
    refine ⟨u, m * (2 * Real.pi * rAvg), u0, u1, by positivity, mul_le_of_le_one_left hl.le m1, ?_⟩
    rw [revolveY_func p hr.ne' _ _ _ ho, mul_div_cancel_right₀ _ hl.ne']
    congr 1
    ext
    · simp only [rotC, V3.add_x, V3.sub_x, V3.sub_z, V3.zero_x, V3.zero_z, sub_zero, zero_add, Real.cos_neg, Real.sin_neg]
      linarith
    · simp [rotC, h1]
    · simp only [rotC, V3.add_z, V3.sub_x, V3.sub_z, V3.zero_x, V3.zero_z, sub_zero, zero_add, Real.cos_neg, Real.sin_neg]
      linarith
  · rintro ⟨u, v, u0, u1, v0, v1, h⟩
    obtain ⟨o, ho⟩ : ∃ o, p.func u = some o := by
      cases hu : p.func u with
      | some o => exact ⟨o, rfl⟩
      | none => simp [Path.revolveZ, hu] at h
    rw [revolveZ_func p hr.ne' _ _ _ ho] at h
    cases h
    refine ⟨o, ⟨u, u0, u1, ho⟩, by simp [rotC], ?_⟩
    simp only [rotC, V3.add_x, V3.add_y, V3.sub_x, V3.sub_y, V3.zero_x, V3.zero_y, sub_zero, zero_add]
    linear_combination (o.x ^ 2 + o.y ^ 2) * trig (v / (2 * Real.pi * rAvg) * (2 * Real.pi))
  · rintro ⟨o, ⟨u, u0, u1, ho⟩, h1, h2⟩
    obtain ⟨m, m0, m1, e1, e2⟩ := turn_aux h2.symm
    refine ⟨u, m * (2 * Real.pi * rAvg), u0, u1, by positivity, mul_le_of_le_one_left hl.le m1, ?_⟩
    rw [revolveZ_func p hr.ne' _ _ _ ho, mul_div_cancel_right₀ _ hl.ne']
    congr 1
    ext
    · simpa [rotC] using e1
    · simpa [rotC] using e2
    · simp [rotC, h1]

/-- **C64** (aperture as a surface). `Surface.aperture` is the ring shaped plate: its points are all points at height
`z ± height/2` whose distance to the z-axis is between the radius of the hole and the extent, and the points of the wall of
the hole. -/
theorem C64_aperture_surface {height radius extent z rAvg : ℝ} (hh : 0 < height) (h0 : 0 ≤ radius) (hr : radius < extent) (ha : 0 < rAvg) :
    ∃ s, Surface.aperture height radius extent z rAvg = some s ∧ ∀ q, surfacePoints s q ↔
      ((radius ^ 2 ≤ q.x ^ 2 + q.y ^ 2 ∧ q.x ^ 2 + q.y ^ 2 ≤ extent ^ 2 ∧ (q.z = z - height / 2 ∨ q.z = z + height / 2)) ∨
        (q.x ^ 2 + q.y ^ 2 = radius ^ 2 ∧ z - height / 2 ≤ q.z ∧ q.z ≤ z + height / 2)) := by
  obtain ⟨p, hp, _, _, hq⟩ := C64_aperture (z := z) hh hr
  refine ⟨_, by rw [Surface.aperture, hp]; rfl, fun q => ?_⟩
  rw [(C27_full_turn p ha q).2.2]
  constructor
  · rintro ⟨o, ho, h1, h2⟩
    obtain ⟨hy, ⟨a1, a2, a3⟩ | ⟨a1, a2, a3⟩⟩ := (hq o).1 ho
    · rw [hy] at h2
      exact .inl ⟨by nlinarith, by nlinarith, by rw [h1]; exact a3⟩
    · rw [hy, a1] at h2
      exact .inr ⟨by linarith, by rw [h1]; exact a2, by rw [h1]; exact a3⟩
  · have hs : Real.sqrt (q.x ^ 2 + q.y ^ 2) ^ 2 = q.x ^ 2 + q.y ^ 2 := Real.sq_sqrt (by positivity)
    have hn := Real.sqrt_nonneg (q.x ^ 2 + q.y ^ 2)
    rintro (⟨a1, a2, a3⟩ | ⟨a1, a2, a3⟩)
    · refine ⟨⟨Real.sqrt (q.x ^ 2 + q.y ^ 2), 0, q.z⟩, (hq _).2 ⟨rfl, .inl ⟨?_, ?_, a3⟩⟩, rfl, ?_⟩
      · exact Real.le_sqrt_of_sq_le a1
      · exact Real.sqrt_le_iff.2 ⟨by linarith, a2⟩
      · show _ = Real.sqrt (q.x ^ 2 + q.y ^ 2) ^ 2 + 0 ^ 2
        rw [hs]; ring
    · refine ⟨⟨radius, 0, q.z⟩, (hq _).2 ⟨rfl, .inr ⟨rfl, a2, a3⟩⟩, rfl, ?_⟩
      show _ = radius ^ 2 + 0 ^ 2
      rw [a1]; ring

/-- a plate of thickness 2 with a hole of radius 1 and an outer radius 3; `rAvg` is the true average 13/6 of the radius -/
example : ∃ s, Surface.aperture 2 1 3 0 (13 / 6) = some s ∧ surfacePoints s ⟨0, 2, 1⟩ ∧ ¬ surfacePoints s ⟨0, 0, 1⟩ := by
  obtain ⟨s, hs, h⟩ := C64_aperture_surface (height := 2) (radius := 1) (extent := 3) (z := 0) (rAvg := 13 / 6)
    (by norm_num) (by norm_num) (by norm_num) (by norm_num)
  refine ⟨s, hs, (h _).2 (.inl (by norm_num)), fun c => ?_⟩
  have := (h _).1 c
  norm_num at this

theorem boundary_ne_nil {s : Surface} {b : List Path} (hb : s.boundaryPaths = some b) : b ≠ [] := by
  intro e
  subst e
  unfold Surface.boundaryPaths at hb
  cases h : s.edgePaths.mapM (fun p => p.isClosed) with
  | none => rw [h] at hb; cases hb
  | some c =>
    rw [h] at hb
    simp only [Option.bind_eq_bind, Option.bind_some] at hb
    split at hb
    · rename_i hany
      obtain ⟨x, hx, hx'⟩ := List.any_eq_true.1 hany
      obtain ⟨k, hk⟩ := List.getElem?_of_mem hx
      have hl : c.length = s.edgePaths.length := mapM_length h
      have hkl := (List.getElem?_eq_some_iff.1 hk).1
      have hp : s.edgePaths[k]? = some (s.edgePaths[k]'(by omega)) := List.getElem?_eq_getElem (by omega)
      have hc : compress c s.edgePaths = [] := Option.some.inj hb
      simp only [id] at hx'
      subst hx'
      have := (mem_compress (a := s.edgePaths[k]'(by omega)) (by rw [mapM_length h])).2 ⟨k, hk, hp⟩
      rw [hc] at this
      cases this
    · have := Option.some.inj hb
      simp [Surface.edgePaths] at this

/-- **C65 is false for `extrude_boundary_by_path`**: it raises an error for every surface and every path. -/
theorem C65_by_path_refuted (s : Surface) (path : Path) (enclose : Bool) : s.extrudeBoundaryByPath path enclose = none := by
  unfold Surface.extrudeBoundaryByPath
  cases h : s.boundaryPaths with
  | none => rfl
  | some b =>
    obtain ⟨p, ps, rfl⟩ := List.exists_cons_of_ne_nil (boundary_ne_nil h)
    simp [Path.extrudeArg]

end Traceon
