import Verif.Props.Ruled5

/-!
# C18, C67 for surfaces spanned by two straight lines, and the box
-/
namespace Traceon
open Spec SMesh

/-- the length of a vector that changes linearly has no local maximum -/
theorem norm_noBulge (len : ℝ) (o d : V3) (k : ℝ) (hk : 0 ≤ k) : NoBulge len (fun x => k * V3.norm (o + x * d)) := by
  intro n _ x y z _ h1 h2 _
  rw [← mul_max_of_nonneg _ _ hk]
  refine mul_le_mul_of_nonneg_left ?_ hk
  unfold V3.norm
  rw [max_sqrt]
  refine Real.sqrt_le_sqrt ?_
  have e : ∀ t : ℝ, V3.dot (o + t * d) (o + t * d) = V3.dot o o + (2 * V3.dot o d) * t + V3.dot d d * t ^ 2 := by
    intro t; unfold V3.dot; simp; ring
  rw [e, e, e]
  exact quad_le_max (V3.dot_self_nonneg d) h1 h2

/-- **C67**, surfaces between two straight lines (`Surface.spanned_by_paths`): any quadrilateral, flat or not. -/
theorem spanned_tame {a b c d : V3} (hab : a ≠ b) (hcd : c ≠ d) (hac : a ≠ c ∨ b ≠ d) :
    ∃ s, Surface.spannedByPaths (Path.line a b) (Path.line c d) = some s ∧ Tame s := by
  have n1 : 0 < V3.norm (a - b) := norm_sub_pos hab
  have n2 : 0 < V3.norm (c - d) := norm_sub_pos hcd
  set L := max (V3.norm (a - b)) (V3.norm (c - d)) with hL
  set M := (V3.norm (a - c) + V3.norm (b - d)) / 2 with hM
  have L0 : 0 < L := lt_of_lt_of_le n1 (le_max_left _ _)
  have M0 : 0 < M := by
    have k1 := norm_nonneg' (a - c)
    have k2 := norm_nonneg' (b - d)
    rcases hac with h | h
    · have := norm_sub_pos h; rw [hM]; linarith
    · have := norm_sub_pos h; rw [hM]; linarith
  obtain ⟨s, hs⟩ : ∃ s, Surface.spannedByPaths (Path.line a b) (Path.line c d) = some s := by
    simp only [Surface.spannedByPaths, line_start hab, line_start hcd, line_end hab, line_end hcd, Option.bind_eq_bind, Option.bind_some]
    exact ⟨_, rfl⟩
  refine ⟨s, hs, ?_⟩
  simp only [Surface.spannedByPaths, line_start hab, line_start hcd, line_end hab, line_end hcd, Option.bind_eq_bind, Option.bind_some,
    Option.pure_def, Option.some.injEq] at hs
  have l1 : s.length1 = L := by rw [← hs]; rfl
  have l2 : s.length2 = M := by rw [← hs]
  have b1 : s.breaks1 = [] := by rw [← hs]; rfl
  have b2 : s.breaks2 = [] := by rw [← hs]
  have hf : ∀ u v, s.func u v = some (a + (u / L) * (b - a) + (v / M) * ((c - a) + (u / L) * ((d - c) - (b - a)))) := by
    intro u v
    rw [← hs]
    have hl : (Path.line a b).length = V3.norm (a - b) := rfl
    have hl' : (Path.line c d).length = V3.norm (c - d) := rfl
    simp only [hl, hl', ← hL, ← hM, safeDiv, L0.ne', M0.ne', if_false, Option.bind_some, line_func hab, line_func hcd, mul_div_cancel_right₀ _ n1.ne',
      mul_div_cancel_right₀ _ n2.ne', Option.some.injEq]
    ext <;> simp <;> ring
  have d1 : ∀ u u' v, Spec.dist (a + (u / L) * (b - a) + (v / M) * ((c - a) + (u / L) * ((d - c) - (b - a))))
      (a + (u' / L) * (b - a) + (v / M) * ((c - a) + (u' / L) * ((d - c) - (b - a))))
      = (1 / L * V3.norm ((b - a) + v * ((1 / M) * ((d - c) - (b - a))))) * |u - u'| := by
    intro u u' v
    have : (a + (u / L) * (b - a) + (v / M) * ((c - a) + (u / L) * ((d - c) - (b - a))))
        - (a + (u' / L) * (b - a) + (v / M) * ((c - a) + (u' / L) * ((d - c) - (b - a))))
        = ((u - u') / L) * ((b - a) + v * ((1 / M) * ((d - c) - (b - a)))) := by
      ext <;> simp <;> ring
    unfold Spec.dist
    rw [this, norm_smul', abs_div, abs_of_pos L0]; ring
  have d2 : ∀ u v v', Spec.dist (a + (u / L) * (b - a) + (v / M) * ((c - a) + (u / L) * ((d - c) - (b - a))))
      (a + (u / L) * (b - a) + (v' / M) * ((c - a) + (u / L) * ((d - c) - (b - a))))
      = (1 / M * V3.norm ((c - a) + u * ((1 / L) * ((d - c) - (b - a))))) * |v - v'| := by
    intro u v v'
    have : (a + (u / L) * (b - a) + (v / M) * ((c - a) + (u / L) * ((d - c) - (b - a))))
        - (a + (u / L) * (b - a) + (v' / M) * ((c - a) + (u / L) * ((d - c) - (b - a))))
        = ((v - v') / M) * ((c - a) + u * ((1 / L) * ((d - c) - (b - a)))) := by
      ext <;> simp <;> ring
    unfold Spec.dist
    rw [this, norm_smul', abs_div, abs_of_pos M0]; ring
  have hbd : ∀ (o w : V3) (len x : ℝ), 0 ≤ x → x ≤ len → V3.norm (o + x * w) ≤ V3.norm o + len * V3.norm w := by
    intro o w len x h1 h2
    have h3 := dist_triangle' (o + x * w) o 0
    have e1 : Spec.dist (o + x * w) o = x * V3.norm w := by
      unfold Spec.dist
      rw [show (o + x * w) - o = x * w by ext <;> simp, norm_smul', abs_of_nonneg h1]
    have e2 : Spec.dist (o + x * w) 0 = V3.norm (o + x * w) := by unfold Spec.dist; congr 1; ext <;> simp
    have e3 : Spec.dist o 0 = V3.norm o := by unfold Spec.dist; congr 1; ext <;> simp
    have := mul_le_mul_of_nonneg_right h2 (norm_nonneg' w)
    linarith
  refine ⟨⟨by rw [b1, l1]; simp [GoodBreaks, L0.le], by rw [b2, l2]; simp [GoodBreaks, M0.le], fun u v _ _ _ _ => by rw [hf]; rfl⟩, Or.inl b1, ?_, ?_⟩
  · intro sec hsec
    have hsec' : sec = { func := fun u v => s.func (0 + u) (0 + v), length1 := L - 0, length2 := M - 0 } := by
      simpa [Surface.sections, Surface.pairs, b1, b2, l1, l2] using hsec
    subst hsec'
    refine ⟨fun u => 1 / M * V3.norm ((c - a) + u * ((1 / L) * ((d - c) - (b - a)))), fun v => 1 / L * V3.norm ((b - a) + v * ((1 / M) * ((d - c) - (b - a)))),
      fun x => |x|, fun x => |x|, ?_, ?_, norm_noBulge _ _ _ _ (by positivity), norm_noBulge _ _ _ _ (by positivity), fun x => abs_nonneg x, fun x => abs_nonneg x⟩
    · intro u u' v P P' _ _ _ _ _ _ e1 e2
      simp only [zero_add, hf, Option.some.injEq] at e1 e2
      subst e1; subst e2
      rw [d1, abs_abs]
    · intro u v v' P P' _ _ _ _ _ _ e1 e2
      simp only [zero_add, hf, Option.some.injEq] at e1 e2
      subst e1; subst e2
      rw [d2, abs_abs]
  · set A := 1 / L * (V3.norm (b - a) + M * V3.norm ((1 / M) * ((d - c) - (b - a)))) with hA
    set B := 1 / M * (V3.norm (c - a) + L * V3.norm ((1 / L) * ((d - c) - (b - a)))) with hB
    have A0 : 0 ≤ A := by
      have k1 := norm_nonneg' (b - a)
      have k2 := norm_nonneg' ((1 / M) * ((d - c) - (b - a)))
      positivity
    have B0 : 0 ≤ B := by
      have k1 := norm_nonneg' (c - a)
      have k2 := norm_nonneg' ((1 / L) * ((d - c) - (b - a)))
      positivity
    refine ⟨A + B, by linarith, ?_, ?_⟩
    · intro u u' v P P' h1 h2 h3 h4 h5 h6 e1 e2
      rw [hf] at e1 e2
      cases e1; cases e2
      rw [d1]
      rw [l2] at h6
      have := mul_le_mul_of_nonneg_left (hbd (b - a) ((1 / M) * ((d - c) - (b - a))) M v h5 h6) (by positivity : 0 ≤ 1 / L)
      exact mul_le_mul_of_nonneg_right (by linarith) (abs_nonneg _)
    · intro u v v' P P' h1 h2 h3 h4 h5 h6 e1 e2
      rw [hf] at e1 e2
      cases e1; cases e2
      rw [d2]
      rw [l1] at h2
      have := mul_le_mul_of_nonneg_left (hbd (c - a) ((1 / L) * ((d - c) - (b - a))) L u h1 h2) (by positivity : 0 ≤ 1 / M)
      exact mul_le_mul_of_nonneg_right (by linarith) (abs_nonneg _)

/-- **C67**, surfaces between two straight lines (`Surface.spanned_by_paths`): any quadrilateral, flat or not. -/
theorem C67_spanned_partial {a b c d : V3} (hab : a ≠ b) (hcd : c ≠ d) (hac : a ≠ c ∨ b ≠ d) :
    ∃ s, Surface.spannedByPaths (Path.line a b) (Path.line c d) = some s ∧ Covered s := by
  obtain ⟨s, h1, h2⟩ := spanned_tame hab hcd hac
  exact ⟨s, h1, C67_tame_partial h2⟩

theorem polygon_lineTo {p : Path} (h : Polygon p) {a b : V3} (ha : p.endpoint = some a) (hab : a ≠ b) :
    ∃ r, p.lineTo b = some r ∧ Polygon r ∧ r.endpoint = some b ∧ r.start = p.start := by
  obtain ⟨hp, hs⟩ := polygon_straight h
  obtain ⟨r, hr, -, -, h1, h2, -⟩ := C22_line_to hp ha hab
  exact ⟨r, hr, .lineTo h ha hab hr, h2, h1⟩

theorem polygon_contour {p : Path} (h : Polygon p) : Contour p := by
  induction h with
  | line h => exact .line h
  | lineTo _ ha hab hr ih => exact .lineTo ih ha hab hr

/-- **C67**, boxes: the meshes of the three surfaces that make up `Surface.box` cover them. -/
theorem C67_box_partial {p0 p1 : V3} (hx : p0.x ≠ p1.x) (hy : p0.y ≠ p1.y) (hz : p0.z ≠ p1.z) :
    ∃ ss, Surface.box p0 p1 = some ss ∧ ss.length = 3 ∧ ∀ s ∈ ss, Covered s := by
  have mx : min p0.x p1.x < max p0.x p1.x := min_lt_max.2 hx
  have my : min p0.y p1.y < max p0.y p1.y := min_lt_max.2 hy
  have mz : min p0.z p1.z < max p0.z p1.z := min_lt_max.2 hz
  unfold Surface.box
  generalize min p0.x p1.x = x0 at *
  generalize max p0.x p1.x = x1 at *
  generalize min p0.y p1.y = y0 at *
  generalize max p0.y p1.y = y1 at *
  generalize min p0.z p1.z = z0 at *
  generalize max p0.z p1.z = z1 at *
  have nx : ∀ y z : ℝ, (⟨x0, y, z⟩ : V3) ≠ ⟨x1, y, z⟩ := fun y z h => mx.ne (congrArg V3.x h)
  have nx' : ∀ y z : ℝ, (⟨x1, y, z⟩ : V3) ≠ ⟨x0, y, z⟩ := fun y z h => mx.ne' (congrArg V3.x h)
  have nz : ∀ x y : ℝ, (⟨x, y, z0⟩ : V3) ≠ ⟨x, y, z1⟩ := fun x y h => mz.ne (congrArg V3.z h)
  have nz' : ∀ x y : ℝ, (⟨x, y, z1⟩ : V3) ≠ ⟨x, y, z0⟩ := fun x y h => mz.ne' (congrArg V3.z h)
  obtain ⟨r1, h1, g1, e1, s1⟩ := polygon_lineTo (.line (nx y0 z0)) (line_end (nx y0 z0)) (nz x1 y0)
  obtain ⟨r2, h2, g2, e2, s2⟩ := polygon_lineTo g1 e1 (nx' y0 z1)
  obtain ⟨r3, h3, g3, e3, s3⟩ := polygon_lineTo g2 e2 (nz' x0 y0)
  have hc : r2.close = some r3 := by
    simp only [Path.close, s2, s1, line_start (nx y0 z0), Option.bind_eq_bind, Option.bind_some, h3]
  obtain ⟨top, ht, ct⟩ := C67_spanned_partial (nx y0 z1) (nx y0 z0) (Or.inl (nz' x0 y0))
  obtain ⟨bot, hb, cb⟩ := C67_spanned_partial (nx y1 z0) (nx y1 z1) (Or.inl (nz x0 y1))
  refine ⟨[top, bot, r3.extrude ⟨0, y1 - y0, 0⟩], ?_, rfl, ?_⟩
  · simp only [h1, h2, hc, ht, hb, Option.bind_eq_bind, Option.bind_some]; rfl
  · intro s hs
    simp only [List.mem_cons, List.not_mem_nil, or_false] at hs
    rcases hs with rfl | rfl | rfl
    · exact ct
    · exact cb
    · exact C67_extrude_partial (polygon_contour g3) (fun h => (sub_pos.2 my).ne' (congrArg V3.y h))

end Traceon
