import Verif.Props.Plot5
import Verif.Props.Triangle
import Verif.Props.Arcs

/-!
# C95: the plotted normals
-/
namespace Traceon
open Spec Plotting

theorem add_sub_self_left (a b : V3) : a + b - a = b := by ext <;> simp

theorem triangleArrow_normal {t : Tri3} (h : V3.cross (t.v1 - t.v0) (t.v2 - t.v0) ≠ 0) : IsTriangleNormal t (triangleArrow t) := by
  set c := V3.cross (t.v1 - t.v0) (t.v2 - t.v0) with hc
  have hn : 0 < V3.norm c := V3.norm_pos h
  set s := Real.sqrt (4 * (1 / 2 * V3.norm c) / Real.sqrt 3) with hs
  have h3 : (0 : ℝ) < Real.sqrt 3 := by positivity
  have hs0 : 0 < s := Real.sqrt_pos.2 (by positivity)
  have hd : (triangleArrow t).2 - (triangleArrow t).1 = (0.75 * s) * V3.unit c := by
    exact add_sub_self_left _ _
  refine ⟨?_, ?_, ?_, s, hs0.le, ?_, ?_⟩
  · unfold triangleArrow centroid
    ext <;> simp <;> ring
  · rw [hd]
    constructor <;>
    · simp only [hc, V3.unit, V3.dot, V3.cross, V3.smul_x, V3.smul_y, V3.smul_z, V3.sub_x, V3.sub_y, V3.sub_z]
      ring
  · rw [hd]
    have e : V3.dot ((0.75 * s) * V3.unit c) c = 0.75 * s * V3.norm c := by
      have h1 : V3.dot ((0.75 * s) * V3.unit c) c = 0.75 * s * V3.dot (V3.unit c) c := by simp only [V3.dot, V3.smul_x, V3.smul_y, V3.smul_z]; ring
      rw [h1, dot_unit_left]
      have : V3.dot c c = V3.norm c * V3.norm c := (Real.mul_self_sqrt (V3.dot_self_nonneg c)).symm
      rw [this]
      field_simp
    rw [e]
    positivity
  · rw [hs, Real.sq_sqrt (by positivity)]
    rw [← hc]
    field_simp
  · rw [hd, norm_smul', abs_of_pos (by positivity)]
    have : V3.norm (V3.unit c) = 1 := by unfold V3.norm; rw [V3.dot_unit_self h, Real.sqrt_one]
    rw [this]; norm_num

theorem lineArrow_normal {l : V3 × V3} (h : l.1.x ≠ l.2.x ∨ l.1.z ≠ l.2.z) : IsLineNormal l (lineArrow l) := by
  obtain ⟨a, b⟩ := l
  set dx := b.x - a.x with hdx
  set dz := b.z - a.z with hdz
  have hpos : 0 < dz * dz + (-dx) * (-dx) := by
    rcases h with h | h
    · have : dx ≠ 0 := sub_ne_zero.2 (Ne.symm h)
      nlinarith [mul_self_pos.2 this, mul_self_nonneg dz]
    · have : dz ≠ 0 := sub_ne_zero.2 (Ne.symm h)
      nlinarith [mul_self_pos.2 this, mul_self_nonneg dx]
  set len := Real.sqrt (dz * dz + (-dx) * (-dx)) with hlen
  have hl : 0 < len := Real.sqrt_pos.2 hpos
  have hll : len * len = dz * dz + dx * dx := by rw [hlen, Real.mul_self_sqrt hpos.le]; ring
  set L := V3.norm (b - a) with hL
  have hL0 : 0 < L := V3.norm_pos (fun h0 => by
    have h1 := congrArg V3.x h0
    have h2 := congrArg V3.z h0
    rw [V3.sub_x, V3.zero_x] at h1
    rw [V3.sub_z, V3.zero_z] at h2
    rcases h with h | h
    · exact h (by show a.x = b.x; linarith)
    · exact h (by show a.z = b.z; linarith))
  have hd : (lineArrow (a, b)).2 - (lineArrow (a, b)).1 = (3 * L) * (⟨dz / len, 0, -dx / len⟩ : V3) := by
    exact add_sub_self_left _ _
  refine ⟨?_, ⟨?_, ?_⟩, ?_, ?_⟩
  · unfold lineArrow
    ext <;> simp <;> ring
  · rw [hd]
    show V3.dot _ (b - a) = 0
    simp only [V3.dot, V3.smul_x, V3.smul_y, V3.smul_z, V3.sub_x, V3.sub_y, V3.sub_z, ← hdx, ← hdz]
    ring
  · rw [hd]; simp
  · rw [hd]
    show 0 < _ * dz - _ * dx
    simp only [V3.smul_x, V3.smul_z]
    have : 3 * L * (dz / len) * dz - 3 * L * (-dx / len) * dx = 3 * L * (len * len) / len := by rw [hll]; ring
    rw [this]
    positivity
  · rw [hd, norm_smul', abs_of_pos (by positivity)]
    have : V3.norm (⟨dz / len, 0, -dx / len⟩ : V3) = 1 := by
      unfold V3.norm V3.dot
      have : dz / len * (dz / len) + 0 * 0 + -dx / len * (-dx / len) = (dz * dz + dx * dx) / (len * len) := by field_simp; ring
      show Real.sqrt (dz / len * (dz / len) + 0 * 0 + -dx / len * (-dx / len)) = 1
      rw [this, ← hll, div_self (by positivity), Real.sqrt_one]
    rw [this, mul_one]

/-- C95: with `show_normals` the figure has one arrow for every triangle and one for every line of the mesh, in order: the normal of the triangle (unless its area is zero), and that of the line (unless it has no
extent in the xz-plane). -/
theorem C95_normals {order : List String → List String} (ho : IsSetOrder order) {m : Mesh V3} (hv : Valid m) (colours : Dict String) (f : Figure) (hne : ¬(m.triangles = [] ∧ m.lines = [])) :
    ∃ (f' : Figure) (new : List (List Shape)) (as bs : List (V3 × V3)), f.plotMesh order m true colours = some f' ∧ f'.toPlot = f.toPlot ++ new ∧ arrowsIn new.flatten = as ++ bs ∧
      as.length = m.triangles.length ∧ bs.length = m.lines.length ∧
      (∀ (i : Nat) a, as[i]? = some a → ∃ t, TriangleShown m i t ∧ (V3.cross (t.v1 - t.v0) (t.v2 - t.v0) ≠ 0 → IsTriangleNormal t a)) ∧
      ∀ (i : Nat) b, bs[i]? = some b → ∃ l, LineShown m i l ∧ (l.1.x ≠ l.2.x ∨ l.1.z ≠ l.2.z → IsLineNormal l b) := by
  obtain ⟨d, ts, ls, f', new, leg, h1, h2, h3, h4, h5, h6, h7, h8, h9, h10, h11, -⟩ := plotMesh_spec ho hv true colours f hne
  refine ⟨f', new, ts.map triangleArrow, ls.map lineArrow, h1, h5, h11, ?_, ?_, ?_, ?_⟩
  · rw [List.length_map, mapM_length h3]
  · rw [List.length_map, mapM_length h4]
  · intro i a hi
    rw [List.getElem?_map, Option.map_eq_some_iff] at hi
    obtain ⟨t, ht, rfl⟩ := hi
    exact ⟨t, triVerts_shown h3 ht, triangleArrow_normal⟩
  · intro i a hi
    rw [List.getElem?_map, Option.map_eq_some_iff] at hi
    obtain ⟨t, ht, rfl⟩ := hi
    exact ⟨t, lineEnds_shown h4 ht, lineArrow_normal⟩

/-- C95: without `show_normals` plotting a mesh draws no arrows. -/
theorem C95_none {order : List String → List String} (ho : IsSetOrder order) {m : Mesh V3} (hv : Valid m) (colours : Dict String) (f : Figure) (hne : ¬(m.triangles = [] ∧ m.lines = [])) :
    ∃ (f' : Figure) (new : List (List Shape)), f.plotMesh order m false colours = some f' ∧ f'.toPlot = f.toPlot ++ new ∧ arrowsIn new.flatten = [] := by
  obtain ⟨d, ts, ls, f', new, leg, h1, h2, h3, h4, h5, h6, h7, h8, h9, h10, h11, -⟩ := plotMesh_spec ho hv false colours f hne
  exact ⟨f', new, h1, h5, h11⟩

/-- The normals of `plotFree` (lines in the xy-plane, of which the second leads off the x-axis): the triangle's points along z, and that of the first line down the z-axis, whose length is three times that of the line. -/
theorem C95_example {order : List String → List String} (ho : IsSetOrder order) : ∃ (f' : Figure) (new : List (List Shape)) (a b c : V3 × V3), Figure.plotMesh order plotFree true [] {} = some f' ∧ f'.toPlot = new ∧
    arrowsIn new.flatten = [a, b, c] ∧ IsTriangleNormal ⟨⟨0, 0, 0⟩, ⟨1, 0, 0⟩, ⟨0, 1, 0⟩⟩ a ∧ IsLineNormal (⟨0, 0, 0⟩, ⟨1, 0, 0⟩) b ∧ IsLineNormal (⟨1, 0, 0⟩, ⟨0, 1, 0⟩) c := by
  obtain ⟨d, ts, ls, f', new, leg, h1, h2, h3, h4, h5, h6, h7, h8, h9, h10, h11, -⟩ := plotMesh_spec ho plotFree_valid true [] {} (by simp [plotFree])
  cases h3
  cases h4
  refine ⟨f', new, _, _, _, h1, by rw [h5]; rfl, h11, triangleArrow_normal ?_, lineArrow_normal ?_, lineArrow_normal ?_⟩
  · intro h
    have := congrArg V3.z h
    norm_num [V3.cross] at this
  · left; norm_num
  · left; norm_num

end Traceon
