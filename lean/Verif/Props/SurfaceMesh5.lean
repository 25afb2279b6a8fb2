import Verif.Props.SurfaceMesh4

/-!
# C19 is false for surfaces with breakpoints along both parameters
-/
namespace Traceon
open Spec V3 SMesh

/-- keep a coordinate between 0 and 2 -/
noncomputable def clamp2 (x : ℝ) : ℝ := max 0 (min 2 x)

/-- The flat square `[0,2] × [0,2]` in the plane z = 0, divided in four by a breakpoint along each of its parameters. -/
noncomputable def square22 : Surface :=
  { func := fun u v => some ⟨clamp2 u, clamp2 v, 0⟩, length1 := 2, length2 := 2, breaks1 := [1], breaks2 := [1] }

theorem clamp2_of {x : ℝ} (h0 : 0 ≤ x) (h1 : x ≤ 2) : clamp2 x = x := by
  unfold clamp2; rw [min_eq_right h1, max_eq_right h0]

theorem clamp2_bounds (x : ℝ) : 0 ≤ clamp2 x ∧ clamp2 x ≤ 2 := by
  unfold clamp2
  exact ⟨le_max_left _ _, max_le (by norm_num) (min_le_left _ _)⟩

/-- names for the grid points of the four sections -/
def toks : List (ℕ → ℕ → ℕ → Option (ℕ × ℕ × ℕ × ℕ)) := (List.range 4).map (fun k d i j => some (k, d, i, j))

/-- the point with a name -/
noncomputable def tokPoint (t : ℕ × ℕ × ℕ × ℕ) : V3 :=
  ⟨clamp2 (((t.1 / 2 : ℕ) : ℝ) + 1 / 2 ^ t.2.1 * t.2.2.1), clamp2 (((t.1 % 2 : ℕ) : ℝ) + 1 / 2 ^ t.2.1 * t.2.2.2), 0⟩

theorem square22_sections : square22.sections.map Surface.gridPoint = toks.map (mapPt tokPoint) := by
  have h1 : (2 : ℝ) - 1 = 1 := by norm_num
  simp only [toks, List.range, List.range.loop, List.map_cons, List.map_nil]
  simp only [Surface.sections, square22, Surface.pairs, List.cons_append, List.nil_append, List.tail_cons,
    List.zip_cons_cons, List.zip_nil_right, List.flatMap_cons, List.flatMap_nil, List.map_cons, List.map_nil, List.append_nil,
    List.cons_append]
  simp only [List.cons.injEq, and_true]
  refine ⟨?_, ?_, ?_, ?_⟩ <;> funext d i j <;> simp [Surface.gridPoint, mapPt, tokPoint, h1]

theorem near_dist {p q : V3} (h1 : 0 ≤ p.x) (h2 : p.x ≤ 2) (h3 : 0 ≤ p.y) (h4 : p.y ≤ 2) (h5 : p.z = 0)
    (g1 : 0 ≤ q.x) (g2 : q.x ≤ 2) (g3 : 0 ≤ q.y) (g4 : q.y ≤ 2) (g5 : q.z = 0) : V3.norm (p - q) ≤ 3 := by
  unfold V3.norm
  rw [show (3 : ℝ) = Real.sqrt (3 ^ 2) by rw [Real.sqrt_sq]; norm_num]
  apply Real.sqrt_le_sqrt
  simp only [V3.dot, V3.sub_x, V3.sub_y, V3.sub_z, h5, g5]
  nlinarith

theorem tok_split (a b c d : ℕ × ℕ × ℕ × ℕ) : splitReal (fun _ => 100) (tokPoint a) (tokPoint b) (tokPoint c) (tokPoint d) = (false, false) := by
  have hd : ∀ x y, V3.norm (tokPoint x - tokPoint y) ≤ 3 := fun x y =>
    near_dist (clamp2_bounds _).1 (clamp2_bounds _).2 (clamp2_bounds _).1 (clamp2_bounds _).2 rfl
      (clamp2_bounds _).1 (clamp2_bounds _).2 (clamp2_bounds _).1 (clamp2_bounds _).2 rfl
  have hh : horizontalSize (tokPoint a) (tokPoint b) (tokPoint c) (tokPoint d) ≤ 3 := max_le (hd _ _) (hd _ _)
  have hv : verticalSize (tokPoint a) (tokPoint b) (tokPoint c) (tokPoint d) ≤ 3 := max_le (hd _ _) (hd _ _)
  simp only [splitReal, Prod.mk.injEq, decide_eq_false_iff_not, not_or, not_and, not_lt, gt_iff_lt]
  exact ⟨⟨by linarith, fun _ => by linarith⟩, ⟨by linarith, fun _ => by linarith⟩⟩

/-- evaluation of the mesher on the names -/
theorem tok_mesh : (rawMesh (fun _ _ _ _ => (false, false)) 1 2 toks 2 2 none).map (fun m => decide (∃ t ∈ m.triangles,
    t.map (fun k => m.points[k]?) = [some (0, 2, 3, 0), some (0, 2, 3, 1), some (1, 2, 0, 1)])) = some true := by
  decide +kernel

/-- **C19 is false**: the mesh of the square `[0,2] × [0,2]` with a breakpoint at 1 along both parameters has a triangle with corners
`(3/4, 0)`, `(3/4, 1/4)` and `(0, 5/4)`: these are not points of one section (the third is not even near the edge that the first section
shares with its neighbours in the first direction, where it should have been `(1, 1/4)`). -/
theorem C19_refuted : GoodSurface square22 ∧ (∀ u v, 0 ≤ u → u ≤ 2 → 0 ≤ v → v ≤ 2 → square22.func u v = some ⟨u, v, 0⟩) ∧
    ∃ mesh, square22.rawMesh (fun _ => 100) 1 none = some mesh ∧
      ∃ t ∈ mesh.triangles, t.map (fun k => mesh.points[k]?) = [some ⟨3 / 4, 0, 0⟩, some ⟨3 / 4, 1 / 4, 0⟩, some ⟨0, 5 / 4, 0⟩] ∧
        ¬ ∃ uu ∈ Surface.pairs (0 :: square22.breaks1 ++ [square22.length1]), ∃ vv ∈ Surface.pairs (0 :: square22.breaks2 ++ [square22.length2]),
          ∀ k ∈ t, ∃ u v p, uu.1 ≤ u ∧ u ≤ uu.2 ∧ vv.1 ≤ v ∧ v ≤ vv.2 ∧ mesh.points[k]? = some p ∧ square22.func u v = some p := by
  refine ⟨⟨by simp [GoodBreaks, square22], by simp [GoodBreaks, square22], fun _ _ _ _ _ _ => rfl⟩, fun u v h1 h2 h3 h4 => ?_, ?_⟩
  · simp only [square22, clamp2_of h1 h2, clamp2_of h3 h4]
  · obtain ⟨m, hm, hb⟩ := Option.map_eq_some_iff.1 tok_mesh
    obtain ⟨t, ht, he⟩ := of_decide_eq_true hb
    have hmap := rawMesh_map tokPoint (split' := splitReal (fun _ => 100)) tok_split 1 2 toks 2 2 none hm
    rw [← square22_sections] at hmap
    refine ⟨_, hmap, t, ht, ?_⟩
    have hpts : t.map (fun k => (m.points.map tokPoint)[k]?) = [some ⟨3 / 4, 0, 0⟩, some ⟨3 / 4, 1 / 4, 0⟩, some ⟨0, 5 / 4, 0⟩] := by
      have : t.map (fun k => (m.points.map tokPoint)[k]?) = (t.map (fun k => m.points[k]?)).map (Option.map tokPoint) := by
        rw [List.map_map]
        apply List.map_congr_left
        intro k _
        simp
      rw [this, he]
      simp only [List.map_cons, List.map_nil, Option.map_some, tokPoint]
      rw [clamp2_of (by norm_num) (by norm_num), clamp2_of (by norm_num) (by norm_num), clamp2_of (by norm_num) (by norm_num),
        clamp2_of (by norm_num) (by norm_num)]
      norm_num
    refine ⟨hpts, ?_⟩
    rintro ⟨uu, hu, vv, hv, hk⟩
    have hlen := congrArg List.length he
    simp only [List.length_map, List.length_cons, List.length_nil] at hlen
    match t, hlen, hpts with
    | [a, b, c], _, hpts =>
      simp only [List.map_cons, List.map_nil, List.cons.injEq, and_true] at hpts
      obtain ⟨p1, p2, p3⟩ := hpts
      obtain ⟨u, v, p, k1, k2, k3, k4, k5, k6⟩ := hk a (by simp)
      obtain ⟨u', v', p', l1, l2, l3, l4, l5, l6⟩ := hk c (by simp)
      simp only at k5 l5
      rw [p1] at k5
      rw [p3] at l5
      cases k5
      cases l5
      simp only [square22, Surface.pairs, List.cons_append, List.nil_append, List.tail_cons, List.zip_cons_cons, List.zip_nil_right,
        List.mem_cons, List.not_mem_nil, or_false] at hu hv
      simp only [square22, Option.some.injEq, V3.mk.injEq, and_true] at k6 l6
      have c1 : 0 ≤ v := by rcases hv with rfl | rfl <;> simp at k3 <;> linarith
      have c2 : v ≤ 2 := by rcases hv with rfl | rfl <;> simp at k4 <;> linarith
      have c3 : 0 ≤ v' := by rcases hv with rfl | rfl <;> simp at l3 <;> linarith
      have c4 : v' ≤ 2 := by rcases hv with rfl | rfl <;> simp at l4 <;> linarith
      rw [clamp2_of c1 c2] at k6
      rw [clamp2_of c3 c4] at l6
      rcases hv with rfl | rfl
      · simp only at l4; linarith [l6.2]
      · simp only at k3; linarith [k6.2]

end Traceon
