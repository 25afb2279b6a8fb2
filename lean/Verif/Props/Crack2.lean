import Verif.Props.Crack
import Verif.Props.SurfaceMesh7
import Verif.Props.Pipeline5
import Verif.Props.Transform

/-!
# C101, continued: the finished mesh, cylinders, and surfaces with breakpoints
-/
namespace Traceon
open Spec V3 SMesh

theorem matches_eq {α : Type} {a b : List α} (h : Matches (fun p q => q = p) a b) : b = a := by
  apply List.ext_getElem?
  intro k
  by_cases hk : k < a.length
  · have hk' : k < b.length := by rw [← h.1]; exact hk
    rw [List.getElem?_eq_getElem hk, List.getElem?_eq_getElem hk']
    exact congrArg some (h.2 k _ _ (List.getElem?_eq_getElem hk) (List.getElem?_eq_getElem hk'))
  · rw [List.getElem?_eq_none (by rw [← h.1]; omega), List.getElem?_eq_none (by omega)]

theorem sameTri_mem {a b : List V3} (h : SameTri (realGeo id) a b) (x : V3) : x ∈ b ↔ x ∈ a := by
  have hs : ∀ a b : List V3, SameShape (realGeo id) a b → b = a := by
    intro a b h
    refine matches_eq ⟨h.1, fun k p q hp hq => ?_⟩
    have := h.2 k p q hp hq
    simpa [realGeo] using this
  rcases h with h | h
  · rw [hs _ _ h]
  · rw [hs _ _ h, mem_revTri]

/-- **C101** for flat surfaces, partial: what `Surface.mesh` returns for a rectangle or a parallelogram (up to the rounding of coordinates when
points are merged) has no cracks, for the default mesh size, any mesh size factor and any constant mesh size. -/
theorem C101_mesh_partial {s : Surface} {a b c : V3} (hf : ∀ u v, s.func u v = some (a + u * b + v * c)) (hbc : V3.cross b c ≠ 0)
    (h1 : 0 < s.length1) (h2 : 0 < s.length2) (hb1 : s.breaks1 = []) (hb2 : s.breaks2 = []) {size : Option (V3 → ℝ)} {factor : Option ℝ}
    (hsize : size = none ∨ ∃ ms > 0, size = some (fun _ => ms)) (hfac : ∀ f, factor = some f → 0 < f) (name : Option String) (ensure : Bool) :
    ∃ fuel0, ∀ fuel, fuel0 ≤ fuel → ∃ M, s.mesh (realGeo id) fuel size factor name ensure = some M ∧ Conforming3 (triShapes M) := by
  have hs : GoodSurface s := ⟨by simp [GoodBreaks, hb1, h1.le], by simp [GoodBreaks, hb2, h2.le], fun u v _ _ _ _ => by rw [hf]; rfl⟩
  have hn1 := norm_nonneg' b
  have hn2 := norm_nonneg' c
  have hl : LipschitzSurface s (V3.norm b + V3.norm c) := by
    constructor
    · intro u u' v p p' _ _ _ _ _ _ e1 e2
      rw [hf] at e1 e2
      cases e1; cases e2
      rw [flat_dist_i]
      nlinarith [abs_nonneg (u - u')]
    · intro u v v' p p' _ _ _ _ _ _ e1 e2
      rw [hf] at e1 e2
      cases e1; cases e2
      rw [flat_dist_j]
      nlinarith [abs_nonneg (v - v')]
  obtain ⟨ms, hms, e⟩ : ∃ ms > 0, s.meshSize size factor = fun _ => ms := by
    rcases hsize with rfl | ⟨ms, hms, rfl⟩
    · have h4 : 0 < min s.length1 s.length2 / 4 := by have := lt_min h1 h2; linarith
      cases factor with
      | none => exact ⟨_, h4, rfl⟩
      | some f => exact ⟨_, div_pos h4 (Real.sqrt_pos.2 (hfac f rfl)), rfl⟩
    · exact ⟨ms, hms, rfl⟩
  have hG := realGeo_lawful id
  obtain ⟨f0, hfin⟩ := C66_finishes hs (by linarith) hl hms (fun _ => le_refl ms) (name.or s.name) hG ensure
  refine ⟨f0, fun fuel hfu => ?_⟩
  obtain ⟨raw, M, r1, r2, -, -, r5, -⟩ := hfin fuel hfu
  have hconf := C101_flat_partial hf hbc h1 h2 hb1 hb2 r1
  obtain ⟨M', hM', r⟩ := Mesh.build_shapes hG raw r2 ensure
  rw [r5] at hM'; cases hM'
  refine ⟨M, by simp [Surface.mesh, e, r1, r5], ?_⟩
  have key : ∀ T ∈ triShapes M, ∃ T0 ∈ triShapes raw, ∀ x, x ∈ T ↔ x ∈ T0 := by
    intro T hT
    obtain ⟨T0, hT0, hsame⟩ := r.tris.mem_right hT
    exact ⟨T0, (List.mem_filter.1 hT0).1, sameTri_mem hsame⟩
  intro T hT T' hT' q hq r hr p hp
  obtain ⟨T0, hT0, e0⟩ := key T hT
  obtain ⟨T0', hT0', e0'⟩ := key T' hT'
  exact hconf T0 hT0 T0' hT0' q ((e0 q).1 hq) r ((e0 r).1 hr) p ((e0' p).1 hp)

/-- The hypotheses can be met: the 4 by 6 rectangle, with the defaults. -/
example : ∃ fuel0, ∀ fuel, fuel0 ≤ fuel → ∃ M, rect46.mesh (realGeo id) fuel none none (some "plate") true = some M ∧ Conforming3 (triShapes M) :=
  C101_mesh_partial (s := rect46) (a := 0) (b := ⟨1, 0, 0⟩) (c := ⟨0, 1, 0⟩) (fun _ _ => rfl)
    (fun h => by have := congrArg V3.z h; simp [V3.cross] at this) (by norm_num [rect46, flatSurface]) (by norm_num [rect46, flatSurface]) rfl rfl
    (Or.inl rfl) (by simp) _ _

/-! ## Cylinders -/

/-- The side of a cylinder (or a part of it), made by revolving a line parallel to the axis, is even. -/
theorem cylinder_even {a b : V3} (hx : a.x = b.x) (hy : a.y = b.y) (hz : a.z ≠ b.z) {rAvg : ℝ} (hr : 0 < rAvg) (angle : ℝ) :
    Even ((Path.line a b).revolveZ rAvg angle) (fun x => x) (fun x => Real.sqrt ((a.x ^ 2 + a.y ^ 2) * (2 - 2 * Real.cos (x / (2 * Real.pi * rAvg) * angle)))) := by
  have hl : V3.norm (a - b) = |a.z - b.z| := by
    unfold V3.norm V3.dot
    rw [← Real.sqrt_sq_eq_abs]
    congr 1
    simp [hx, hy]; ring
  have hl0 : V3.norm (a - b) ≠ 0 := by rw [hl]; exact abs_ne_zero.2 (sub_ne_zero.2 hz)
  have hq : ∀ u, (Path.line a b).func u = some (⟨a.x, a.y, (1 - u / V3.norm (a - b)) * a.z + u / V3.norm (a - b) * b.z⟩ : V3) := by
    intro u
    simp only [Path.line, safeDiv, hl0, if_false, Option.map_some, Option.some.injEq]
    ext <;> simp [← hx, ← hy] <;> ring
  have hfun : ∀ u v, ((Path.line a b).revolveZ rAvg angle).func u v
      = some (rotC 2 (v / (2 * Real.pi * rAvg) * angle) 0 ⟨a.x, a.y, (1 - u / V3.norm (a - b)) * a.z + u / V3.norm (a - b) * b.z⟩) :=
    fun u v => revolveZ_func _ hr.ne' angle u v (hq u)
  constructor
  · intro u u' v p p' _ _ _ _ _ _ e1 e2
    rw [hfun] at e1 e2
    cases e1; cases e2
    have habs : 0 < V3.norm (a - b) := lt_of_le_of_ne (Real.sqrt_nonneg _) hl0.symm
    have e : ∀ α : ℝ, Spec.dist (rotC 2 α 0 ⟨a.x, a.y, (1 - u / V3.norm (a - b)) * a.z + u / V3.norm (a - b) * b.z⟩)
        (rotC 2 α 0 ⟨a.x, a.y, (1 - u' / V3.norm (a - b)) * a.z + u' / V3.norm (a - b) * b.z⟩)
        = |(u - u') / V3.norm (a - b) * (b.z - a.z)| := by
      intro α
      unfold Spec.dist V3.norm V3.dot
      rw [← Real.sqrt_sq_eq_abs]
      congr 1
      simp [rotC]; ring
    rw [e, abs_mul, abs_div, abs_of_pos habs, abs_sub_comm b.z a.z, ← hl]
    field_simp
  · intro u v v' p p' _ _ _ _ _ _ e1 e2
    rw [hfun] at e1 e2
    cases e1; cases e2
    unfold Spec.dist V3.norm V3.dot
    have hc : Real.cos (|v - v'| / (2 * Real.pi * rAvg) * angle) = Real.cos (v / (2 * Real.pi * rAvg) * angle - v' / (2 * Real.pi * rAvg) * angle) := by
      rcases abs_choice (v - v') with h | h
      · rw [h]; congr 1; ring
      · rw [h, ← Real.cos_neg]; congr 1; ring
    congr 1
    rw [hc, Real.cos_sub]
    generalize v / (2 * Real.pi * rAvg) * angle = α
    generalize v' / (2 * Real.pi * rAvg) * angle = β
    simp only [rotC, V3.sub_x, V3.sub_y, V3.sub_z, V3.add_x, V3.add_y, V3.add_z, V3.zero_x, V3.zero_y, V3.zero_z]
    linear_combination (a.x ^ 2 + a.y ^ 2) * Real.sin_sq_add_cos_sq α + (a.x ^ 2 + a.y ^ 2) * Real.sin_sq_add_cos_sq β

/-- **C101** for the side of a cylinder (`Path.line(a, b).revolve_z(angle)` with the line parallel to the axis), partial: for a constant mesh size there are no cracks. -/
theorem C101_cylinder_partial {a b : V3} (hx : a.x = b.x) (hy : a.y = b.y) (hz : a.z ≠ b.z) {rAvg : ℝ} (hr : 0 < rAvg) (angle : ℝ)
    {ms : ℝ} {fuel : ℕ} {name : Option String} {mesh : Mesh V3} (h : ((Path.line a b).revolveZ rAvg angle).rawMesh (fun _ => ms) fuel name = some mesh) :
    ∃ tris : List Tri2, Matches (MeshTriangle ((Path.line a b).revolveZ rAvg angle) mesh) mesh.triangles tris ∧ Conforming2 tris := by
  have hl : 0 < V3.norm (a - b) := by
    refine lt_of_le_of_ne (Real.sqrt_nonneg _) (fun h => hz ?_)
    have h0 := (Real.sqrt_eq_zero (V3.dot_self_nonneg _)).1 h.symm
    simp only [V3.dot, V3.sub_x, V3.sub_y, V3.sub_z] at h0
    have : (a.z - b.z) ^ 2 = 0 := by nlinarith [sq_nonneg (a.x - b.x), sq_nonneg (a.y - b.y), sq_nonneg (a.z - b.z)]
    exact sub_eq_zero.1 (pow_eq_zero_iff (two_ne_zero) |>.1 this)
  have h2 : 0 < ((Path.line a b).revolveZ rAvg angle).length2 := by
    have := Real.pi_pos
    simp only [Path.revolveZ]; positivity
  have hs : GoodSurface ((Path.line a b).revolveZ rAvg angle) := by
    refine ⟨?_, ?_, fun u v _ _ _ _ => ?_⟩
    · simp [GoodBreaks, Path.revolveZ, Path.line]; exact hl.le
    · have := h2.le
      simp only [GoodBreaks, Path.revolveZ] at this ⊢
      simpa using this
    · obtain ⟨q, hq⟩ : ∃ q, (Path.line a b).func u = some q := by simp [Path.line, safeDiv, hl.ne']
      rw [revolveZ_func _ hr.ne' angle u v hq]; rfl
  obtain ⟨tris, h3, h4, -⟩ := C101_partial hs (by exact hl) h2 rfl rfl (cylinder_even hx hy hz hr angle) h
  exact ⟨tris, h3, h4⟩

/-! ## Breakpoints -/

/-- squared distance -/
def sqd (a b : ℚ × ℚ) : ℚ := (a.1 - b.1) ^ 2 + (a.2 - b.2) ^ 2

/-- the decision of the mesher for points of the plane z = 0 with rational coordinates -/
def splitRat (ms : ℚ) (p1 p2 p3 p4 : ℚ × ℚ) : Bool × Bool :=
  let hor := max (sqd p1 p2) (sqd p3 p4)
  let ver := max (sqd p1 p3) (sqd p2 p4)
  (decide (hor > ms ^ 2 ∨ (4 * hor > 25 * ver ∧ 64 * hor > ms ^ 2)), decide (ver > ms ^ 2 ∨ (4 * ver > 25 * hor ∧ 64 * ver > ms ^ 2)))

/-- a point of the plane z = 0 -/
noncomputable def ratPoint (p : ℚ × ℚ) : V3 := ⟨p.1, p.2, 0⟩

theorem norm_ratPoint (p q : ℚ × ℚ) : V3.norm (ratPoint p - ratPoint q) = Real.sqrt ((sqd p q : ℚ) : ℝ) := by
  unfold V3.norm
  congr 1
  simp [V3.dot, ratPoint, sqd]; ring

theorem max_sqrt {x y : ℝ} : max (Real.sqrt x) (Real.sqrt y) = Real.sqrt (max x y) := by
  rcases le_total x y with h | h
  · rw [max_eq_right h, max_eq_right (Real.sqrt_le_sqrt h)]
  · rw [max_eq_left h, max_eq_left (Real.sqrt_le_sqrt h)]

theorem splitRat_real {ms : ℚ} (hms : 0 ≤ ms) (a b c d : ℚ × ℚ) :
    splitReal (fun _ => (ms : ℝ)) (ratPoint a) (ratPoint b) (ratPoint c) (ratPoint d) = splitRat ms a b c d := by
  have hm : (0 : ℝ) ≤ ms := by exact_mod_cast hms
  have nn : ∀ p q, (0 : ℚ) ≤ sqd p q := by intro p q; unfold sqd; positivity
  have h1 : horizontalSize (ratPoint a) (ratPoint b) (ratPoint c) (ratPoint d) = Real.sqrt ((max (sqd a b) (sqd c d) : ℚ) : ℝ) := by
    unfold horizontalSize
    rw [norm_ratPoint, norm_ratPoint, max_sqrt, Rat.cast_max]
  have h2 : verticalSize (ratPoint a) (ratPoint b) (ratPoint c) (ratPoint d) = Real.sqrt ((max (sqd a c) (sqd b d) : ℚ) : ℝ) := by
    unfold verticalSize
    rw [norm_ratPoint, norm_ratPoint, max_sqrt, Rat.cast_max]
  simp only [splitReal, splitRat, h1, h2]
  have n1 : (0 : ℚ) ≤ max (sqd a b) (sqd c d) := le_max_of_le_left (nn _ _)
  have n2 : (0 : ℚ) ≤ max (sqd a c) (sqd b d) := le_max_of_le_left (nn _ _)
  generalize max (sqd a b) (sqd c d) = H at n1
  generalize max (sqd a c) (sqd b d) = V at n2
  have g1 : ∀ {x : ℚ} {k : ℚ}, 0 ≤ x → 0 ≤ k → (Real.sqrt (x : ℝ) > (k : ℝ) * ms ↔ x > (k * ms) ^ 2) := by
    intro x k hx hk
    have : (0 : ℝ) ≤ (k : ℝ) * ms := by have : (0 : ℝ) ≤ k := by exact_mod_cast hk
                                        positivity
    rw [gt_iff_lt, Real.lt_sqrt this]
    constructor <;> intro h <;> exact_mod_cast h
  have g2 : ∀ {x y : ℚ}, 0 ≤ x → 0 ≤ y → (Real.sqrt (x : ℝ) > 2.5 * Real.sqrt (y : ℝ) ↔ 4 * x > 25 * y) := by
    intro x y hx hy
    have hy' : (0 : ℝ) ≤ y := by exact_mod_cast hy
    rw [gt_iff_lt, Real.lt_sqrt (by positivity), mul_pow, Real.sq_sqrt hy']
    constructor
    · intro h
      have : (25 : ℝ) * y < 4 * x := by norm_num at h; linarith
      exact_mod_cast this
    · intro h
      have : (25 : ℝ) * y < 4 * x := by exact_mod_cast h
      norm_num; linarith
  have g3 : ∀ {x : ℚ}, 0 ≤ x → (Real.sqrt (x : ℝ) > (ms : ℝ) ↔ x > ms ^ 2) := by
    intro x hx
    have := g1 (k := 1) hx (by norm_num)
    simpa using this
  have g4 : ∀ {x : ℚ}, 0 ≤ x → (Real.sqrt (x : ℝ) > 1 / 8 * (ms : ℝ) ↔ 64 * x > ms ^ 2) := by
    intro x hx
    have := g1 (k := 1 / 8) hx (by norm_num)
    push_cast at this
    rw [this]
    constructor <;> intro h <;> nlinarith
  simp only [g2 n1 n2, g2 n2 n1, g3 n1, g3 n2, g4 n1, g4 n2]

/-- the grid points of the two sections of the strip -/
def stripSecs : List (ℕ → ℕ → ℕ → Option (ℚ × ℚ)) :=
  [fun d i j => some (1 / 2 ^ d * i, 8 / 2 ^ d * j), fun d i j => some (1 + 8 / 2 ^ d * i, 8 / 2 ^ d * j)]

/-- A flat rectangle of 9 by 8, in two sections of 1 by 8 and 8 by 8. It is what extruding a path of two lines, from 0 to 1 and from 1 to 9, by 8 gives. -/
noncomputable def strip : Surface := { flatSurface 0 ⟨1, 0, 0⟩ ⟨0, 1, 0⟩ 9 8 with breaks1 := [1] }

theorem strip_sections : strip.sections.map Surface.gridPoint = stripSecs.map (mapPt ratPoint) := by
  rw [sections_single2 rfl]
  have h1 : (9 : ℝ) - 1 = 8 := by norm_num
  simp only [strip, flatSurface, Surface.pairs, List.cons_append, List.nil_append, List.tail_cons, List.zip_cons_cons, List.zip_nil_right,
    List.map_cons, List.map_nil, stripSecs, List.cons.injEq, and_true]
  refine ⟨?_, ?_⟩ <;> funext d i j <;> simp only [mapPt, Option.map_some, Option.some.injEq, ratPoint, h1] <;> ext <;> simp

/-- evaluation of the mesher on rational points -/
theorem strip_eval : (rawMesh (splitRat 4) 20 2 stripSecs 2 1 none).map (fun m => decide (
    (∃ t ∈ m.triangles, t.map (fun k => m.points[k]?) = [some (1, 0), some (1, 1), some (3, 0)]) ∧
    ∃ t ∈ m.triangles, some (1, 1 / 2) ∈ t.map (fun k => m.points[k]?))) = some true := by
  decide +kernel

/-- **C101 is false** for surfaces with breakpoints: the mesh, with mesh size 4, of a rectangle of two sections has a triangle with the corners `(1, 0)`, `(1, 1)` and `(3, 0)`,
and on the edge between the first two, which is on the border of the two sections, `(1, 1/2)` is a corner of a triangle of the other section. -/
theorem C101_refuted : GoodSurface strip ∧ ∃ mesh, strip.rawMesh (fun _ => 4) 20 none = some mesh ∧
    [⟨1, 0, 0⟩, ⟨1, 1, 0⟩, ⟨3, 0, 0⟩] ∈ triShapes mesh ∧ (∃ T ∈ triShapes mesh, ⟨1, 1 / 2, 0⟩ ∈ T) ∧ ¬ Conforming3 (triShapes mesh) := by
  refine ⟨⟨by norm_num [GoodBreaks, strip, flatSurface], by norm_num [GoodBreaks, strip, flatSurface], fun _ _ _ _ _ _ => rfl⟩, ?_⟩
  obtain ⟨m, hm, hb⟩ := Option.map_eq_some_iff.1 strip_eval
  obtain ⟨⟨t, ht, et⟩, t', ht', et'⟩ := of_decide_eq_true hb
  have hmap := rawMesh_map ratPoint (split' := splitReal (fun _ => (4 : ℝ))) (fun a b c d => by
    have := splitRat_real (ms := 4) (by norm_num) a b c d
    simpa using this) 20 2 stripSecs 2 1 none hm
  rw [← strip_sections] at hmap
  have hc : ∀ t : List ℕ, coords (m.points.map ratPoint) t = (t.map (fun k => m.points[k]?)).filterMap (Option.map ratPoint) := by
    intro t
    unfold coords
    rw [List.filterMap_map]
    apply List.filterMap_congr
    intro k _
    simp
  have s1 : [(⟨1, 0, 0⟩ : V3), ⟨1, 1, 0⟩, ⟨3, 0, 0⟩] ∈ triShapes ({ points := m.points.map ratPoint, lines := m.lines, triangles := m.triangles, physLines := m.physLines, physTris := m.physTris } : Mesh V3) := by
    refine List.mem_map.2 ⟨t, ht, ?_⟩
    rw [hc, et]
    simp [ratPoint]
  have s2 : ∃ T ∈ triShapes ({ points := m.points.map ratPoint, lines := m.lines, triangles := m.triangles, physLines := m.physLines, physTris := m.physTris } : Mesh V3), (⟨1, 1 / 2, 0⟩ : V3) ∈ T := by
    refine ⟨_, List.mem_map.2 ⟨t', ht', rfl⟩, ?_⟩
    simp only
    rw [hc]
    refine List.mem_filterMap.2 ⟨_, et', ?_⟩
    simp [ratPoint]
  refine ⟨_, hmap, s1, s2, fun hconf => ?_⟩
  obtain ⟨T, hT, hp⟩ := s2
  refine hconf _ s1 T hT ⟨1, 0, 0⟩ (by simp) ⟨1, 1, 0⟩ (by simp) _ hp ⟨?_, ?_, 1 / 2, by norm_num, by norm_num, ?_⟩
  · intro h; have := congrArg V3.y h; norm_num at this
  · intro h; have := congrArg V3.y h; norm_num at this
  · ext <;> simp

end Traceon
