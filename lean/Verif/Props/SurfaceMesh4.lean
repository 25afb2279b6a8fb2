import Verif.Props.SurfaceMesh3

/-!
# Theorems about the surface mesher: C19 (joining sections), C67 (the mesh covers the surface)
-/
namespace Traceon
open Spec V3 SMesh

/-! ## C19 -/

theorem sections_single2 {s : Surface} (h : s.breaks2 = []) : s.sections.map Surface.gridPoint
    = (Surface.pairs (0 :: s.breaks1 ++ [s.length1])).map (fun uu d i j =>
        s.func (uu.1 + (uu.2 - uu.1) / 2 ^ d * (i : ℕ)) (0 + (s.length2 - 0) / 2 ^ d * (j : ℕ))) := by
  unfold Surface.sections
  rw [h]
  have : Surface.pairs (0 :: [] ++ [s.length2]) = [(0, s.length2)] := rfl
  rw [this]
  simp only [List.map_cons, List.map_nil, List.map_flatMap]
  rw [← List.map_eq_flatMap]
  rfl

theorem sections_single1 {s : Surface} (h : s.breaks1 = []) : s.sections.map Surface.gridPoint
    = (Surface.pairs (0 :: s.breaks2 ++ [s.length2])).map (fun vv d i j =>
        s.func (0 + (s.length1 - 0) / 2 ^ d * (i : ℕ)) (vv.1 + (vv.2 - vv.1) / 2 ^ d * (j : ℕ))) := by
  unfold Surface.sections
  rw [h]
  have : Surface.pairs (0 :: [] ++ [s.length1]) = [(0, s.length1)] := rfl
  rw [this]
  simp only [List.flatMap_cons, List.flatMap_nil, List.append_nil, List.map_map]
  rfl

theorem grid_end (a b : ℝ) (d : ℕ) : a + (b - a) / 2 ^ d * ((2 ^ d : ℕ) : ℝ) = b := by
  have h2 : (0 : ℝ) < 2 ^ d := by positivity
  push_cast
  rw [div_mul_cancel₀ _ h2.ne']; ring

/-- Sections along one parameter only: the edges that are joined are the same curve. -/
theorem adjacent_ok {s : Surface} (h : s.breaks1 = [] ∨ s.breaks2 = []) :
    AdjacentOk (s.sections.map Surface.gridPoint) (s.breaks1.length + 1) (s.breaks2.length + 1) := by
  rcases h with h | h
  · rw [sections_single1 h, h]
    refine ⟨fun ab hab => by simp [rowPairs] at hab, fun ab hab pa pb ha hb D i hi => ?_⟩
    unfold colPairs at hab
    obtain ⟨i', hi', hab⟩ := List.mem_flatMap.1 hab
    obtain ⟨j', hj', rfl⟩ := List.mem_map.1 hab
    have : i' = 0 := by simpa using hi'
    subst this
    simp only [List.length_nil, Nat.zero_add, Nat.mul_one, Nat.add_zero, List.getElem?_map] at ha hb
    obtain ⟨va, ea, rfl⟩ := Option.map_eq_some_iff.1 ha
    obtain ⟨vb, eb, rfl⟩ := Option.map_eq_some_iff.1 hb
    have h1 := (pairs_get ea).2
    have h2 := (pairs_get eb).1
    rw [h1] at h2
    simp only [Option.some.injEq] at h2
    simp only
    rw [grid_end, h2]
    simp
  · rw [sections_single2 h, h]
    refine ⟨fun ab hab pa pb ha hb D i hi => ?_, fun ab hab => by simp [colPairs] at hab⟩
    unfold rowPairs at hab
    obtain ⟨i', hi', hab⟩ := List.mem_flatMap.1 hab
    obtain ⟨j', hj', rfl⟩ := List.mem_map.1 hab
    have : j' = 0 := by simpa using hj'
    subst this
    simp only [Nat.zero_mul, Nat.zero_add, List.getElem?_map] at ha hb
    obtain ⟨va, ea, rfl⟩ := Option.map_eq_some_iff.1 ha
    obtain ⟨vb, eb, rfl⟩ := Option.map_eq_some_iff.1 hb
    have h1 := (pairs_get ea).2
    have h2 := (pairs_get eb).1
    rw [h1] at h2
    simp only [Option.some.injEq] at h2
    simp only
    rw [grid_end, h2]
    simp

/-- If there is a mesh, the refinement of every section was finished. -/
theorem refined_of_rawMesh {P : Type} {split : P → P → P → P → Bool × Bool} {fuel start : ℕ} {secs : List (ℕ → ℕ → ℕ → Option P)}
    {nx ny : ℕ} {name : Option String} {mesh : Mesh P} (hc : ∀ pt ∈ secs, Consistent pt)
    (h : rawMesh split fuel start secs nx ny name = some mesh) :
    ∀ pt ∈ secs, ∃ quads, refineAll (decision pt split) fuel start = some quads := by
  unfold rawMesh at h
  obtain ⟨r, h1, _⟩ := Option.bind_eq_some_iff.1 h
  obtain ⟨-, hl, hd⟩ := meshSections_spec split fuel start secs [] r.1 r.2 hc h1
  intro pt hpt
  obtain ⟨k, hk⟩ := List.getElem?_of_mem hpt
  have hkl := (List.getElem?_eq_some_iff.1 hk).1
  have e : r.1[k]? = some (r.1[k]'(by omega)) := List.getElem?_eq_getElem (by omega)
  exact ⟨_, (hd k pt _ hk e).quads⟩

/-- parameters `(u, v)` of a position in a section -/
noncomputable def posParams (uu vv : ℝ × ℝ) (D : ℕ) (p : Pos) : ℝ × ℝ :=
  (uu.1 + (uu.2 - uu.1) / 2 ^ D * p.1, vv.1 + (vv.2 - vv.1) / 2 ^ D * p.2)

/-- Positions of the triangles of a quad are positions of the quad. -/
theorem quadTriangles_range {m : IndexMap} {q : Quad} (hi : q.i0 ≤ q.i1) (hj : q.j0 ≤ q.j1) {t : List Pos} (h : t ∈ quadTriangles m q) :
    ∀ p ∈ t, q.i0 ≤ p.1 ∧ p.1 ≤ q.i1 ∧ q.j0 ≤ p.2 ∧ p.2 ≤ q.j1 := by
  obtain ⟨d, i0, i1, j0, j1⟩ := q
  simp only at hi hj
  unfold quadTriangles threeTriangles midPos at h
  dsimp only at h
  have fin : ∀ l : List (List Pos), t ∈ l → (∀ t ∈ l, ∀ p ∈ t, i0 ≤ p.1 ∧ p.1 ≤ i1 ∧ j0 ≤ p.2 ∧ p.2 ≤ j1) →
      ∀ p ∈ t, i0 ≤ p.1 ∧ p.1 ≤ i1 ∧ j0 ≤ p.2 ∧ p.2 ≤ j1 := fun l h1 h2 => h2 t h1
  split at h
  · exact fin _ h (by simp only [List.forall_mem_cons, List.not_mem_nil, false_imp_iff, implies_true, and_true]; omega)
  · split at h
    · exact fin _ h (by simp only [List.forall_mem_cons, List.not_mem_nil, false_imp_iff, implies_true, and_true]; omega)
    · split at h
      · exact fin _ h (by simp only [List.forall_mem_cons, List.not_mem_nil, false_imp_iff, implies_true, and_true]; omega)
      · split at h
        · exact fin _ h (by simp only [List.forall_mem_cons, List.not_mem_nil, false_imp_iff, implies_true, and_true]; omega)
        · exact fin _ h (by simp only [List.forall_mem_cons, List.not_mem_nil, false_imp_iff, implies_true, and_true]; omega)

/-- a triangle of the mesh, as a triangle in the parameter rectangle -/
structure Spec.MeshTriangle (s : Surface) (mesh : Mesh V3) (t : List ℕ) (tri : Tri2) : Prop where
  point0 : ∃ i p, t[0]? = some i ∧ mesh.points[i]? = some p ∧ s.func tri.1.1 tri.1.2 = some p
  point1 : ∃ i p, t[1]? = some i ∧ mesh.points[i]? = some p ∧ s.func tri.2.1.1 tri.2.1.2 = some p
  point2 : ∃ i p, t[2]? = some i ∧ mesh.points[i]? = some p ∧ s.func tri.2.2.1 tri.2.2.2 = some p
  length : t.length = 3
  inside : ∀ p ∈ triCorners tri, 0 ≤ p.1 ∧ p.1 ≤ s.length1 ∧ 0 ≤ p.2 ∧ p.2 ≤ s.length2

theorem meshTriangle_of_eq {s : Surface} (hs : GoodSurface s) {mesh : Mesh V3} {t : List ℕ} {tri : Tri2}
    (h : t.map (fun k => mesh.points[k]?) = (triCorners tri).map (fun p => s.func p.1 p.2))
    (hin : ∀ p ∈ triCorners tri, 0 ≤ p.1 ∧ p.1 ≤ s.length1 ∧ 0 ≤ p.2 ∧ p.2 ≤ s.length2) : MeshTriangle s mesh t tri := by
  have hl := congrArg List.length h
  simp only [triCorners, List.length_map, List.length_cons, List.length_nil] at hl
  match t, hl with
  | [a, b, c], _ =>
    simp only [List.map_cons, List.map_nil, triCorners, List.cons.injEq, and_true] at h
    have tot : ∀ p ∈ triCorners tri, ∃ q, s.func p.1 p.2 = some q := fun p hp => by
      obtain ⟨a1, a2, a3, a4⟩ := hin p hp
      exact Option.isSome_iff_exists.1 (hs.total _ _ a1 a2 a3 a4)
    obtain ⟨q0, e0⟩ := tot tri.1 (by simp [triCorners])
    obtain ⟨q1, e1⟩ := tot tri.2.1 (by simp [triCorners])
    obtain ⟨q2, e2⟩ := tot tri.2.2 (by simp [triCorners])
    exact ⟨⟨a, q0, rfl, by rw [h.1, e0], e0⟩, ⟨b, q1, rfl, by rw [h.2.1, e1], e1⟩, ⟨c, q2, rfl, by rw [h.2.2, e2], e2⟩, rfl, hin⟩

/-- **C19**, partial: for a surface with breakpoints along (at most) one parameter, the three corners of every triangle of the mesh
are points of the surface, at parameters in one and the same section. What is missing: breakpoints along both parameters, for which it
is false (`C19_refuted`). -/
theorem C19_partial {s : Surface} (hs : GoodSurface s) (hb : s.breaks1 = [] ∨ s.breaks2 = []) {size : V3 → ℝ} {fuel : ℕ}
    {name : Option String} {mesh : Mesh V3} (h : s.rawMesh size fuel name = some mesh) :
    ∀ t ∈ mesh.triangles, ∃ tri, MeshTriangle s mesh t tri ∧
      ∃ uu ∈ Surface.pairs (0 :: s.breaks1 ++ [s.length1]), ∃ vv ∈ Surface.pairs (0 :: s.breaks2 ++ [s.length2]),
        ∀ p, InTri p tri → uu.1 ≤ p.1 ∧ p.1 ≤ uu.2 ∧ vv.1 ≤ p.2 ∧ p.2 ≤ vv.2 := by
  have hr := refined_of_rawMesh (fun pt hpt => section_consistent hpt) h
  obtain ⟨mesh', D, ms, rs, h1, hml, hrl, hq, hdef, htri, -⟩ := SMesh.rawMesh_spec (splitReal size) fuel 2 name (fun pt hpt => section_consistent hpt)
    (fun pt hpt => section_total hs hpt) hr (by rw [List.length_map, sections_length]) (adjacent_ok hb)
  unfold Surface.rawMesh at h
  rw [h] at h1
  cases h1
  intro t ht
  have hm := List.mem_map_of_mem (f := fun t => List.map (fun k => mesh.points[k]?) t) ht
  rw [htri] at hm
  obtain ⟨l, hl1, hl2⟩ := List.mem_flatten.1 hm
  obtain ⟨x, hx, rfl⟩ := List.mem_map.1 hl1
  obtain ⟨t', ht', he⟩ := List.mem_map.1 hl2
  obtain ⟨k, hk⟩ := List.getElem?_of_mem hx
  rw [List.getElem?_zip_eq_some, List.getElem?_zip_eq_some] at hk
  obtain ⟨k1, k2, k3⟩ := hk
  obtain ⟨-, hgrid⟩ := hq k _ _ k3 k2
  rw [List.getElem?_map] at k3
  obtain ⟨sec, k4, k5⟩ := Option.map_eq_some_iff.1 k3
  obtain ⟨uu, hu, vv, hv, hp⟩ := section_point (List.mem_of_getElem? k4)
  obtain ⟨a1, a2, a3⟩ := pairs_bounds hs.breaks1 hu
  obtain ⟨b1, b2, b3⟩ := pairs_bounds hs.breaks2 hv
  unfold sectionTriangles at ht'
  obtain ⟨q', hq', htq⟩ := List.mem_flatMap.1 ht'
  obtain ⟨q, hqm, rfl⟩ := List.mem_map.1 hq'
  obtain ⟨⟨g1, g2, g3, g4⟩, hD⟩ := hgrid q hqm
  have hrange := quadTriangles_range (Nat.mul_le_mul_right _ g1.le) (Nat.mul_le_mul_right _ g3.le) htq
  have hpow : 2 ^ q.depth * 2 ^ (D - q.depth) = 2 ^ D := by rw [← Nat.pow_add]; congr 1; omega
  have u1 : q.i1 * 2 ^ (D - q.depth) ≤ 2 ^ D := by rw [← hpow]; exact Nat.mul_le_mul_right _ g2
  have u2 : q.j1 * 2 ^ (D - q.depth) ≤ 2 ^ D := by rw [← hpow]; exact Nat.mul_le_mul_right _ g4
  have hlen := quadTriangles_length htq
  match t', hlen with
  | [x0, x1, x2], _ =>
    have hpos : ∀ y ∈ [x0, x1, x2], uu.1 ≤ (posParams uu vv D y).1 ∧ (posParams uu vv D y).1 ≤ uu.2 ∧
        vv.1 ≤ (posParams uu vv D y).2 ∧ (posParams uu vv D y).2 ≤ vv.2 := by
      intro y hy
      obtain ⟨_, r2, _, r4⟩ := hrange y hy
      simp only [scaleQuad] at r2 r4
      obtain ⟨c1, c2⟩ := grid_between a2 (d := D) (i := y.1) (by omega)
      obtain ⟨d1, d2⟩ := grid_between b2 (d := D) (i := y.2) (by omega)
      exact ⟨c1, c2, d1, d2⟩
    refine ⟨(posParams uu vv D x0, posParams uu vv D x1, posParams uu vv D x2), meshTriangle_of_eq hs ?_ ?_, uu, hu, vv, hv, ?_⟩
    · rw [← he]
      simp only [← k5, hp, triCorners, List.map_cons, List.map_nil, posParams]
    · intro p hp'
      have : ∃ y ∈ [x0, x1, x2], p = posParams uu vv D y := by
        simp only [triCorners, List.mem_cons, List.not_mem_nil, or_false] at hp'
        rcases hp' with rfl | rfl | rfl
        · exact ⟨x0, by simp, rfl⟩
        · exact ⟨x1, by simp, rfl⟩
        · exact ⟨x2, by simp, rfl⟩
      obtain ⟨y, hy, rfl⟩ := this
      obtain ⟨z1, z2, z3, z4⟩ := hpos y hy
      exact ⟨by linarith, by linarith, by linarith, by linarith⟩
    · rintro p ⟨x, y, z, hx, hy, hz, hsum, e1, e2⟩
      obtain ⟨z1, z2, z3, z4⟩ := hpos x0 (by simp)
      obtain ⟨w1, w2, w3, w4⟩ := hpos x1 (by simp)
      obtain ⟨v1, v2, v3, v4⟩ := hpos x2 (by simp)
      simp only at e1 e2
      have hz' : z = 1 - x - y := by linarith
      subst hz'
      rw [e1, e2]
      refine ⟨?_, ?_, ?_, ?_⟩ <;> nlinarith

end Traceon
