import Verif.Props.SurfaceMesh4

/-!
# C67: the mesh of a surface covers it
-/
namespace Traceon
open Spec V3 SMesh

theorem pairs_find : ∀ (l : List ℝ) (a len u : ℝ), a ≤ u → u < len → ∃ uu ∈ Surface.pairs (a :: l ++ [len]), uu.1 ≤ u ∧ u < uu.2
  | [], a, len, u, h1, h2 => ⟨(a, len), by simp [Surface.pairs], h1, h2⟩
  | b :: l, a, len, u, h1, h2 => by
    by_cases h : u < b
    · exact ⟨(a, b), by simp [Surface.pairs], h1, h⟩
    · obtain ⟨uu, hu, h3⟩ := pairs_find l b len u (by linarith) h2
      refine ⟨uu, ?_, h3⟩
      unfold Surface.pairs at hu ⊢
      simp only [List.cons_append, List.tail_cons, List.zip_cons_cons, List.mem_cons] at hu ⊢
      exact Or.inr hu

theorem exists_of_coverCount {qs : List Quad} {x y : ℝ} (h : coverCount qs x y = 1) : ∃ q ∈ qs, Covers q x y := by
  classical
  have : 0 < coverCount qs x y := by omega
  obtain ⟨q, hq, hc⟩ := List.countP_pos_iff.1 this
  exact ⟨q, hq, of_decide_eq_true hc⟩

theorem mesh_covers {s : Surface} (hs : GoodSurface s) (hb : s.breaks1 = [] ∨ s.breaks2 = []) {size : V3 → ℝ} {fuel : ℕ}
    {name : Option String} {mesh : Mesh V3} (h : s.rawMesh size fuel name = some mesh)
    (hcov : ∀ sec ∈ s.sections, ∀ quads, refineAll (decision sec.gridPoint (splitReal size)) fuel 2 = some quads →
      ∀ x y, 0 ≤ x → x < 1 → 0 ≤ y → y < 1 → coverCount quads x y = 1) :
    ∀ u v, 0 ≤ u → u < s.length1 → 0 ≤ v → v < s.length2 →
      ∃ t ∈ mesh.triangles, ∃ tri, MeshTriangle s mesh t tri ∧ InTri (u, v) tri := by
  have hr := refined_of_rawMesh (fun pt hpt => section_consistent hpt) h
  obtain ⟨mesh', D, ms, rs, h1, hml, hrl, hq, hdef, htri, -⟩ := SMesh.rawMesh_spec (splitReal size) fuel 2 name (fun pt hpt => section_consistent hpt)
    (fun pt hpt => section_total hs hpt) hr (by rw [List.length_map, sections_length]) (adjacent_ok hb)
  unfold Surface.rawMesh at h
  rw [h] at h1
  cases h1
  intro u v hu0 hu1 hv0 hv1
  obtain ⟨uu, huu, u1, u2⟩ := pairs_find s.breaks1 0 s.length1 u hu0 hu1
  obtain ⟨vv, hvv, v1, v2⟩ := pairs_find s.breaks2 0 s.length2 v hv0 hv1
  obtain ⟨a1, a2, a3⟩ := pairs_bounds hs.breaks1 huu
  obtain ⟨b1, b2, b3⟩ := pairs_bounds hs.breaks2 hvv
  have hU : 0 < uu.2 - uu.1 := by linarith
  have hV : 0 < vv.2 - vv.1 := by linarith
  have hsec : ({ func := fun u v => s.func (uu.1 + u) (vv.1 + v), length1 := uu.2 - uu.1, length2 := vv.2 - vv.1 } : Surface) ∈ s.sections :=
    List.mem_flatMap.2 ⟨uu, huu, List.mem_map.2 ⟨vv, hvv, rfl⟩⟩
  generalize hse : ({ func := fun u v => s.func (uu.1 + u) (vv.1 + v), length1 := uu.2 - uu.1, length2 := vv.2 - vv.1 } : Surface) = sec at hsec
  have hp : ∀ d i j, sec.gridPoint d i j = s.func (uu.1 + (uu.2 - uu.1) / 2 ^ d * i) (vv.1 + (vv.2 - vv.1) / 2 ^ d * j) := by
    intro d i j; rw [← hse]; rfl
  obtain ⟨k, hk⟩ := List.getElem?_of_mem hsec
  have hkl := (List.getElem?_eq_some_iff.1 hk).1
  have hsl : (s.sections.map Surface.gridPoint).length = s.sections.length := List.length_map _
  have er : rs[k]? = some (rs[k]'(by omega)) := List.getElem?_eq_getElem (by omega)
  have em : ms[k]? = some (ms[k]'(by omega)) := List.getElem?_eq_getElem (by omega)
  have es : (s.sections.map Surface.gridPoint)[k]? = some sec.gridPoint := by rw [List.getElem?_map, hk]; rfl
  generalize rs[k]'(by omega) = r at er
  generalize ms[k]'(by omega) = m at em
  obtain ⟨hquads, hgrid⟩ := hq k _ _ es er
  obtain ⟨q, hqm, c1, c2, c3, c4⟩ := exists_of_coverCount (hcov sec hsec r hquads ((u - uu.1) / (uu.2 - uu.1)) ((v - vv.1) / (vv.2 - vv.1))
    (div_nonneg (by linarith) hU.le) (by rw [div_lt_one hU]; linarith) (div_nonneg (by linarith) hV.le) (by rw [div_lt_one hV]; linarith))
  obtain ⟨⟨g1, g2, g3, g4⟩, hD⟩ := hgrid q hqm
  have hpos : 0 < 2 ^ (D - q.depth) := Nat.two_pow_pos _
  have hpow : (2 : ℝ) ^ q.depth * 2 ^ (D - q.depth) = 2 ^ D := by rw [← pow_add]; congr 1; omega
  have hposR : (0 : ℝ) < 2 ^ (D - q.depth) := by positivity
  have hDpos : (0 : ℝ) < 2 ^ D := by positivity
  obtain ⟨ts, hts, htile⟩ := C20_tiles m (q := scaleQuad D q) (Nat.mul_lt_mul_of_pos_right g1 hpos) (Nat.mul_lt_mul_of_pos_right g3 hpos)
  have sc : ∀ (i : ℕ), ((i * 2 ^ (D - q.depth) : ℕ) : ℝ) = i * 2 ^ (D - q.depth) := fun i => by push_cast; rfl
  have se : ∀ z : ℝ, z * 2 ^ D = (z * 2 ^ q.depth) * 2 ^ (D - q.depth) := fun z => by rw [mul_assoc, hpow]
  obtain ⟨tri, htriMem, htriIn⟩ := htile.cover ((u - uu.1) / (uu.2 - uu.1) * 2 ^ D, (v - vv.1) / (vv.2 - vv.1) * 2 ^ D)
    (by simp only [scaleQuad]; rw [sc, se]; exact mul_le_mul_of_nonneg_right c1 hposR.le)
    (by simp only [scaleQuad]; rw [sc, se]; exact mul_le_mul_of_nonneg_right c2.le hposR.le)
    (by simp only [scaleQuad]; rw [sc, se]; exact mul_le_mul_of_nonneg_right c3 hposR.le)
    (by simp only [scaleQuad]; rw [sc, se]; exact mul_le_mul_of_nonneg_right c4.le hposR.le)
  have hmem : triCorners tri ∈ (quadTriangles m (scaleQuad D q)).map (·.map castPos) := by
    rw [hts]; exact List.mem_map_of_mem htriMem
  obtain ⟨t', ht', hct⟩ := List.mem_map.1 hmem
  have hrange := quadTriangles_range (Nat.mul_le_mul_right _ g1.le) (Nat.mul_le_mul_right _ g3.le) ht'
  have hlen := quadTriangles_length ht'
  match t', hlen with
  | [x0, x1, x2], _ =>
    have himg : [x0, x1, x2].map (fun p => sec.gridPoint D p.1 p.2) ∈ mesh.triangles.map (fun t => t.map (fun k => mesh.points[k]?)) := by
      rw [htri]
      refine List.mem_flatten.2 ⟨_, List.mem_map.2 ⟨(m, r, sec.gridPoint), ?_, rfl⟩, List.mem_map.2 ⟨[x0, x1, x2], ?_, rfl⟩⟩
      · refine List.mem_of_getElem? (i := k) ?_
        rw [List.getElem?_zip_eq_some, List.getElem?_zip_eq_some]
        exact ⟨em, er, es⟩
      · exact List.mem_flatMap.2 ⟨_, List.mem_map_of_mem hqm, ht'⟩
    obtain ⟨t, ht, he⟩ := List.mem_map.1 himg
    simp only [List.map_cons, List.map_nil, triCorners, List.cons.injEq, and_true] at hct
    obtain ⟨e0, e1, e2⟩ := hct
    refine ⟨t, ht, (posParams uu vv D x0, posParams uu vv D x1, posParams uu vv D x2), meshTriangle_of_eq hs ?_ ?_, ?_⟩
    · rw [he]
      simp only [hp, triCorners, List.map_cons, List.map_nil, posParams]
    · intro p hp'
      have : ∃ y ∈ [x0, x1, x2], p = posParams uu vv D y := by
        simp only [triCorners, List.mem_cons, List.not_mem_nil, or_false] at hp'
        rcases hp' with rfl | rfl | rfl
        · exact ⟨x0, by simp, rfl⟩
        · exact ⟨x1, by simp, rfl⟩
        · exact ⟨x2, by simp, rfl⟩
      obtain ⟨y, hy, rfl⟩ := this
      obtain ⟨_, r2, _, r4⟩ := hrange y hy
      have hpowN : 2 ^ q.depth * 2 ^ (D - q.depth) = 2 ^ D := by rw [← Nat.pow_add]; congr 1; omega
      have w1 : q.i1 * 2 ^ (D - q.depth) ≤ 2 ^ D := by rw [← hpowN]; exact Nat.mul_le_mul_right _ g2
      have w2 : q.j1 * 2 ^ (D - q.depth) ≤ 2 ^ D := by rw [← hpowN]; exact Nat.mul_le_mul_right _ g4
      simp only [scaleQuad] at r2 r4
      obtain ⟨z1, z2⟩ := grid_between a2 (d := D) (i := y.1) (by omega)
      obtain ⟨z3, z4⟩ := grid_between b2 (d := D) (i := y.2) (by omega)
      exact ⟨by simp only [posParams]; linarith, by simp only [posParams]; linarith, by simp only [posParams]; linarith, by simp only [posParams]; linarith⟩
    · obtain ⟨x, y, z, hx, hy, hz, hsum, f1, f2⟩ := htriIn
      refine ⟨x, y, z, hx, hy, hz, hsum, ?_, ?_⟩
      · rw [← e0, ← e1, ← e2] at f1
        simp only [castPos, posParams] at f1 ⊢
        have hz' : z = 1 - x - y := by linarith
        subst hz'
        have : u = uu.1 + (uu.2 - uu.1) / 2 ^ D * ((u - uu.1) / (uu.2 - uu.1) * 2 ^ D) := by field_simp; ring
        rw [this, f1]; ring
      · rw [← e0, ← e1, ← e2] at f2
        simp only [castPos, posParams] at f2 ⊢
        have hz' : z = 1 - x - y := by linarith
        subst hz'
        have : v = vv.1 + (vv.2 - vv.1) / 2 ^ D * ((v - vv.1) / (vv.2 - vv.1) * 2 ^ D) := by field_simp; ring
        rw [this, f2]; ring

/-- **C67**, partial: the triangles of the mesh of a surface cover it. For a constant mesh size, for breakpoints along at most one
parameter, and if each of the sections is regular: for every point of the parameter rectangle there is a triangle of the mesh, the
corners of which are the surface at three points of the parameter rectangle that have the given point in the triangle between them. What
is missing: see `C18_refuted` and `C19_refuted`. -/
theorem C67_partial {s : Surface} (hs : GoodSurface s) (hb : s.breaks1 = [] ∨ s.breaks2 = []) {ms : ℝ} {fuel : ℕ}
    {name : Option String} {mesh : Mesh V3} (h : s.rawMesh (fun _ => ms) fuel name = some mesh)
    (hreg : ∀ sec ∈ s.sections, ∃ g, (∀ d i j, i ≤ 2 ^ d → j ≤ 2 ^ d → sec.gridPoint d i j = some (g d i j)) ∧ Regular g 2) :
    ∀ u v, 0 ≤ u → u < s.length1 → 0 ≤ v → v < s.length2 →
      ∃ t ∈ mesh.triangles, ∃ tri, MeshTriangle s mesh t tri ∧ InTri (u, v) tri :=
  mesh_covers hs hb h (fun sec hsec quads hq x y h0 h1 h2 h3 => by
    obtain ⟨g, hg, hr⟩ := hreg sec hsec
    exact refineAll_cover hg hr ms hq h0 h1 h2 h3)

/-- **C67** for flat surfaces (rectangles, parallelograms), with breakpoints along at most one parameter and any positive constant mesh
size: the mesher finishes and the triangles in space cover the surface. -/
theorem C67_flat_partial {s : Surface} {a b c : V3} (hf : ∀ u v, s.func u v = some (a + u * b + v * c))
    (h1 : GoodBreaks s.breaks1 s.length1) (h2 : GoodBreaks s.breaks2 s.length2) (hb : s.breaks1 = [] ∨ s.breaks2 = []) {ms : ℝ} (hms : 0 < ms)
    (name : Option String) : ∃ fuel0, ∀ fuel, fuel0 ≤ fuel → ∃ mesh, s.rawMesh (fun _ => ms) fuel name = some mesh ∧
      ∀ u v, 0 ≤ u → u < s.length1 → 0 ≤ v → v < s.length2 → ∃ t ∈ mesh.triangles, ∃ i j k p q r, t = [i, j, k] ∧
        mesh.points[i]? = some p ∧ mesh.points[j]? = some q ∧ mesh.points[k]? = some r ∧
        ∃ x y z : ℝ, 0 ≤ x ∧ 0 ≤ y ∧ 0 ≤ z ∧ x + y + z = 1 ∧ s.func u v = some (x * p + y * q + z * r) := by
  have hs : GoodSurface s := ⟨h1, h2, fun u v _ _ _ _ => by rw [hf]; rfl⟩
  have hn1 := norm_nonneg' b
  have hn2 := norm_nonneg' c
  have hl : LipschitzSurface s (V3.norm b + V3.norm c) := by
    constructor
    · intro u u' v p p' _ _ _ _ _ _ e1 e2
      rw [hf] at e1 e2
      cases e1; cases e2
      rw [flat_dist_i]
      nlinarith [abs_nonneg (u - u')]
    · intro u v v' p p' _ _ _ _ _ _ e1 e2
      rw [hf] at e1 e2
      cases e1; cases e2
      rw [flat_dist_j]
      nlinarith [abs_nonneg (v - v')]
  obtain ⟨f0, hfin⟩ := fuel_for_all s.sections (fun sec hsec => section_finishes hs (by linarith) hl hms (fun _ => le_refl ms) 2 hsec)
  refine ⟨f0, fun fuel hfu => ?_⟩
  obtain ⟨mesh, hm, -⟩ := rawMesh_total (splitReal (fun _ => ms)) fuel 2 (secs := s.sections.map Surface.gridPoint)
    (nx := s.breaks1.length + 1) (ny := s.breaks2.length + 1) name (fun pt hpt => section_consistent hpt)
    (fun pt hpt => section_total hs hpt) (fun pt hpt => by
      obtain ⟨sec, hsec, rfl⟩ := List.mem_map.1 hpt
      exact hfin fuel hfu sec hsec) (by rw [List.length_map, sections_length])
  refine ⟨mesh, hm, fun u v u0 u1 v0 v1 => ?_⟩
  obtain ⟨t, ht, tri, ⟨⟨i, p, t0, i0, f0⟩, ⟨j, q, t1, i1, f1⟩, ⟨k, r, t2, i2, f2⟩, hlen, -⟩, x, y, z, hx, hy, hz, hsum, e1, e2⟩ :=
    C67_partial hs hb hm (fun sec hsec => by
      unfold Surface.sections at hsec
      obtain ⟨uu, _, hsec⟩ := List.mem_flatMap.1 hsec
      obtain ⟨vv, _, rfl⟩ := List.mem_map.1 hsec
      refine ⟨_, ?_, flat_regular (a + uu.1 * b + vv.1 * c) b c (uu.2 - uu.1) (vv.2 - vv.1) 2⟩
      intro d i j _ _
      simp only [Surface.gridPoint, hf, Option.some.injEq]
      ext <;> simp <;> ring) u v u0 u1 v0 v1
  rw [hf] at f0 f1 f2
  cases f0; cases f1; cases f2
  match t, hlen with
  | [i', j', k'], _ =>
    simp only [List.getElem?_cons_zero, List.getElem?_cons_succ, Option.some.injEq] at t0 t1 t2
    subst t0; subst t1; subst t2
    refine ⟨_, ht, i', j', k', _, _, _, rfl, i0, i1, i2, x, y, z, hx, hy, hz, hsum, ?_⟩
    rw [hf, Option.some.injEq]
    have hz' : z = 1 - x - y := by linarith
    subst hz'
    simp only at e1 e2
    rw [e1, e2]
    ext <;> simp <;> ring

/-- The hypotheses can be met: the 4 by 6 rectangle. -/
example : ∃ fuel0, ∀ fuel, fuel0 ≤ fuel → ∃ mesh, rect46.rawMesh (fun _ => 0.3) fuel (some "plate") = some mesh := by
  obtain ⟨f, h⟩ := C67_flat_partial (s := rect46) (a := 0) (b := ⟨1, 0, 0⟩) (c := ⟨0, 1, 0⟩) (fun _ _ => rfl)
    (by simp [GoodBreaks, rect46, flatSurface]) (by simp [GoodBreaks, rect46, flatSurface]) (Or.inl rfl) (ms := 0.3) (by norm_num) (some "plate")
  exact ⟨f, fun fuel hf => by obtain ⟨m, hm, _⟩ := h fuel hf; exact ⟨m, hm⟩⟩

end Traceon
