import Verif.Props.Bulge

/-!
# C18 and C67 are false for contours that bulge, continued
-/
namespace Traceon
open Spec SMesh

theorem angle_inj {a b : ℝ} (hc : Real.cos a = Real.cos b) (hs : Real.sin a = Real.sin b) (h1 : |a - b| < 2 * Real.pi) : a = b := by
  have h : Real.cos (a - b) = 1 := by
    rw [Real.cos_sub, hc, hs]
    linear_combination Real.sin_sq_add_cos_sq b
  obtain ⟨h2, h3⟩ := abs_lt.1 h1
  have := (Real.cos_eq_one_iff_of_lt_of_lt h2 h3).1 h
  linarith

theorem one_add_sin_pos {θ : ℝ} (h0 : 0 ≤ θ) (h1 : θ ≤ 4 * Real.pi / 3) : 0 < 1 + Real.sin θ := by
  have hpi := Real.pi_pos
  rcases le_total θ Real.pi with h | h
  · linarith [Real.sin_nonneg_of_nonneg_of_le_pi h0 h]
  · have e : Real.sin θ = -Real.sin (θ - Real.pi) := by rw [Real.sin_sub_pi]; ring
    have : Real.sin (θ - Real.pi) < Real.sin (Real.pi / 2) := Real.sin_lt_sin_of_lt_of_le_pi_div_two (by linarith) le_rfl (by linarith)
    rw [Real.sin_pi_div_two] at this
    linarith

theorem bulgeAt_inj {θ θ' φ φ' : ℝ} (h1 : 0 ≤ θ) (h2 : θ ≤ 4 * Real.pi / 3) (h3 : 0 ≤ θ') (h4 : θ' ≤ 4 * Real.pi / 3)
    (h5 : 0 ≤ φ) (h6 : φ ≤ 2 * Real.pi / 3) (h7 : 0 ≤ φ') (h8 : φ' ≤ 2 * Real.pi / 3) (h : bulgeAt θ φ = bulgeAt θ' φ') : θ = θ' ∧ φ = φ' := by
  have hpi := Real.pi_pos
  have ex := congrArg V3.x h
  have ey := congrArg V3.y h
  have ez := congrArg V3.z h
  simp only [bulgeAt] at ex ey ez
  have p1 := one_add_sin_pos h1 h2
  have p2 := one_add_sin_pos h3 h4
  have hsq : (1 + Real.sin θ) ^ 2 = (1 + Real.sin θ') ^ 2 := by
    have a1 : (1 + Real.sin θ) ^ 2 = ((1 + Real.sin θ) * Real.cos φ) ^ 2 + (-(1 + Real.sin θ) * Real.sin φ) ^ 2 := by
      linear_combination -(1 + Real.sin θ) ^ 2 * Real.sin_sq_add_cos_sq φ
    have a2 : (1 + Real.sin θ') ^ 2 = ((1 + Real.sin θ') * Real.cos φ') ^ 2 + (-(1 + Real.sin θ') * Real.sin φ') ^ 2 := by
      linear_combination -(1 + Real.sin θ') ^ 2 * Real.sin_sq_add_cos_sq φ'
    rw [a1, a2, ey, ez]
  have hs : Real.sin θ = Real.sin θ' := by
    have := (sq_eq_sq₀ p1.le p2.le).1 hsq
    linarith
  refine ⟨angle_inj ex hs (abs_lt.2 ⟨by linarith, by linarith⟩), angle_inj ?_ ?_ (abs_lt.2 ⟨by linarith, by linarith⟩)⟩
  · rw [hs] at ez; exact mul_left_cancel₀ p2.ne' ez
  · rw [hs] at ey; exact mul_left_cancel₀ (neg_ne_zero.2 p2.ne') ey

/-- different parameters give different points of the surface -/
theorem bulge_inj {rAvg : ℝ} (hr : 0 < rAvg) {u v u' v' : ℝ} (h1 : 0 ≤ u) (h2 : u ≤ (bulge rAvg).length1) (h3 : 0 ≤ v) (h4 : v ≤ (bulge rAvg).length2)
    (h1' : 0 ≤ u') (h2' : u' ≤ (bulge rAvg).length1) (h3' : 0 ≤ v') (h4' : v' ≤ (bulge rAvg).length2)
    (h : (bulge rAvg).func u v = (bulge rAvg).func u' v') : u = u' ∧ v = v' := by
  have hpi := Real.pi_pos
  have hL : (0 : ℝ) < 2 * Real.pi * rAvg := by positivity
  have e1 : (bulge rAvg).length1 = 4 * Real.pi / 3 := by simp [bulge, Path.revolveX, Path.circleXZ, Path.move, Path.mapPoints]
  have e2 : (bulge rAvg).length2 = 2 * Real.pi * rAvg := rfl
  rw [e1] at h2 h2'
  rw [e2] at h4 h4'
  rw [bulge_func hr, bulge_func hr, Option.some.injEq] at h
  have hb : ∀ x, 0 ≤ x → x ≤ 2 * Real.pi * rAvg → 0 ≤ x / (2 * Real.pi * rAvg) * (2 * Real.pi / 3) ∧ x / (2 * Real.pi * rAvg) * (2 * Real.pi / 3) ≤ 2 * Real.pi / 3 := by
    intro x x0 x1
    have a : 0 ≤ x / (2 * Real.pi * rAvg) := div_nonneg x0 hL.le
    have b : x / (2 * Real.pi * rAvg) ≤ 1 := (div_le_one hL).2 x1
    have c : 0 < 2 * Real.pi / 3 := by positivity
    exact ⟨mul_nonneg a c.le, by nlinarith⟩
  obtain ⟨g1, g2⟩ := bulgeAt_inj h1 h2 h1' h2' (hb v h3 h4).1 (hb v h3 h4).2 (hb v' h3' h4').1 (hb v' h3' h4').2 h
  refine ⟨g1, ?_⟩
  have c : (2 * Real.pi / 3 : ℝ) ≠ 0 := by positivity
  have := mul_right_cancel₀ c g2
  field_simp at this
  exact this

theorem bulge_good {rAvg : ℝ} (hr : 0 < rAvg) : Contour (Path.circleXZ 0 1 1 (4 * Real.pi / 3)) ∧ GoodSurface (bulge rAvg) ∧
    ∃ K, 0 ≤ K ∧ LipschitzSurface (bulge rAvg) K := by
  have hc : Contour (Path.circleXZ 0 1 1 (4 * Real.pi / 3)) := .circleXZ 0 1 one_pos (by positivity)
  obtain ⟨hp, he, hl⟩ := contour_even hc
  obtain ⟨ht, -, -⟩ := revolve_turned (p := Path.circleXZ 0 1 1 (4 * Real.pi / 3)) hr (2 * Real.pi / 3)
  exact ⟨hc, turned_good ht hp, turned_lipschitz ht hp zero_le_one hl⟩

/-- **C18 is false** for a constant mesh size: no quad of the mesh of this part of a torus with mesh size 0.98 covers the point at 3/8 of
the circle and 3/16 of the turn. -/
theorem C18_bulge_refuted {rAvg : ℝ} (hr : 0 < rAvg) :
    ∃ fuel0, ∀ fuel, fuel0 ≤ fuel → ∃ quads st,
      meshSection ((Path.circleXZ 0 1 1 (4 * Real.pi / 3)).revolveX rAvg (2 * Real.pi / 3)).gridPoint (splitReal (fun _ => 0.98)) fuel 2 [] = some (quads, st) ∧
      coverCount quads (3 / 8) (3 / 16) = 0 := by
  obtain ⟨-, hs, K, hK, hl⟩ := bulge_good hr
  have hsec : ∃ sec ∈ (bulge rAvg).sections, sec.gridPoint = (bulge rAvg).gridPoint := by
    have := single_section (s := bulge rAvg) rfl rfl
    have hm : (bulge rAvg).gridPoint ∈ (bulge rAvg).sections.map Surface.gridPoint := by rw [this]; simp
    obtain ⟨sec, h1, h2⟩ := List.mem_map.1 hm
    exact ⟨sec, h1, h2⟩
  obtain ⟨sec, hsec, he⟩ := hsec
  obtain ⟨f0, hf⟩ := section_finishes hs hK hl (size := fun _ => 0.98) (m0 := 0.98) (by norm_num) (fun _ => le_rfl) 2 hsec
  refine ⟨f0, fun fuel hfu => ?_⟩
  obtain ⟨quads, hq⟩ := hf fuel hfu
  rw [he] at hq
  obtain ⟨st, hst⟩ := fold_total (gridPoint_consistent (bulge rAvg)) (splitReal (fun _ => 0.98)) fuel (fun d i j _ _ => by rw [bulge_grid hr]; rfl)
    (startQuads 2) [] ⟨[], []⟩ quads (sound_init _ _) (fun q hq => (startQuads_inGrid hq).1) hq
  refine ⟨quads, st, hst, ?_⟩
  classical
  unfold coverCount
  rw [List.countP_eq_zero]
  intro q hqm hc
  obtain ⟨c1, c2, c3, c4⟩ := of_decide_eq_true hc
  have hp : (0 : ℝ) < 2 ^ q.depth := by positivity
  rcases bulge_clear hr hq q hqm with h | h | h | h
  · have h' : (4 : ℝ) * q.i1 ≤ 2 ^ q.depth := by exact_mod_cast h
    linarith
  · have h' : (2 : ℝ) ^ q.depth ≤ 2 * q.i0 := by exact_mod_cast h
    linarith
  · have h' : (8 : ℝ) * q.j1 ≤ 2 ^ q.depth := by exact_mod_cast h
    linarith
  · have h' : (2 : ℝ) ^ q.depth ≤ 4 * q.j0 := by exact_mod_cast h
    linarith

/-- in a triangle: between the smallest and the largest coordinate of the corners -/
theorem inTri_bounds {p : ℝ × ℝ} {t : Tri2} (h : InTri p t) {a b : ℝ} : 
    ((∀ c ∈ triCorners t, c.1 ≤ b) → p.1 ≤ b) ∧ ((∀ c ∈ triCorners t, a ≤ c.1) → a ≤ p.1) ∧
    ((∀ c ∈ triCorners t, c.2 ≤ b) → p.2 ≤ b) ∧ ((∀ c ∈ triCorners t, a ≤ c.2) → a ≤ p.2) := by
  obtain ⟨x, y, z, hx, hy, hz, hs, e1, e2⟩ := h
  have ka : x * a + y * a + z * a = a := by rw [← add_mul, ← add_mul, hs, one_mul]
  have kb : x * b + y * b + z * b = b := by rw [← add_mul, ← add_mul, hs, one_mul]
  refine ⟨fun g => ?_, fun g => ?_, fun g => ?_, fun g => ?_⟩ <;>
  · have g0 := g t.1 (by simp [triCorners])
    have g1 := g t.2.1 (by simp [triCorners])
    have g2 := g t.2.2 (by simp [triCorners])
    first | rw [e1] | rw [e2]
    linarith [mul_le_mul_of_nonneg_left g0 hx, mul_le_mul_of_nonneg_left g1 hy, mul_le_mul_of_nonneg_left g2 hz]

/-- **C67 is false** for a constant mesh size: the mesh of this part of a torus, of a contour that is a single arc, has a hole. The mesher
finishes, and no triangle of the mesh has the surface point at 3/8 of the circle and 3/16 of the turn between its corners. -/
theorem C67_refuted {rAvg : ℝ} (hr : 0 < rAvg) :
    Contour (Path.circleXZ 0 1 1 (4 * Real.pi / 3)) ∧
    ¬ Covered ((Path.circleXZ 0 1 1 (4 * Real.pi / 3)).revolveX rAvg (2 * Real.pi / 3)) ∧
    ∃ fuel0, ∀ fuel, fuel0 ≤ fuel → ∀ name, ∃ mesh, ((Path.circleXZ 0 1 1 (4 * Real.pi / 3)).revolveX rAvg (2 * Real.pi / 3)).rawMesh (fun _ => 0.98) fuel name = some mesh ∧
      ∀ t ∈ mesh.triangles, ∀ tri, MeshTriangle ((Path.circleXZ 0 1 1 (4 * Real.pi / 3)).revolveX rAvg (2 * Real.pi / 3)) mesh t tri →
        ¬ InTri (3 / 8 * (4 * Real.pi / 3), 3 / 16 * (2 * Real.pi * rAvg)) tri := by
  obtain ⟨hc, hs, K, hK, hl⟩ := bulge_good hr
  have hpi := Real.pi_pos
  have e1 : (bulge rAvg).length1 = 4 * Real.pi / 3 := by simp [bulge, Path.revolveX, Path.circleXZ, Path.move, Path.mapPoints]
  have e2 : (bulge rAvg).length2 = 2 * Real.pi * rAvg := rfl
  have hL1 : (0 : ℝ) < 4 * Real.pi / 3 := by positivity
  have hL2 : (0 : ℝ) < 2 * Real.pi * rAvg := by positivity
  have main : ∀ (fuel : ℕ) (name : Option String) (mesh : Mesh V3), (bulge rAvg).rawMesh (fun _ => 0.98) fuel name = some mesh →
      ∀ t ∈ mesh.triangles, ∀ tri, MeshTriangle (bulge rAvg) mesh t tri → ¬ InTri (3 / 8 * (4 * Real.pi / 3), 3 / 16 * (2 * Real.pi * rAvg)) tri := by
    intro fuel name mesh h t ht tri hT hin
    have hr' := refined_of_rawMesh (fun pt hpt => section_consistent hpt) h
    obtain ⟨mesh', D, ms, rs, h1, hml, hrl, hq, hdef, htri, -⟩ := SMesh.rawMesh_spec (splitReal (fun _ => 0.98)) fuel 2 name (fun pt hpt => section_consistent hpt)
      (fun pt hpt => section_total hs hpt) hr' (by rw [List.length_map, sections_length]) (adjacent_ok (Or.inl rfl))
    unfold Surface.rawMesh at h
    rw [h] at h1
    cases h1
    have hmem : t.map (fun k => mesh.points[k]?) ∈ mesh.triangles.map (fun t => t.map (fun k => mesh.points[k]?)) := List.mem_map_of_mem ht
    rw [htri] at hmem
    obtain ⟨l, hl1, hl2⟩ := List.mem_flatten.1 hmem
    obtain ⟨⟨m, r, pt⟩, hx, rfl⟩ := List.mem_map.1 hl1
    obtain ⟨k, hk⟩ := List.getElem?_of_mem hx
    rw [List.getElem?_zip_eq_some, List.getElem?_zip_eq_some] at hk
    obtain ⟨-, hk2, hk3⟩ := hk
    obtain ⟨hquads, hgrid⟩ := hq k _ _ hk3 hk2
    have hpt : pt = (bulge rAvg).gridPoint := by
      have := List.mem_of_getElem? hk3
      rw [single_section (s := bulge rAvg) rfl rfl] at this
      simpa using this
    simp only at hpt hquads hk2 hk3 hl2
    subst hpt
    obtain ⟨t', ht', het⟩ := List.mem_map.1 hl2
    simp only [sectionTriangles] at ht'
    obtain ⟨sq, hsq, ht'⟩ := List.mem_flatMap.1 ht'
    obtain ⟨q, hqm, rfl⟩ := List.mem_map.1 hsq
    obtain ⟨⟨g1, g2, g3, g4⟩, hD⟩ := hgrid q hqm
    have hpos : 0 < 2 ^ (D - q.depth) := Nat.two_pow_pos _
    have hrange := quadTriangles_range (q := scaleQuad D q) (Nat.mul_le_mul_right _ g1.le) (Nat.mul_le_mul_right _ g3.le) ht'
    have hpowN : 2 ^ q.depth * 2 ^ (D - q.depth) = 2 ^ D := by rw [← Nat.pow_add]; congr 1; omega
    have w1 : q.i1 * 2 ^ (D - q.depth) ≤ 2 ^ D := by rw [← hpowN]; exact Nat.mul_le_mul_right _ g2
    have w2 : q.j1 * 2 ^ (D - q.depth) ≤ 2 ^ D := by rw [← hpowN]; exact Nat.mul_le_mul_right _ g4
    simp only [scaleQuad] at hrange
    -- each corner of the triangle is a node of the quad
    have hcorner : ∀ c ∈ triCorners tri, ∃ x ∈ t', c = ((bulge rAvg).length1 / 2 ^ D * x.1, (bulge rAvg).length2 / 2 ^ D * x.2) := by
      have pick : ∀ (n : ℕ) (c : ℝ × ℝ), c ∈ triCorners tri → (∃ i p, t[n]? = some i ∧ mesh.points[i]? = some p ∧ (bulge rAvg).func c.1 c.2 = some p) →
          ∃ x ∈ t', c = ((bulge rAvg).length1 / 2 ^ D * x.1, (bulge rAvg).length2 / 2 ^ D * x.2) := by
        rintro n c hcm ⟨i, p, n1, n2, n3⟩
        have h3 := congrArg (fun l => l[n]?) het
        simp only [List.getElem?_map, n1, Option.map_some, n2] at h3
        obtain ⟨x, hx, hx'⟩ := Option.map_eq_some_iff.1 h3
        have hxm := List.mem_of_getElem? hx
        obtain ⟨r1, r2, r3, r4⟩ := hrange x hxm
        obtain ⟨i1, i2, i3, i4⟩ := hT.inside c hcm
        obtain ⟨b1, b2⟩ := grid_range (l := (bulge rAvg).length1) (by rw [e1]; exact hL1.le) (d := D) (i := x.1) (by omega)
        obtain ⟨b3, b4⟩ := grid_range (l := (bulge rAvg).length2) (by rw [e2]; exact hL2.le) (d := D) (i := x.2) (by omega)
        have hfe : (bulge rAvg).func c.1 c.2 = (bulge rAvg).func ((bulge rAvg).length1 / 2 ^ D * x.1) ((bulge rAvg).length2 / 2 ^ D * x.2) := by
          rw [n3]; exact hx'.symm
        obtain ⟨f1, f2⟩ := bulge_inj hr i1 i2 i3 i4 b1 b2 b3 b4 hfe
        exact ⟨x, hxm, Prod.ext f1 f2⟩
      intro c hcm
      have hcm' := hcm
      simp only [triCorners, List.mem_cons, List.not_mem_nil, or_false] at hcm'
      rcases hcm' with rfl | rfl | rfl
      · exact pick 0 _ hcm hT.point0
      · exact pick 1 _ hcm hT.point1
      · exact pick 2 _ hcm hT.point2
    have hD2 : (0 : ℝ) < 2 ^ D := by positivity
    have bound : ∀ (L : ℝ) (a b n m : ℕ), 0 < L → a * n ≤ m * 2 ^ D → L / 2 ^ D * n * a ≤ L * m := by
      intro L a b n m hLp hle
      have : ((a : ℝ) * n) ≤ m * 2 ^ D := by exact_mod_cast hle
      have h2 := mul_le_mul_of_nonneg_left this (div_pos hLp hD2).le
      have h3 : L / 2 ^ D * (m * 2 ^ D) = L * m := by field_simp
      linarith
    have bound' : ∀ (L : ℝ) (a b n m : ℕ), 0 < L → m * 2 ^ D ≤ a * n → L * m ≤ L / 2 ^ D * n * a := by
      intro L a b n m hLp hle
      have : ((m : ℝ) * 2 ^ D) ≤ a * n := by exact_mod_cast hle
      have h2 := mul_le_mul_of_nonneg_left this (div_pos hLp hD2).le
      have h3 : L / 2 ^ D * (m * 2 ^ D) = L * m := by field_simp
      linarith
    rcases bulge_clear hr hquads q hqm with h | h | h | h
    · have := (inTri_bounds hin (a := 0) (b := (bulge rAvg).length1 / 4)).1 (fun c hcm => by
        obtain ⟨x, hxm, rfl⟩ := hcorner c hcm
        obtain ⟨r1, r2, r3, r4⟩ := hrange x hxm
        have h4 : 4 * x.1 ≤ 1 * 2 ^ D := by nlinarith
        have := bound (bulge rAvg).length1 4 0 x.1 1 (by rw [e1]; exact hL1) h4
        simp only; push_cast at this; linarith)
      rw [e1] at this; simp only at this; linarith
    · have := (inTri_bounds hin (a := (bulge rAvg).length1 / 2) (b := 0)).2.1 (fun c hcm => by
        obtain ⟨x, hxm, rfl⟩ := hcorner c hcm
        obtain ⟨r1, r2, r3, r4⟩ := hrange x hxm
        have h4 : 1 * 2 ^ D ≤ 2 * x.1 := by nlinarith
        have := bound' (bulge rAvg).length1 2 0 x.1 1 (by rw [e1]; exact hL1) h4
        simp only; push_cast at this; linarith)
      rw [e1] at this; simp only at this; linarith
    · have := (inTri_bounds hin (a := 0) (b := (bulge rAvg).length2 / 8)).2.2.1 (fun c hcm => by
        obtain ⟨x, hxm, rfl⟩ := hcorner c hcm
        obtain ⟨r1, r2, r3, r4⟩ := hrange x hxm
        have h4 : 8 * x.2 ≤ 1 * 2 ^ D := by nlinarith
        have := bound (bulge rAvg).length2 8 0 x.2 1 (by rw [e2]; exact hL2) h4
        simp only; push_cast at this; linarith)
      rw [e2] at this; simp only at this; linarith
    · have := (inTri_bounds hin (a := (bulge rAvg).length2 / 4) (b := 0)).2.2.2 (fun c hcm => by
        obtain ⟨x, hxm, rfl⟩ := hcorner c hcm
        obtain ⟨r1, r2, r3, r4⟩ := hrange x hxm
        have h4 : 1 * 2 ^ D ≤ 4 * x.2 := by nlinarith
        have := bound' (bulge rAvg).length2 4 0 x.2 1 (by rw [e2]; exact hL2) h4
        simp only; push_cast at this; linarith)
      rw [e2] at this; simp only at this; linarith
  obtain ⟨f0, hfin⟩ := fuel_for_all (bulge rAvg).sections (fun sec hsec => section_finishes hs hK hl (size := fun _ => 0.98) (m0 := 0.98) (by norm_num) (fun _ => le_rfl) 2 hsec)
  refine ⟨hc, fun hcov => ?_, f0, fun fuel hfu name => ?_⟩
  · obtain ⟨f1, hf1⟩ := hcov 0.98 (by norm_num) none
    obtain ⟨mesh, hm, hall⟩ := hf1 f1 le_rfl
    obtain ⟨t, ht, tri, hT, hin⟩ := hall (3 / 8 * (4 * Real.pi / 3)) (3 / 16 * (2 * Real.pi * rAvg)) (by positivity)
      (by have : ((Path.circleXZ 0 1 1 (4 * Real.pi / 3)).revolveX rAvg (2 * Real.pi / 3)).length1 = 4 * Real.pi / 3 := e1
          rw [this]; linarith) (by positivity)
      (by have : ((Path.circleXZ 0 1 1 (4 * Real.pi / 3)).revolveX rAvg (2 * Real.pi / 3)).length2 = 2 * Real.pi * rAvg := rfl
          rw [this]; linarith)
    exact main f1 none mesh hm t ht tri hT hin
  · obtain ⟨mesh, hm, -⟩ := rawMesh_total (splitReal (fun _ => 0.98)) fuel 2 (secs := (bulge rAvg).sections.map Surface.gridPoint)
      (nx := (bulge rAvg).breaks1.length + 1) (ny := (bulge rAvg).breaks2.length + 1) name (fun pt hpt => section_consistent hpt)
      (fun pt hpt => section_total hs hpt) (fun pt hpt => by
        obtain ⟨sec, hsec, rfl⟩ := List.mem_map.1 hpt
        exact hfin fuel hfu sec hsec) (by rw [List.length_map, sections_length])
    exact ⟨mesh, hm, main fuel name mesh hm⟩

end Traceon
