import Verif.Spec.MeshSize
import Verif.Props.Bulge
import Verif.Props.Crack
import Verif.Props.Ruled

/-!
# C108: the triangles of a surface mesh are no larger than the mesh size allows
-/
namespace Traceon
open Spec SMesh

theorem children_narrow {q : Quad} (h v : Bool) (hq : 4 * (q.i1 - q.i0) ≤ 2 ^ q.depth ∧ 4 * (q.j1 - q.j0) ≤ 2 ^ q.depth ∧ 2 ≤ q.depth) :
    ∀ c ∈ children q h v, 4 * (c.i1 - c.i0) ≤ 2 ^ c.depth ∧ 4 * (c.j1 - c.j0) ≤ 2 ^ c.depth ∧ 2 ≤ c.depth := by
  obtain ⟨h1, h2, h3⟩ := hq
  have hp : 2 ^ (q.depth + 1) = 2 ^ q.depth * 2 := Nat.pow_succ ..
  have h4 : 4 ≤ 2 ^ q.depth := by
    calc 4 = 2 ^ 2 := rfl
      _ ≤ 2 ^ q.depth := Nat.pow_le_pow_right (by norm_num) h3
  intro c hc
  unfold children at hc
  split at hc
  · simp only [List.mem_cons, List.not_mem_nil, or_false] at hc
    rcases hc with rfl | rfl | rfl | rfl <;> refine ⟨?_, ?_, ?_⟩ <;> simp only <;> omega
  · split at hc
    · simp only [List.mem_cons, List.not_mem_nil, or_false] at hc
      rcases hc with rfl | rfl <;> refine ⟨?_, ?_, ?_⟩ <;> simp only <;> omega
    · split at hc
      · simp only [List.mem_cons, List.not_mem_nil, or_false] at hc
        rcases hc with rfl | rfl <;> refine ⟨?_, ?_, ?_⟩ <;> simp only <;> omega
      · simp at hc

/-- The quads which remain are at most a quarter wide, and their sides are not longer than the mesh size at their centre. -/
theorem final_quads {s : Surface} {size : V3 → ℝ} {fuel : ℕ} {r : List Quad} (h : refineAll (decision s.gridPoint (splitReal size)) fuel 2 = some r) :
    ∀ q ∈ r, (4 * (q.i1 - q.i0) ≤ 2 ^ q.depth ∧ 4 * (q.j1 - q.j0) ≤ 2 ^ q.depth) ∧ ∀ a b c d, s.gridPoint q.depth q.i0 q.j0 = some a → s.gridPoint q.depth q.i0 q.j1 = some b →
      s.gridPoint q.depth q.i1 q.j1 = some c → s.gridPoint q.depth q.i1 q.j0 = some d →
      Spec.dist a b ≤ size (quadCentre a b d c) ∧ Spec.dist d c ≤ size (quadCentre a b d c) ∧ Spec.dist a d ≤ size (quadCentre a b d c) ∧ Spec.dist b c ≤ size (quadCentre a b d c) := by
  refine refineAll_closed (P := fun q => 4 * (q.i1 - q.i0) ≤ 2 ^ q.depth ∧ 4 * (q.j1 - q.j0) ≤ 2 ^ q.depth ∧ 2 ≤ q.depth) (fun q h v hq _ _ => children_narrow h v hq) ?_ ?_ h
  · rintro q ⟨h1, h2, -⟩ hd
    refine ⟨⟨h1, h2⟩, fun a b c d ha hb hc hd' => ?_⟩
    unfold decision at hd
    rw [ha, hb, hd', hc] at hd
    simp only [Option.bind_some, Option.map_some, Option.some.injEq, splitReal, Prod.mk.injEq, decide_eq_false_iff_not, not_or, not_lt, gt_iff_lt] at hd
    obtain ⟨⟨k1, -⟩, k2, -⟩ := hd
    unfold horizontalSize at k1
    unfold verticalSize at k2
    exact ⟨(le_max_left _ _).trans k1, (le_max_right _ _).trans k1, (le_max_left _ _).trans k2, (le_max_right _ _).trans k2⟩
  · intro q hq
    unfold startQuads at hq
    obtain ⟨i, -, hq⟩ := List.mem_flatMap.1 hq
    obtain ⟨j, -, rfl⟩ := List.mem_map.1 hq
    refine ⟨?_, ?_, ?_⟩ <;> simp

/-- Besides corners of the quad, a triangle contains at most the middle of one side. -/
theorem quadTriangles_side (m : IndexMap) (q : Quad) {t : List Pos} (ht : t ∈ quadTriangles m q) :
    ∃ x y, (x, y) ∈ [((q.i0, q.j0), (q.i0, q.j1)), ((q.i0, q.j1), (q.i1, q.j1)), ((q.i1, q.j1), (q.i1, q.j0)), ((q.i1, q.j0), (q.i0, q.j0))] ∧
      ∀ p ∈ t, p ∈ [(q.i0, q.j0), (q.i0, q.j1), (q.i1, q.j1), (q.i1, q.j0), midPos x y] := by
  unfold quadTriangles at ht
  simp only at ht
  split at ht
  · refine ⟨_, _, List.mem_cons_self .., fun p hp => ?_⟩
    simp only [threeTriangles, List.mem_cons, List.not_mem_nil, or_false] at ht ⊢
    rcases ht with rfl | rfl | rfl <;> simp only [List.mem_cons, List.not_mem_nil, or_false] at hp <;> tauto
  · split at ht
    · refine ⟨_, _, List.mem_cons_of_mem _ (List.mem_cons_self ..), fun p hp => ?_⟩
      simp only [threeTriangles, List.mem_cons, List.not_mem_nil, or_false] at ht ⊢
      rcases ht with rfl | rfl | rfl <;> simp only [List.mem_cons, List.not_mem_nil, or_false] at hp <;> tauto
    · split at ht
      · refine ⟨_, _, List.mem_cons_of_mem _ (List.mem_cons_of_mem _ (List.mem_cons_self ..)), fun p hp => ?_⟩
        simp only [threeTriangles, List.mem_cons, List.not_mem_nil, or_false] at ht ⊢
        rcases ht with rfl | rfl | rfl <;> simp only [List.mem_cons, List.not_mem_nil, or_false] at hp <;> tauto
      · split at ht
        · refine ⟨_, _, List.mem_cons_of_mem _ (List.mem_cons_of_mem _ (List.mem_cons_of_mem _ (List.mem_cons_self ..))), fun p hp => ?_⟩
          simp only [threeTriangles, List.mem_cons, List.not_mem_nil, or_false] at ht ⊢
          rcases ht with rfl | rfl | rfl <;> simp only [List.mem_cons, List.not_mem_nil, or_false] at hp <;> tauto
        · refine ⟨_, _, List.mem_cons_self .., fun p hp => ?_⟩
          simp only [List.mem_cons, List.not_mem_nil, or_false] at ht ⊢
          rcases ht with rfl | rfl <;> simp only [List.mem_cons, List.not_mem_nil, or_false] at hp <;> tauto

theorem dist_comm3 (p q : V3) : Spec.dist p q = Spec.dist q p := by
  unfold Spec.dist
  rw [show p - q = (-1 : ℝ) * (q - p) by ext <;> simp, norm_smul']
  simp

theorem dist_self3 (p : V3) : Spec.dist p p = 0 := by
  unfold Spec.dist V3.norm V3.dot
  simp

/-- Four points around a quad with sides of at most `L`, and one point between the ends of one side: they are at most `2 L` apart. -/
theorem five_points {a b c d : V3} {L : ℝ} (h1 : Spec.dist a b ≤ L) (h2 : Spec.dist b c ≤ L) (h3 : Spec.dist c d ≤ L) (h4 : Spec.dist d a ≤ L) {e : V3}
    (he : (Spec.dist a e ≤ L ∧ Spec.dist e b ≤ L) ∨ (Spec.dist b e ≤ L ∧ Spec.dist e c ≤ L) ∨ (Spec.dist c e ≤ L ∧ Spec.dist e d ≤ L) ∨ (Spec.dist d e ≤ L ∧ Spec.dist e a ≤ L)) :
    ∀ p ∈ [a, b, c, d, e], ∀ q ∈ [a, b, c, d, e], Spec.dist p q ≤ 2 * L := by
  have hL : 0 ≤ L := (norm_nonneg' _).trans h1
  have tri := fun x y z : V3 => dist_triangle' x y z
  have key : Spec.dist a c ≤ 2 * L ∧ Spec.dist b d ≤ 2 * L ∧ Spec.dist e a ≤ 2 * L ∧ Spec.dist e b ≤ 2 * L ∧ Spec.dist e c ≤ 2 * L ∧ Spec.dist e d ≤ 2 * L := by
    have c1 := dist_comm3 a b
    have c2 := dist_comm3 b c
    have c3 := dist_comm3 c d
    have c4 := dist_comm3 d a
    have c5 := dist_comm3 a e
    have c6 := dist_comm3 b e
    have c7 := dist_comm3 c e
    have c8 := dist_comm3 d e
    refine ⟨by linarith [tri a b c], by linarith [tri b c d], ?_, ?_, ?_, ?_⟩
    · rcases he with ⟨e1, e2⟩ | ⟨e1, e2⟩ | ⟨e1, e2⟩ | ⟨e1, e2⟩
      · linarith
      · linarith [tri e b a]
      · linarith [tri e d a]
      · linarith
    · rcases he with ⟨e1, e2⟩ | ⟨e1, e2⟩ | ⟨e1, e2⟩ | ⟨e1, e2⟩
      · linarith
      · linarith
      · linarith [tri e c b]
      · linarith [tri e a b]
    · rcases he with ⟨e1, e2⟩ | ⟨e1, e2⟩ | ⟨e1, e2⟩ | ⟨e1, e2⟩
      · linarith [tri e b c]
      · linarith
      · linarith
      · linarith [tri e d c]
    · rcases he with ⟨e1, e2⟩ | ⟨e1, e2⟩ | ⟨e1, e2⟩ | ⟨e1, e2⟩
      · linarith [tri e a d]
      · linarith [tri e c d]
      · linarith
      · linarith
  obtain ⟨k1, k2, k3, k4, k5, k6⟩ := key
  have sym : ∀ {x y : V3}, Spec.dist x y ≤ 2 * L → Spec.dist y x ≤ 2 * L := fun h => by rw [dist_comm3]; exact h
  have self : ∀ x : V3, Spec.dist x x ≤ 2 * L := fun x => by rw [dist_self3]; linarith
  have s1 : Spec.dist a b ≤ 2 * L := by linarith
  have s2 : Spec.dist b c ≤ 2 * L := by linarith
  have s3 : Spec.dist c d ≤ 2 * L := by linarith
  have s4 : Spec.dist d a ≤ 2 * L := by linarith
  intro p hp q hq
  simp only [List.mem_cons, List.not_mem_nil, or_false] at hp hq
  rcases hp with rfl | rfl | rfl | rfl | rfl <;> rcases hq with rfl | rfl | rfl | rfl | rfl <;> first | assumption | exact self _ | exact sym (by assumption)

theorem norm_add_le3 (x y : V3) : V3.norm (x + y) ≤ V3.norm x + V3.norm y := by
  have h := dist_triangle' x 0 ((-1 : ℝ) * y)
  unfold Spec.dist at h
  rw [show x - (-1 : ℝ) * y = x + y by ext <;> simp, show x - 0 = x by ext <;> simp, show (0 : V3) - (-1 : ℝ) * y = y by ext <;> simp] at h
  exact h

/-- The centre of four points is not farther from a point than the farthest of them. -/
theorem centre_near {a b c d p : V3} {L : ℝ} (ha : Spec.dist a p ≤ L) (hb : Spec.dist b p ≤ L) (hc : Spec.dist c p ≤ L) (hd : Spec.dist d p ≤ L) : Spec.dist (quadCentre a b c d) p ≤ L := by
  have : quadCentre a b c d - p = (1 / 4 : ℝ) * ((a - p) + (b - p) + (c - p) + (d - p)) := by
    unfold quadCentre
    ext <;> simp <;> ring
  unfold Spec.dist at *
  rw [this, norm_smul']
  have h1 := norm_add_le3 ((a - p) + (b - p) + (c - p)) (d - p)
  have h2 := norm_add_le3 ((a - p) + (b - p)) (c - p)
  have h3 := norm_add_le3 (a - p) (b - p)
  rw [abs_of_pos (by norm_num)]
  linarith

/-- A point of the finest grid is a point of the surface. -/
theorem gridPoint_scale (s : Surface) {d D : ℕ} (h : d ≤ D) (i j : ℕ) : s.gridPoint D (i * 2 ^ (D - d)) (j * 2 ^ (D - d)) = s.gridPoint d i j := by
  have e : (2 : ℝ) ^ D = 2 ^ d * 2 ^ (D - d) := by rw [← pow_add]; congr 1; omega
  have hp : (2 : ℝ) ^ (D - d) ≠ 0 := by positivity
  have hq : (2 : ℝ) ^ d ≠ 0 := by positivity
  unfold Surface.gridPoint
  congr 1
  · push_cast; rw [e]; field_simp
  · push_cast; rw [e]; field_simp

set_option maxHeartbeats 1000000 in
/-- **C108.** For every surface which does not turn back within a quarter of a section, and any mesh size function: the sides of every triangle are at most twice as long as the mesh size at a point
which is itself that near to the corners. -/
theorem C108_size {s : Surface} (hs : GoodSurface s) (hb : s.breaks1 = [] ∨ s.breaks2 = []) (ho : ∀ sec ∈ s.sections, Onward sec) {size : V3 → ℝ} {fuel : ℕ}
    {name : Option String} {mesh : Mesh V3} (h : s.rawMesh size fuel name = some mesh) :
    ∀ t ∈ mesh.triangles, ∃ c, ∀ i ∈ t, ∀ p, mesh.points[i]? = some p → Spec.dist c p ≤ 2 * size c ∧ ∀ j ∈ t, ∀ q, mesh.points[j]? = some q → Spec.dist p q ≤ 2 * size c := by
  have hr := refined_of_rawMesh (fun pt hpt => section_consistent hpt) h
  obtain ⟨mesh', D, ms, rs, h1, hml, hrl, hq, hdef, htri, -⟩ := SMesh.rawMesh_spec (splitReal size) fuel 2 name (fun pt hpt => section_consistent hpt)
    (fun pt hpt => section_total hs hpt) hr (by rw [List.length_map, sections_length]) (adjacent_ok hb)
  unfold Surface.rawMesh at h
  rw [h] at h1
  cases h1
  intro t ht
  have hm := List.mem_map_of_mem (f := fun t => List.map (fun k => mesh.points[k]?) t) ht
  rw [htri] at hm
  obtain ⟨l, hl1, hl2⟩ := List.mem_flatten.1 hm
  obtain ⟨x, hx, rfl⟩ := List.mem_map.1 hl1
  obtain ⟨t', ht', he⟩ := List.mem_map.1 hl2
  obtain ⟨k, hk⟩ := List.getElem?_of_mem hx
  rw [List.getElem?_zip_eq_some, List.getElem?_zip_eq_some] at hk
  obtain ⟨k1, k2, k3⟩ := hk
  obtain ⟨href, hgrid⟩ := hq k _ _ k3 k2
  rw [List.getElem?_map] at k3
  obtain ⟨sec, k4, k5⟩ := Option.map_eq_some_iff.1 k3
  have hsec := List.mem_of_getElem? k4
  have hon := ho sec hsec
  obtain ⟨hgs, hl1', hl2'⟩ := section_good hs hsec
  rw [← k5] at href he
  unfold sectionTriangles at ht'
  obtain ⟨q', hq', htq⟩ := List.mem_flatMap.1 ht'
  obtain ⟨q, hqm, rfl⟩ := List.mem_map.1 hq'
  obtain ⟨⟨g1, g2, g3, g4⟩, hD⟩ := hgrid q hqm
  obtain ⟨⟨n1, n2⟩, hsides⟩ := final_quads href q hqm
  have hpow : 2 ^ q.depth * 2 ^ (D - q.depth) = 2 ^ D := by rw [← Nat.pow_add]; congr 1; omega
  have u1 : q.i1 * 2 ^ (D - q.depth) ≤ 2 ^ D := by rw [← hpow]; exact Nat.mul_le_mul_right _ g2
  have u2 : q.j1 * 2 ^ (D - q.depth) ≤ 2 ^ D := by rw [← hpow]; exact Nat.mul_le_mul_right _ g4
  have g1' : q.i0 * 2 ^ (D - q.depth) ≤ q.i1 * 2 ^ (D - q.depth) := Nat.mul_le_mul_right _ g1.le
  have g3' : q.j0 * 2 ^ (D - q.depth) ≤ q.j1 * 2 ^ (D - q.depth) := Nat.mul_le_mul_right _ g3.le
  have w1 : 4 * (q.i1 * 2 ^ (D - q.depth)) ≤ 4 * (q.i0 * 2 ^ (D - q.depth)) + 2 ^ D := by
    have := Nat.mul_le_mul_right (2 ^ (D - q.depth)) (show 4 * q.i1 ≤ 4 * q.i0 + 2 ^ q.depth by omega)
    rw [Nat.add_mul, hpow] at this
    linarith
  have w2 : 4 * (q.j1 * 2 ^ (D - q.depth)) ≤ 4 * (q.j0 * 2 ^ (D - q.depth)) + 2 ^ D := by
    have := Nat.mul_le_mul_right (2 ^ (D - q.depth)) (show 4 * q.j1 ≤ 4 * q.j0 + 2 ^ q.depth by omega)
    rw [Nat.add_mul, hpow] at this
    linarith
  -- the five points
  have hsome : ∀ d i j, i ≤ 2 ^ d → j ≤ 2 ^ d → ∃ p, sec.gridPoint d i j = some p := fun d i j hi hj => ⟨_, evenGrid_some hgs hl1' hl2' hi hj⟩
  obtain ⟨a, ha⟩ := hsome q.depth q.i0 q.j0 (by omega) (by omega)
  obtain ⟨b, hb'⟩ := hsome q.depth q.i0 q.j1 (by omega) (by omega)
  obtain ⟨c, hc⟩ := hsome q.depth q.i1 q.j1 (by omega) (by omega)
  obtain ⟨d, hd⟩ := hsome q.depth q.i1 q.j0 (by omega) (by omega)
  obtain ⟨s1, s2, s3, s4⟩ := hsides a b c d ha hb' hc hd
  have ha' : sec.gridPoint D (scaleQuad D q).i0 (scaleQuad D q).j0 = some a := (gridPoint_scale sec hD _ _).trans ha
  have hb2 : sec.gridPoint D (scaleQuad D q).i0 (scaleQuad D q).j1 = some b := (gridPoint_scale sec hD _ _).trans hb'
  have hc' : sec.gridPoint D (scaleQuad D q).i1 (scaleQuad D q).j1 = some c := (gridPoint_scale sec hD _ _).trans hc
  have hd' : sec.gridPoint D (scaleQuad D q).i1 (scaleQuad D q).j0 = some d := (gridPoint_scale sec hD _ _).trans hd
  obtain ⟨x0, y0, hxy, hin⟩ := quadTriangles_side _ _ htq
  -- points between two points of a row or a column
  have hDp : (0 : ℝ) < 2 ^ D := by positivity
  have scale : ∀ {len : ℝ}, 0 ≤ len → ∀ {i i' : ℕ}, i ≤ i' → len / 2 ^ D * i ≤ len / 2 ^ D * i' := fun hl i i' hi =>
    mul_le_mul_of_nonneg_left (by exact_mod_cast hi) (by positivity)
  have top : ∀ {len : ℝ}, 0 ≤ len → ∀ {i : ℕ}, i ≤ 2 ^ D → len / 2 ^ D * i ≤ len := by
    intro len hl i hi
    have : (i : ℝ) ≤ 2 ^ D := by exact_mod_cast hi
    calc len / 2 ^ D * i ≤ len / 2 ^ D * 2 ^ D := mul_le_mul_of_nonneg_left this (by positivity)
      _ = len := by field_simp
  have width : ∀ {len : ℝ}, 0 ≤ len → ∀ {i i' : ℕ}, 4 * i' ≤ 4 * i + 2 ^ D → len / 2 ^ D * i' - len / 2 ^ D * i ≤ len / 4 := by
    intro len hl i i' hi
    have : 4 * (i' : ℝ) ≤ 4 * i + 2 ^ D := by exact_mod_cast hi
    have h2 := mul_le_mul_of_nonneg_left this (div_nonneg hl hDp.le)
    have h3 : len / 2 ^ D * (4 * (i : ℝ) + 2 ^ D) = 4 * (len / 2 ^ D * i) + len := by field_simp
    rw [h3] at h2
    nlinarith
  have row : ∀ {i i' i'' j : ℕ} {p p' p'' : V3}, i ≤ i' → i' ≤ i'' → i'' ≤ 2 ^ D → 4 * i'' ≤ 4 * i + 2 ^ D → j ≤ 2 ^ D → sec.gridPoint D i j = some p → sec.gridPoint D i' j = some p' →
      sec.gridPoint D i'' j = some p'' → Amid p p' p'' := fun h1 h2 h3 h4 h5 e1 e2 e3 =>
    hon.first _ _ _ _ _ _ _ (by positivity) (scale hl1' h1) (scale hl1' h2) (top hl1' h3) (width hl1' h4) (by positivity) (top hl2' h5) e1 e2 e3
  have col : ∀ {i j j' j'' : ℕ} {p p' p'' : V3}, j ≤ j' → j' ≤ j'' → j'' ≤ 2 ^ D → 4 * j'' ≤ 4 * j + 2 ^ D → i ≤ 2 ^ D → sec.gridPoint D i j = some p → sec.gridPoint D i j' = some p' →
      sec.gridPoint D i j'' = some p'' → Amid p p' p'' := fun h1 h2 h3 h4 h5 e1 e2 e3 =>
    hon.second _ _ _ _ _ _ _ (by positivity) (scale hl2' h1) (scale hl2' h2) (top hl2' h3) (width hl2' h4) (by positivity) (top hl1' h5) e1 e2 e3
  obtain ⟨e, hge, hmid⟩ : ∃ e, sec.gridPoint D (midPos x0 y0).1 (midPos x0 y0).2 = some e ∧
      ((Spec.dist a e ≤ size (quadCentre a b d c) ∧ Spec.dist e b ≤ size (quadCentre a b d c)) ∨ (Spec.dist b e ≤ size (quadCentre a b d c) ∧ Spec.dist e c ≤ size (quadCentre a b d c)) ∨
        (Spec.dist c e ≤ size (quadCentre a b d c) ∧ Spec.dist e d ≤ size (quadCentre a b d c)) ∨ (Spec.dist d e ≤ size (quadCentre a b d c) ∧ Spec.dist e a ≤ size (quadCentre a b d c))) := by
    generalize hL : size (quadCentre a b d c) = L at *
    have v1 : (scaleQuad D q).i0 ≤ (scaleQuad D q).i1 := g1'
    have v2 : (scaleQuad D q).j0 ≤ (scaleQuad D q).j1 := g3'
    have v3 : (scaleQuad D q).i1 ≤ 2 ^ D := u1
    have v4 : (scaleQuad D q).j1 ≤ 2 ^ D := u2
    have v5 : 4 * (scaleQuad D q).i1 ≤ 4 * (scaleQuad D q).i0 + 2 ^ D := w1
    have v6 : 4 * (scaleQuad D q).j1 ≤ 4 * (scaleQuad D q).j0 + 2 ^ D := w2
    generalize (scaleQuad D q).i0 = i0 at *
    generalize (scaleQuad D q).i1 = i1 at *
    generalize (scaleQuad D q).j0 = j0 at *
    generalize (scaleQuad D q).j1 = j1 at *
    simp only [List.mem_cons, List.not_mem_nil, or_false, Prod.mk.injEq] at hxy
    rcases hxy with ⟨rfl, rfl⟩ | ⟨rfl, rfl⟩ | ⟨rfl, rfl⟩ | ⟨rfl, rfl⟩
    · obtain ⟨e, he⟩ := hsome D i0 ((j0 + j1) / 2) (by omega) (by omega)
      have := col (show j0 ≤ (j0 + j1) / 2 by omega) (show (j0 + j1) / 2 ≤ j1 by omega) v4 v6 (by omega) ha' he hb2
      refine ⟨e, ?_, Or.inl ⟨this.1.trans s1, this.2.trans s1⟩⟩
      simp only [midPos]; rw [show (i0 + i0) / 2 = i0 by omega]; exact he
    · obtain ⟨e, he⟩ := hsome D ((i0 + i1) / 2) j1 (by omega) (by omega)
      have := row (show i0 ≤ (i0 + i1) / 2 by omega) (show (i0 + i1) / 2 ≤ i1 by omega) v3 v5 (by omega) hb2 he hc'
      refine ⟨e, ?_, Or.inr (Or.inl ⟨this.1.trans s4, this.2.trans s4⟩)⟩
      simp only [midPos]; rw [show (j1 + j1) / 2 = j1 by omega]; exact he
    · obtain ⟨e, he⟩ := hsome D i1 ((j0 + j1) / 2) (by omega) (by omega)
      have := col (show j0 ≤ (j0 + j1) / 2 by omega) (show (j0 + j1) / 2 ≤ j1 by omega) v4 v6 (by omega) hd' he hc'
      refine ⟨e, ?_, Or.inr (Or.inr (Or.inl ⟨by rw [dist_comm3]; exact this.2.trans s2, by rw [dist_comm3]; exact this.1.trans s2⟩))⟩
      simp only [midPos]; rw [show (i1 + i1) / 2 = i1 by omega, Nat.add_comm j1 j0]; exact he
    · obtain ⟨e, he⟩ := hsome D ((i0 + i1) / 2) j0 (by omega) (by omega)
      have := row (show i0 ≤ (i0 + i1) / 2 by omega) (show (i0 + i1) / 2 ≤ i1 by omega) v3 v5 (by omega) ha' he hd'
      refine ⟨e, ?_, Or.inr (Or.inr (Or.inr ⟨by rw [dist_comm3]; exact this.2.trans s3, by rw [dist_comm3]; exact this.1.trans s3⟩))⟩
      simp only [midPos]; rw [show (j0 + j0) / 2 = j0 by omega, Nat.add_comm i1 i0]; exact he
  have five := five_points s1 s4 (by rw [dist_comm3]; exact s2) (by rw [dist_comm3]; exact s3) hmid
  have hpts : ∀ i ∈ t, ∀ p, mesh.points[i]? = some p → p ∈ [a, b, c, d, e] := by
    intro i hi p hp
    have : mesh.points[i]? ∈ t.map fun k => mesh.points[k]? := List.mem_map_of_mem hi
    rw [← he] at this
    obtain ⟨pos, hpos, hpe⟩ := List.mem_map.1 this
    rw [hp] at hpe
    have := hin pos hpos
    simp only [List.mem_cons, List.not_mem_nil, or_false] at this ⊢
    rcases this with rfl | rfl | rfl | rfl | rfl
    · exact Or.inl (Option.some.inj (hpe.symm.trans ha'))
    · exact Or.inr (Or.inl (Option.some.inj (hpe.symm.trans hb2)))
    · exact Or.inr (Or.inr (Or.inl (Option.some.inj (hpe.symm.trans hc'))))
    · exact Or.inr (Or.inr (Or.inr (Or.inl (Option.some.inj (hpe.symm.trans hd')))))
    · exact Or.inr (Or.inr (Or.inr (Or.inr (Option.some.inj (hpe.symm.trans hge)))))
  refine ⟨quadCentre a b d c, fun i hi p hp => ⟨?_, fun j hj q hq => five p (hpts i hi p hp) q (hpts j hj q hq)⟩⟩
  have hp' := hpts i hi p hp
  exact centre_near (five a (by simp) p hp') (five b (by simp) p hp') (five d (by simp) p hp') (five c (by simp) p hp')

end Traceon
