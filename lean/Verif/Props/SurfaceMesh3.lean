import Verif.Props.SurfaceMesh2
import Verif.Props.Mesh

/-!
# Theorems about the surface mesher: C66 (it finishes), C19 (joining sections), C67 (the mesh covers the surface)
-/
namespace Traceon
open Spec V3 SMesh

/-- The breakpoints are in ascending order, between 0 and the length. -/
def Spec.GoodBreaks (breaks : List ℝ) (len : ℝ) : Prop := (0 :: breaks ++ [len]).Pairwise (· ≤ ·)

/-- The surface function is defined on the whole parameter rectangle, and the breakpoints are in order. -/
structure Spec.GoodSurface (s : Surface) : Prop where
  breaks1 : GoodBreaks s.breaks1 s.length1
  breaks2 : GoodBreaks s.breaks2 s.length2
  total : ∀ u v, 0 ≤ u → u ≤ s.length1 → 0 ≤ v → v ≤ s.length2 → (s.func u v).isSome

theorem pairs_get {l : List ℝ} {k : ℕ} {uu : ℝ × ℝ} (h : (Surface.pairs l)[k]? = some uu) : l[k]? = some uu.1 ∧ l[k + 1]? = some uu.2 := by
  unfold Surface.pairs at h
  rw [List.getElem?_zip_eq_some] at h
  exact ⟨h.1, by rw [← h.2, List.getElem?_tail]⟩

theorem pairs_bounds {b : List ℝ} {len : ℝ} (h : GoodBreaks b len) {uu : ℝ × ℝ} (hu : uu ∈ Surface.pairs (0 :: b ++ [len])) :
    0 ≤ uu.1 ∧ uu.1 ≤ uu.2 ∧ uu.2 ≤ len := by
  obtain ⟨k, hk⟩ := List.getElem?_of_mem hu
  obtain ⟨h1, h2⟩ := pairs_get hk
  unfold GoodBreaks at h
  obtain ⟨l1, e1⟩ := List.getElem?_eq_some_iff.1 h1
  obtain ⟨l2, e2⟩ := List.getElem?_eq_some_iff.1 h2
  have hp := List.pairwise_iff_getElem.1 h
  refine ⟨?_, ?_, ?_⟩
  · rcases Nat.eq_zero_or_pos k with rfl | hk0
    · simp at e1; rw [← e1]
    · have := hp 0 k (by simp) l1 hk0
      rw [e1] at this; simpa using this
  · have := hp k (k + 1) l1 l2 (by omega)
    rw [e1, e2] at this; exact this
  · have hlast : (0 :: b ++ [len])[b.length + 1]'(by simp) = len := by simp
    rcases Nat.lt_or_ge (k + 1) (b.length + 1) with hlt | hge
    · have := hp (k + 1) (b.length + 1) l2 (by simp) hlt
      rw [e2, hlast] at this; exact this
    · have : k + 1 = b.length + 1 := by simp at l2; omega
      rw [← e2]
      have e : (0 :: b ++ [len])[k + 1]'l2 = (0 :: b ++ [len])[b.length + 1]'(by simp) := by congr 1
      rw [e, hlast]

theorem pairs_length (b : List ℝ) (len : ℝ) : (Surface.pairs (0 :: b ++ [len])).length = b.length + 1 := by
  simp [Surface.pairs]

theorem sections_length (s : Surface) : s.sections.length = (s.breaks1.length + 1) * (s.breaks2.length + 1) := by
  unfold Surface.sections
  rw [List.length_flatMap]
  simp only [List.length_map, pairs_length]
  rw [List.map_const', List.sum_replicate, pairs_length]
  simp

theorem section_point {s sec : Surface} (h : sec ∈ s.sections) : ∃ uu ∈ Surface.pairs (0 :: s.breaks1 ++ [s.length1]),
    ∃ vv ∈ Surface.pairs (0 :: s.breaks2 ++ [s.length2]), ∀ d i j, sec.gridPoint d i j
      = s.func (uu.1 + (uu.2 - uu.1) / 2 ^ d * i) (vv.1 + (vv.2 - vv.1) / 2 ^ d * j) := by
  unfold Surface.sections at h
  obtain ⟨uu, hu, h⟩ := List.mem_flatMap.1 h
  obtain ⟨vv, hv, rfl⟩ := List.mem_map.1 h
  exact ⟨uu, hu, vv, hv, fun _ _ _ => rfl⟩

theorem grid_between {a b : ℝ} (h : a ≤ b) {d i : ℕ} (hi : i ≤ 2 ^ d) : a ≤ a + (b - a) / 2 ^ d * i ∧ a + (b - a) / 2 ^ d * i ≤ b := by
  have h2 : (0 : ℝ) < 2 ^ d := by positivity
  have hi' : (i : ℝ) ≤ 2 ^ d := by exact_mod_cast hi
  have h3 : (0 : ℝ) ≤ (b - a) / 2 ^ d := div_nonneg (by linarith) h2.le
  refine ⟨by nlinarith [Nat.cast_nonneg (α := ℝ) i], ?_⟩
  have : (b - a) / 2 ^ d * i ≤ (b - a) / 2 ^ d * 2 ^ d := mul_le_mul_of_nonneg_left hi' h3
  rw [div_mul_cancel₀ _ h2.ne'] at this
  linarith

theorem section_total {s : Surface} (hs : GoodSurface s) {pt : ℕ → ℕ → ℕ → Option V3} (h : pt ∈ s.sections.map Surface.gridPoint) :
    ∀ d i j, i ≤ 2 ^ d → j ≤ 2 ^ d → (pt d i j).isSome := by
  obtain ⟨sec, hsec, rfl⟩ := List.mem_map.1 h
  obtain ⟨uu, hu, vv, hv, hp⟩ := section_point hsec
  intro d i j hi hj
  rw [hp]
  obtain ⟨a1, a2, a3⟩ := pairs_bounds hs.breaks1 hu
  obtain ⟨b1, b2, b3⟩ := pairs_bounds hs.breaks2 hv
  obtain ⟨c1, c2⟩ := grid_between a2 hi
  obtain ⟨d1, d2⟩ := grid_between b2 hj
  exact hs.total _ _ (by linarith) (by linarith) (by linarith) (by linarith)

theorem section_consistent {s : Surface} {pt : ℕ → ℕ → ℕ → Option V3} (h : pt ∈ s.sections.map Surface.gridPoint) : Consistent pt := by
  obtain ⟨sec, _, rfl⟩ := List.mem_map.1 h
  exact gridPoint_consistent sec

/-! ## C66 -/

/-- The surface does not move faster than `K` per unit of either parameter. -/
def Spec.LipschitzSurface (s : Surface) (K : ℝ) : Prop :=
  (∀ u u' v p p', 0 ≤ u → u ≤ s.length1 → 0 ≤ u' → u' ≤ s.length1 → 0 ≤ v → v ≤ s.length2 →
    s.func u v = some p → s.func u' v = some p' → Spec.dist p p' ≤ K * |u - u'|) ∧
  (∀ u v v' p p', 0 ≤ u → u ≤ s.length1 → 0 ≤ v → v ≤ s.length2 → 0 ≤ v' → v' ≤ s.length2 →
    s.func u v = some p → s.func u v' = some p' → Spec.dist p p' ≤ K * |v - v'|)

theorem narrow_step {a b K L m0 : ℝ} {N d w : ℕ} (hab : a ≤ b) (hL : b - a ≤ L) (hK : 0 ≤ K)
    (hN : 8 * (K * L) ≤ m0 * 2 ^ N) (hw : w * 2 ^ N ≤ 2 ^ d) {x y : ℕ} (hxy : x + w = y) :
    K * |(a + (b - a) / 2 ^ d * x) - (a + (b - a) / 2 ^ d * y)| ≤ m0 / 8 := by
  subst hxy
  have h2 : (0 : ℝ) < 2 ^ d := by positivity
  have hN2 : (0 : ℝ) < 2 ^ N := by positivity
  have e : (a + (b - a) / 2 ^ d * x) - (a + (b - a) / 2 ^ d * ((x + w : ℕ) : ℝ)) = -((b - a) * w / 2 ^ d) := by push_cast; field_simp; ring
  rw [e, abs_neg, abs_of_nonneg (by have : 0 ≤ b - a := by linarith
                                    positivity)]
  have hw' : (w : ℝ) * 2 ^ N ≤ 2 ^ d := by exact_mod_cast hw
  have h3 : (w : ℝ) / 2 ^ d ≤ 1 / 2 ^ N := by rw [div_le_div_iff₀ h2 hN2]; linarith
  have h4 : (b - a) * w / 2 ^ d ≤ L * (1 / 2 ^ N) := by
    rw [mul_div_assoc]
    have : 0 ≤ (w : ℝ) / 2 ^ d := by positivity
    have h0 : 0 ≤ L := by linarith
    calc (b - a) * (w / 2 ^ d) ≤ L * (w / 2 ^ d) := mul_le_mul_of_nonneg_right hL this
      _ ≤ L * (1 / 2 ^ N) := mul_le_mul_of_nonneg_left h3 h0
  calc K * ((b - a) * w / 2 ^ d) ≤ K * (L * (1 / 2 ^ N)) := mul_le_mul_of_nonneg_left h4 hK
    _ = (K * L) / 2 ^ N := by ring
    _ ≤ m0 / 8 := by rw [div_le_div_iff₀ hN2 (by norm_num)]; linarith

theorem section_finishes {s : Surface} (hs : GoodSurface s) {K : ℝ} (hK : 0 ≤ K) (hl : LipschitzSurface s K) {size : V3 → ℝ} {m0 : ℝ}
    (hm0 : 0 < m0) (hsize : ∀ p, m0 ≤ size p) (start : ℕ) {sec : Surface} (hsec : sec ∈ s.sections) :
    ∃ fuel0, ∀ fuel, fuel0 ≤ fuel → ∃ quads, refineAll (decision sec.gridPoint (splitReal size)) fuel start = some quads := by
  obtain ⟨uu, hu, vv, hv, hp⟩ := section_point hsec
  obtain ⟨a1, a2, a3⟩ := pairs_bounds hs.breaks1 hu
  obtain ⟨b1, b2, b3⟩ := pairs_bounds hs.breaks2 hv
  obtain ⟨N1, hN1⟩ := pow_unbounded_of_one_lt (8 * (K * s.length1) / m0) (by norm_num : (1 : ℝ) < 2)
  obtain ⟨N2, hN2⟩ := pow_unbounded_of_one_lt (8 * (K * s.length2) / m0) (by norm_num : (1 : ℝ) < 2)
  rw [div_lt_iff₀ hm0] at hN1 hN2
  have p1 : (2 : ℝ) ^ N1 ≤ 2 ^ max N1 N2 := pow_le_pow_right₀ (by norm_num) (le_max_left _ _)
  have p2 : (2 : ℝ) ^ N2 ≤ 2 ^ max N1 N2 := pow_le_pow_right₀ (by norm_num) (le_max_right _ _)
  have q1 : 8 * (K * s.length1) ≤ m0 * 2 ^ max N1 N2 := by nlinarith
  have q2 : 8 * (K * s.length2) ≤ m0 * 2 ^ max N1 N2 := by nlinarith
  have htot := section_total hs (List.mem_map_of_mem (f := Surface.gridPoint) hsec)
  refine refineAll_total (max N1 N2) (fun q hq => ?_) start
  obtain ⟨g1, g2, g3, g4⟩ := hq
  have t1 := htot q.depth q.i0 q.j0 (by omega) (by omega)
  have t2 := htot q.depth q.i0 q.j1 (by omega) (by omega)
  have t3 := htot q.depth q.i1 q.j0 (by omega) (by omega)
  have t4 := htot q.depth q.i1 q.j1 (by omega) (by omega)
  obtain ⟨c1, e1⟩ := Option.isSome_iff_exists.1 t1
  obtain ⟨c2, e2⟩ := Option.isSome_iff_exists.1 t2
  obtain ⟨c3, e3⟩ := Option.isSome_iff_exists.1 t3
  obtain ⟨c4, e4⟩ := Option.isSome_iff_exists.1 t4
  refine ⟨_, _, by unfold decision; rw [e1, e2, e3, e4]; rfl, fun hw => ?_, fun hw => ?_⟩
  · rw [hp] at e1 e2 e3 e4
    obtain ⟨i1, i2⟩ := grid_between a2 (show q.i0 ≤ 2 ^ q.depth by omega)
    obtain ⟨i3, i4⟩ := grid_between a2 (show q.i1 ≤ 2 ^ q.depth by omega)
    obtain ⟨j1, j2⟩ := grid_between b2 (show q.j0 ≤ 2 ^ q.depth by omega)
    obtain ⟨j3, j4⟩ := grid_between b2 (show q.j1 ≤ 2 ^ q.depth by omega)
    have k1 := hl.2 _ _ _ _ _ (by linarith) (by linarith) (by linarith) (by linarith) (by linarith) (by linarith) e1 e2
    have k2 := hl.2 _ _ _ _ _ (by linarith) (by linarith) (by linarith) (by linarith) (by linarith) (by linarith) e3 e4
    have k3 := narrow_step b2 (L := s.length2) (by linarith) hK q2 hw (x := q.j0) (y := q.j1) (by omega)
    have hm := hsize (quadCentre c1 c2 c3 c4)
    have hor : horizontalSize c1 c2 c3 c4 ≤ m0 / 8 := max_le (by unfold Spec.dist at k1; linarith) (by unfold Spec.dist at k2; linarith)
    simp only [decide_eq_false_iff_not, not_or, not_and, not_lt, gt_iff_lt]
    exact ⟨by linarith, fun _ => by linarith⟩
  · rw [hp] at e1 e2 e3 e4
    obtain ⟨i1, i2⟩ := grid_between a2 (show q.i0 ≤ 2 ^ q.depth by omega)
    obtain ⟨i3, i4⟩ := grid_between a2 (show q.i1 ≤ 2 ^ q.depth by omega)
    obtain ⟨j1, j2⟩ := grid_between b2 (show q.j0 ≤ 2 ^ q.depth by omega)
    obtain ⟨j3, j4⟩ := grid_between b2 (show q.j1 ≤ 2 ^ q.depth by omega)
    have k1 := hl.1 _ _ _ _ _ (by linarith) (by linarith) (by linarith) (by linarith) (by linarith) (by linarith) e1 e3
    have k2 := hl.1 _ _ _ _ _ (by linarith) (by linarith) (by linarith) (by linarith) (by linarith) (by linarith) e2 e4
    have k3 := narrow_step a2 (L := s.length1) (by linarith) hK q1 hw (x := q.i0) (y := q.i1) (by omega)
    have hm := hsize (quadCentre c1 c2 c3 c4)
    have hor : verticalSize c1 c2 c3 c4 ≤ m0 / 8 := max_le (by unfold Spec.dist at k1; linarith) (by unfold Spec.dist at k2; linarith)
    simp only [decide_eq_false_iff_not, not_or, not_and, not_lt, gt_iff_lt]
    exact ⟨by linarith, fun _ => by linarith⟩

theorem fuel_for_all {α : Type} {p : α → ℕ → Prop} : ∀ (l : List α), (∀ x ∈ l, ∃ f0, ∀ f, f0 ≤ f → p x f) → ∃ f0, ∀ f, f0 ≤ f → ∀ x ∈ l, p x f
  | [], _ => ⟨0, by simp⟩
  | x :: l, h => by
    obtain ⟨f1, h1⟩ := h x List.mem_cons_self
    obtain ⟨f2, h2⟩ := fuel_for_all l (fun y hy => h y (List.mem_cons_of_mem _ hy))
    refine ⟨max f1 f2, fun f hf y hy => ?_⟩
    rcases List.mem_cons.1 hy with rfl | hy
    · exact h1 f (le_trans (le_max_left _ _) hf)
    · exact h2 f (le_trans (le_max_right _ _) hf) y hy

/-- **C66**: meshing a surface that does not move infinitely fast, with a mesh size that is bounded from below by a positive number,
finishes, and gives a valid mesh without lines, in which the given name is the name of all triangles. This includes surfaces with
breakpoints in both directions. -/
theorem C66_finishes {s : Surface} (hs : GoodSurface s) {K : ℝ} (hK : 0 ≤ K) (hl : LipschitzSurface s K) {size : V3 → ℝ} {m0 : ℝ}
    (hm0 : 0 < m0) (hsize : ∀ p, m0 ≤ size p) (name : Option String) {G : Geo V3} (hG : G.Lawful) (ensure : Bool) :
    ∃ fuel0, ∀ fuel, fuel0 ≤ fuel → ∃ mesh M, s.rawMesh size fuel name = some mesh ∧ Valid mesh ∧ mesh.lines = [] ∧
      mesh.physTris = name.elim [] (fun n => [(n, List.range mesh.triangles.length)]) ∧
      Mesh.build G mesh ensure = some M ∧ Valid M := by
  obtain ⟨f0, h⟩ := fuel_for_all s.sections (fun sec hsec => section_finishes hs hK hl hm0 hsize 2 hsec)
  refine ⟨f0, fun fuel hf => ?_⟩
  obtain ⟨mesh, h1, h2, h3, h4, h5, h6⟩ := rawMesh_total (splitReal size) fuel 2 (secs := s.sections.map Surface.gridPoint)
    (nx := s.breaks1.length + 1) (ny := s.breaks2.length + 1) name (fun pt hpt => section_consistent hpt)
    (fun pt hpt => section_total hs hpt) (fun pt hpt => by
      obtain ⟨sec, hsec, rfl⟩ := List.mem_map.1 hpt
      exact h fuel hf sec hsec) (by rw [List.length_map, sections_length])
  have hv : Valid mesh := {
    cols := Or.inl h5
    lines := by rw [h3]; simp
    tris := h2
    groupLines := by rw [h4]; simp
    groupTris := by
      rw [h6]
      cases name <;> simp
    keysLines := by rw [h4]; simp
    keysTris := by
      rw [h6]
      cases name <;> simp }
  obtain ⟨M, hM, hMv, _⟩ := C01_build_valid hG mesh hv ensure
  exact ⟨mesh, M, h1, hv, h3, h6, hM, hMv⟩

/-- The hypotheses can be met: the flat rectangle of 4 by 6 with mesh size `0.1 + |x|`. -/
example : GoodSurface rect46 ∧ LipschitzSurface rect46 1 ∧ ∀ p : V3, 0.1 ≤ 0.1 + |p.x| := by
  refine ⟨⟨?_, ?_, fun _ _ _ _ _ _ => rfl⟩, ⟨?_, ?_⟩, fun p => by linarith [abs_nonneg p.x]⟩
  · simp [GoodBreaks, rect46, flatSurface]
  · simp [GoodBreaks, rect46, flatSurface]
  · intro u u' v p p' _ _ _ _ _ _ h1 h2
    cases h1; cases h2
    rw [flat_dist_i]; simp [V3.norm, V3.dot]
  · intro u v v' p p' _ _ _ _ _ _ h1 h2
    cases h1; cases h2
    rw [flat_dist_j]; simp [V3.norm, V3.dot]

end Traceon
