import Verif.Spec.Ruled
import Verif.Props.Crack2
import Verif.Props.SurfaceMesh6

/-!
# C18, C67: the mesh covers the surface, for surfaces with sections along which distances are easy to compare
-/
namespace Traceon
open Spec SMesh

variable {s : Surface} {R S c e : ℝ → ℝ}

theorem ruled_i (he : Ruled s R S c e) (hs : GoodSurface s) (h1 : 0 ≤ s.length1) (h2 : 0 ≤ s.length2) {d i i' j : ℕ}
    (hi : i ≤ 2 ^ d) (hi' : i' ≤ 2 ^ d) (hj : j ≤ 2 ^ d) :
    Spec.dist (evenGrid s d i j) (evenGrid s d i' j) = S (s.length2 / 2 ^ d * j) * e |s.length1 / 2 ^ d * i - s.length1 / 2 ^ d * i'| :=
  he.first _ _ _ _ _ (grid_range h1 hi).1 (grid_range h1 hi).2 (grid_range h1 hi').1 (grid_range h1 hi').2 (grid_range h2 hj).1 (grid_range h2 hj).2
    (evenGrid_some hs h1 h2 hi hj) (evenGrid_some hs h1 h2 hi' hj)

theorem ruled_j (he : Ruled s R S c e) (hs : GoodSurface s) (h1 : 0 ≤ s.length1) (h2 : 0 ≤ s.length2) {d i j j' : ℕ}
    (hi : i ≤ 2 ^ d) (hj : j ≤ 2 ^ d) (hj' : j' ≤ 2 ^ d) :
    Spec.dist (evenGrid s d i j) (evenGrid s d i j') = R (s.length1 / 2 ^ d * i) * c |s.length2 / 2 ^ d * j - s.length2 / 2 ^ d * j'| :=
  he.second _ _ _ _ _ (grid_range h1 hi).1 (grid_range h1 hi).2 (grid_range h2 hj).1 (grid_range h2 hj).2 (grid_range h2 hj').1 (grid_range h2 hj').2
    (evenGrid_some hs h1 h2 hi hj) (evenGrid_some hs h1 h2 hi hj')

/-- in the middle of a cell at depth 2 or deeper the function is not larger than at the larger of its ends -/
theorem noBulge_cell {len : ℝ} (hl : 0 ≤ len) {f : ℝ → ℝ} (h : NoBulge len f) {d i : ℕ} (hd : 2 ≤ d) (hi : i + 1 ≤ 2 ^ d) :
    f (len / 2 ^ (d + 1) * ((2 * i + 1 : ℕ) : ℝ)) ≤ max (f (len / 2 ^ d * i)) (f (len / 2 ^ d * ((i + 1 : ℕ) : ℝ))) := by
  obtain ⟨n, rfl⟩ := Nat.exists_eq_add_of_le hd
  have hp : 0 < 2 ^ n := Nat.two_pow_pos n
  have hk : i / 2 ^ n < 4 := by
    rw [Nat.div_lt_iff_lt_mul hp]
    have : 2 ^ (2 + n) = 4 * 2 ^ n := by rw [Nat.pow_add]
    omega
  have ha : i / 2 ^ n * 2 ^ n ≤ i := Nat.div_mul_le_self i (2 ^ n)
  have hb : i + 1 ≤ (i / 2 ^ n + 1) * 2 ^ n := Nat.lt_mul_of_div_lt (Nat.lt_succ_self _) hp
  have ha' : ((i / 2 ^ n : ℕ) : ℝ) * 2 ^ n ≤ i := by exact_mod_cast ha
  have hb' : (i : ℝ) + 1 ≤ ((i / 2 ^ n : ℕ) + 1) * 2 ^ n := by exact_mod_cast hb
  have hp' : (0 : ℝ) < 2 ^ n := by positivity
  have e1 : len / 2 ^ (2 + n) = len / 4 / 2 ^ n := by rw [pow_add, div_div]; norm_num
  have e2 : len / 2 ^ (2 + n + 1) = len / 4 / 2 ^ n / 2 := by rw [pow_succ, ← e1, div_div]
  rw [e1, e2]
  have hw : 0 ≤ len / 4 / 2 ^ n := by positivity
  have hL : len = len / 4 / 2 ^ n * 2 ^ n * 4 := by field_simp
  refine h _ hk _ _ _ ?_ ?_ ?_ ?_
  · rw [hL]
    generalize len / 4 / 2 ^ n = w at hw
    generalize ((i / 2 ^ n : ℕ) : ℝ) = k at ha'
    have := mul_le_mul_of_nonneg_left ha' hw
    field_simp at this ⊢
    nlinarith
  · push_cast; nlinarith
  · push_cast; nlinarith
  · conv_rhs => rw [hL]
    push_cast
    have := mul_le_mul_of_nonneg_left hb' hw
    nlinarith

theorem ruled_regular (he : Ruled s R S c e) (hs : GoodSurface s) (h1 : 0 ≤ s.length1) (h2 : 0 ≤ s.length2) :
    Regular (evenGrid s) 2 := by
  have dblr : ∀ (d : ℕ) (l : ℝ) (i : ℕ), l / 2 ^ (d + 1) * ((2 * i : ℕ) : ℝ) = l / 2 ^ d * i := by
    intro d l i; push_cast; rw [pow_succ]; field_simp
  have dbl : ∀ d i j, evenGrid s (d + 1) (2 * i) (2 * j) = evenGrid s d i j := by
    intro d i j
    unfold evenGrid
    rw [dblr, dblr]
  have hp : ∀ d : ℕ, 2 ^ (d + 1) = 2 ^ d * 2 := fun d => Nat.pow_succ ..
  have one : ∀ (l : ℝ) (d k : ℕ), l / 2 ^ d * (((k + 1 : ℕ)) : ℝ) = l / 2 ^ d * k + l / 2 ^ d := by intro l d k; push_cast; ring
  have ab1 : ∀ x y : ℝ, |x - (x + y)| = |y| := by intro x y; rw [sub_add_cancel_left, abs_neg]
  constructor
  · intro q ch hq hst hj hc
    obtain ⟨g1, g2, g3, g4⟩ := hq
    simp only [children, Bool.and_false, Bool.false_eq_true, if_false, if_true, List.mem_cons, List.not_mem_nil, or_false] at hc
    have hQ := hp q.depth
    have hvq : ∀ j : ℕ, j ≤ 2 ^ q.depth → S (s.length2 / 2 ^ q.depth * j) * e |s.length1 / 2 ^ q.depth * q.i0 - s.length1 / 2 ^ q.depth * q.i1|
        = Spec.dist (evenGrid s q.depth q.i0 j) (evenGrid s q.depth q.i1 j) :=
      fun j hj' => (ruled_i he hs h1 h2 (by omega) (by omega) hj').symm
    have hv : ∀ j, j = 2 * q.j0 ∨ j = 2 * q.j0 + 1 ∨ j = 2 * q.j0 + 2 →
        Spec.dist (evenGrid s (q.depth + 1) (2 * q.i0) j) (evenGrid s (q.depth + 1) (2 * q.i1) j) ≤ verOf (evenGrid s) q := by
      have ex : verOf (evenGrid s) q = max (S (s.length2 / 2 ^ q.depth * q.j0)) (S (s.length2 / 2 ^ q.depth * q.j1))
          * e |s.length1 / 2 ^ q.depth * q.i0 - s.length1 / 2 ^ q.depth * q.i1| := by
        unfold verOf
        rw [← hvq _ (by omega), ← hvq _ (by omega), max_mul_of_nonneg _ _ (he.pose _)]
      rintro j (rfl | rfl | rfl)
      · rw [dbl, dbl]; exact le_max_left _ _
      · rw [ruled_i he hs h1 h2 (by omega) (by omega) (by omega), dblr, dblr, ex]
        refine mul_le_mul_of_nonneg_right ?_ (he.pose _)
        rw [hj]
        exact noBulge_cell h2 he.bulge2 hst (by omega)
      · rw [show 2 * q.j0 + 2 = 2 * q.j1 by omega, dbl, dbl]; exact le_max_right _ _
    have hh : ∀ i ≤ 2 ^ (q.depth + 1), ∀ j, j + 1 ≤ 2 ^ (q.depth + 1) →
        Spec.dist (evenGrid s (q.depth + 1) i j) (evenGrid s (q.depth + 1) i (j + 1)) = R (s.length1 / 2 ^ (q.depth + 1) * i) * c |s.length2 / 2 ^ (q.depth + 1)| := by
      intro i hi j hj'
      rw [ruled_j he hs h1 h2 hi (by omega) hj', one, ab1]
    have hbig : ∀ i ≤ 2 ^ q.depth, Spec.dist (evenGrid s q.depth i q.j0) (evenGrid s q.depth i q.j1)
        ≤ 2 * (R (s.length1 / 2 ^ q.depth * i) * c |s.length2 / 2 ^ (q.depth + 1)|) := by
      intro i hi
      rw [hj, ← dbl q.depth i q.j0, ← dbl q.depth i (q.j0 + 1)]
      refine (dist_triangle' _ (evenGrid s (q.depth + 1) (2 * i) (2 * q.j0 + 1)) _).trans ?_
      rw [hh _ (by omega) _ (by omega), show 2 * (q.j0 + 1) = (2 * q.j0 + 1) + 1 by ring, hh _ (by omega) _ (by omega), dblr]
      linarith
    have key : ∀ j, j + 1 ≤ 2 ^ (q.depth + 1) → horOf (evenGrid s) q ≤ 2.5 * horOf (evenGrid s) ⟨q.depth + 1, 2 * q.i0, 2 * q.i1, j, j + 1⟩ := by
      intro j hj'
      have n1 : 0 ≤ horOf (evenGrid s) ⟨q.depth + 1, 2 * q.i0, 2 * q.i1, j, j + 1⟩ := le_max_of_le_left (Real.sqrt_nonneg _)
      have n2 : horOf (evenGrid s) q ≤ 2 * horOf (evenGrid s) ⟨q.depth + 1, 2 * q.i0, 2 * q.i1, j, j + 1⟩ := by
        simp only [horOf]
        rw [hh _ (by omega) _ hj', hh _ (by omega) _ hj', dblr, dblr]
        refine max_le ((hbig _ (by omega)).trans ?_) ((hbig _ (by omega)).trans ?_)
        · exact mul_le_mul_of_nonneg_left (le_max_left _ _) (by norm_num)
        · exact mul_le_mul_of_nonneg_left (le_max_right _ _) (by norm_num)
      linarith
    rcases hc with rfl | rfl
    · exact ⟨max_le (hv _ (by simp)) (hv _ (by simp)), key _ (by omega)⟩
    · exact ⟨max_le (hv _ (by simp)) (hv _ (by simp)), key _ (by omega)⟩
  · intro q ch hq hst hi hc
    obtain ⟨g1, g2, g3, g4⟩ := hq
    simp only [children, Bool.false_and, Bool.false_eq_true, if_false, if_true, List.mem_cons, List.not_mem_nil, or_false] at hc
    have hQ := hp q.depth
    have hvq : ∀ i : ℕ, i ≤ 2 ^ q.depth → R (s.length1 / 2 ^ q.depth * i) * c |s.length2 / 2 ^ q.depth * q.j0 - s.length2 / 2 ^ q.depth * q.j1|
        = Spec.dist (evenGrid s q.depth i q.j0) (evenGrid s q.depth i q.j1) :=
      fun i hi' => (ruled_j he hs h1 h2 hi' (by omega) (by omega)).symm
    have hv : ∀ i, i = 2 * q.i0 ∨ i = 2 * q.i0 + 1 ∨ i = 2 * q.i0 + 2 →
        Spec.dist (evenGrid s (q.depth + 1) i (2 * q.j0)) (evenGrid s (q.depth + 1) i (2 * q.j1)) ≤ horOf (evenGrid s) q := by
      have ex : horOf (evenGrid s) q = max (R (s.length1 / 2 ^ q.depth * q.i0)) (R (s.length1 / 2 ^ q.depth * q.i1))
          * c |s.length2 / 2 ^ q.depth * q.j0 - s.length2 / 2 ^ q.depth * q.j1| := by
        unfold horOf
        rw [← hvq _ (by omega), ← hvq _ (by omega), max_mul_of_nonneg _ _ (he.posc _)]
      rintro i (rfl | rfl | rfl)
      · rw [dbl, dbl]; exact le_max_left _ _
      · rw [ruled_j he hs h1 h2 (by omega) (by omega) (by omega), dblr, dblr, ex]
        refine mul_le_mul_of_nonneg_right ?_ (he.posc _)
        rw [hi]
        exact noBulge_cell h1 he.bulge1 hst (by omega)
      · rw [show 2 * q.i0 + 2 = 2 * q.i1 by omega, dbl, dbl]; exact le_max_right _ _
    have hh : ∀ j ≤ 2 ^ (q.depth + 1), ∀ i, i + 1 ≤ 2 ^ (q.depth + 1) →
        Spec.dist (evenGrid s (q.depth + 1) i j) (evenGrid s (q.depth + 1) (i + 1) j) = S (s.length2 / 2 ^ (q.depth + 1) * j) * e |s.length1 / 2 ^ (q.depth + 1)| := by
      intro j hj i hi'
      rw [ruled_i he hs h1 h2 (by omega) hi' hj, one, ab1]
    have hbig : ∀ j ≤ 2 ^ q.depth, Spec.dist (evenGrid s q.depth q.i0 j) (evenGrid s q.depth q.i1 j)
        ≤ 2 * (S (s.length2 / 2 ^ q.depth * j) * e |s.length1 / 2 ^ (q.depth + 1)|) := by
      intro j hj
      rw [hi, ← dbl q.depth q.i0 j, ← dbl q.depth (q.i0 + 1) j]
      refine (dist_triangle' _ (evenGrid s (q.depth + 1) (2 * q.i0 + 1) (2 * j)) _).trans ?_
      rw [hh _ (by omega) _ (by omega), show 2 * (q.i0 + 1) = (2 * q.i0 + 1) + 1 by ring, hh _ (by omega) _ (by omega), dblr]
      linarith
    have key : ∀ i, i + 1 ≤ 2 ^ (q.depth + 1) → verOf (evenGrid s) q ≤ 2.5 * verOf (evenGrid s) ⟨q.depth + 1, i, i + 1, 2 * q.j0, 2 * q.j1⟩ := by
      intro i hi'
      have n1 : 0 ≤ verOf (evenGrid s) ⟨q.depth + 1, i, i + 1, 2 * q.j0, 2 * q.j1⟩ := le_max_of_le_left (Real.sqrt_nonneg _)
      have n2 : verOf (evenGrid s) q ≤ 2 * verOf (evenGrid s) ⟨q.depth + 1, i, i + 1, 2 * q.j0, 2 * q.j1⟩ := by
        simp only [verOf]
        rw [hh _ (by omega) _ hi', hh _ (by omega) _ hi', dblr, dblr]
        refine max_le ((hbig _ (by omega)).trans ?_) ((hbig _ (by omega)).trans ?_)
        · exact mul_le_mul_of_nonneg_left (le_max_left _ _) (by norm_num)
        · exact mul_le_mul_of_nonneg_left (le_max_right _ _) (by norm_num)
      linarith
    rcases hc with rfl | rfl
    · exact ⟨max_le (hv _ (by simp)) (hv _ (by simp)), key _ (by omega)⟩
    · exact ⟨max_le (hv _ (by simp)) (hv _ (by simp)), key _ (by omega)⟩

/-- The sections of a good surface are good. -/
theorem section_good {s sec : Surface} (hs : GoodSurface s) (h : sec ∈ s.sections) : GoodSurface sec ∧ 0 ≤ sec.length1 ∧ 0 ≤ sec.length2 := by
  unfold Surface.sections at h
  obtain ⟨uu, hu, h⟩ := List.mem_flatMap.1 h
  obtain ⟨vv, hv, rfl⟩ := List.mem_map.1 h
  obtain ⟨a1, a2, a3⟩ := pairs_bounds hs.breaks1 hu
  obtain ⟨b1, b2, b3⟩ := pairs_bounds hs.breaks2 hv
  refine ⟨⟨?_, ?_, ?_⟩, by simp only; linarith, by simp only; linarith⟩
  · simp only [GoodBreaks]; simp; linarith
  · simp only [GoodBreaks]; simp; linarith
  · intro u v h1 h2 h3 h4
    simp only at h2 h4
    exact hs.total _ _ (by linarith) (by linarith) (by linarith) (by linarith)

/-- A surface with breakpoints along at most one parameter, which does not move arbitrarily fast, and along each section of which distances
are easy to compare. -/
structure Spec.Tame (s : Surface) : Prop where
  good : GoodSurface s
  breaks : s.breaks1 = [] ∨ s.breaks2 = []
  ruled : ∀ sec ∈ s.sections, ∃ R S c e, Ruled sec R S c e
  speed : ∃ K, 0 ≤ K ∧ LipschitzSurface s K

/-- What C67 claims of a surface: for every constant mesh size the mesher finishes, and for every point of the parameter rectangle the
mesh has a triangle whose corners are surface points at parameters around it. -/
def Spec.Covered (s : Surface) : Prop :=
  ∀ ms : ℝ, 0 < ms → ∀ name, ∃ fuel0, ∀ fuel, fuel0 ≤ fuel → ∃ mesh, s.rawMesh (fun _ => ms) fuel name = some mesh ∧
    ∀ u v, 0 ≤ u → u < s.length1 → 0 ≤ v → v < s.length2 → ∃ t ∈ mesh.triangles, ∃ tri, MeshTriangle s mesh t tri ∧ InTri (u, v) tri

/-- **C18**, partial, for tame surfaces: in every section, for every constant mesh size, the quads cover every point of the parameter
square exactly once. What is missing: see `C18_refuted`, `C18_bulge_refuted`. -/
theorem C18_tame_partial {s : Surface} (h : Tame s) {sec : Surface} (hsec : sec ∈ s.sections) (ms : ℝ) {fuel : ℕ} {pts : List V3} {quads : List Quad}
    {st : PState V3} (hm : meshSection sec.gridPoint (splitReal (fun _ => ms)) fuel 2 pts = some (quads, st)) {x y : ℝ}
    (hx0 : 0 ≤ x) (hx1 : x < 1) (hy0 : 0 ≤ y) (hy1 : y < 1) : coverCount quads x y = 1 := by
  obtain ⟨g1, g2, g3⟩ := section_good h.good hsec
  obtain ⟨R, S, c, e, hr⟩ := h.ruled sec hsec
  exact C18_partial (fun d i j hi hj => evenGrid_some g1 g2 g3 hi hj) (ruled_regular hr g1 g2 g3) ms hm hx0 hx1 hy0 hy1

/-- **C67**, partial, for tame surfaces: for every constant mesh size the triangles cover the surface.
What is missing: see `C18_refuted`, `C19_refuted`, `C67_refuted`. -/
theorem C67_tame_partial {s : Surface} (h : Tame s) : Covered s := by
  intro ms hms name
  obtain ⟨hs, hb, hr, K, hK, hl⟩ := h
  obtain ⟨f0, hfin⟩ := fuel_for_all s.sections (fun sec hsec => section_finishes hs hK hl hms (fun _ => le_refl ms) 2 hsec)
  refine ⟨f0, fun fuel hfu => ?_⟩
  obtain ⟨mesh, hm, -⟩ := rawMesh_total (splitReal (fun _ => ms)) fuel 2 (secs := s.sections.map Surface.gridPoint)
    (nx := s.breaks1.length + 1) (ny := s.breaks2.length + 1) name (fun pt hpt => section_consistent hpt)
    (fun pt hpt => section_total hs hpt) (fun pt hpt => by
      obtain ⟨sec, hsec, rfl⟩ := List.mem_map.1 hpt
      exact hfin fuel hfu sec hsec) (by rw [List.length_map, sections_length])
  refine ⟨mesh, hm, C67_partial hs hb hm (fun sec hsec => ?_)⟩
  obtain ⟨g1, g2, g3⟩ := section_good hs hsec
  obtain ⟨R, S, c, e, h⟩ := hr sec hsec
  exact ⟨evenGrid sec, fun d i j hi hj => evenGrid_some g1 g2 g3 hi hj, ruled_regular h g1 g2 g3⟩

/-- Moving a tame surface rigidly leaves it tame. -/
theorem tame_rigid {s : Surface} (h : Tame s) {f : V3 → Option V3} (hf : ∀ p, (f p).isSome)
    (hd : ∀ p q P Q, f p = some P → f q = some Q → Spec.dist P Q = Spec.dist p q) : Tame (s.mapPoints f) := by
  obtain ⟨⟨g1, g2, g3⟩, hb, hr, K, hK, hl1, hl2⟩ := h
  have tot : ∀ {u v}, ((s.func u v).isSome) → ((s.mapPoints f).func u v).isSome := by
    intro u v hs
    obtain ⟨p, hp⟩ := Option.isSome_iff_exists.1 hs
    simp only [Surface.mapPoints, hp, Option.bind_some]
    exact hf p
  refine ⟨⟨g1, g2, fun u v h1 h2 h3 h4 => tot (g3 u v h1 h2 h3 h4)⟩, hb, ?_, K, hK, ?_, ?_⟩
  · intro sec hsec
    unfold Surface.sections at hsec
    obtain ⟨uu, hu, hsec⟩ := List.mem_flatMap.1 hsec
    obtain ⟨vv, hv, rfl⟩ := List.mem_map.1 hsec
    obtain ⟨R, S, c, e, h⟩ := hr _ (List.mem_flatMap.2 ⟨uu, hu, List.mem_map.2 ⟨vv, hv, rfl⟩⟩)
    refine ⟨R, S, c, e, ?_, ?_, h.bulge1, h.bulge2, h.posc, h.pose⟩
    · intro u u' v P P' h1 h2 h3 h4 h5 h6 e1 e2
      obtain ⟨p, hp, hP⟩ := Option.bind_eq_some_iff.1 e1
      obtain ⟨p', hp', hP'⟩ := Option.bind_eq_some_iff.1 e2
      rw [hd _ _ _ _ hP hP']
      exact h.first u u' v p p' h1 h2 h3 h4 h5 h6 hp hp'
    · intro u v v' P P' h1 h2 h3 h4 h5 h6 e1 e2
      obtain ⟨p, hp, hP⟩ := Option.bind_eq_some_iff.1 e1
      obtain ⟨p', hp', hP'⟩ := Option.bind_eq_some_iff.1 e2
      rw [hd _ _ _ _ hP hP']
      exact h.second u v v' p p' h1 h2 h3 h4 h5 h6 hp hp'
  · intro u u' v P P' h1 h2 h3 h4 h5 h6 e1 e2
    obtain ⟨p, hp, hP⟩ := Option.bind_eq_some_iff.1 e1
    obtain ⟨p', hp', hP'⟩ := Option.bind_eq_some_iff.1 e2
    rw [hd _ _ _ _ hP hP']
    exact hl1 u u' v p p' h1 h2 h3 h4 h5 h6 hp hp'
  · intro u v v' P P' h1 h2 h3 h4 h5 h6 e1 e2
    obtain ⟨p, hp, hP⟩ := Option.bind_eq_some_iff.1 e1
    obtain ⟨p', hp', hP'⟩ := Option.bind_eq_some_iff.1 e2
    rw [hd _ _ _ _ hP hP']
    exact hl2 u v v' p p' h1 h2 h3 h4 h5 h6 hp hp'

end Traceon
