import Verif.Lemmas.Tiling
import Verif.Lemmas.Planar
import Verif.Model.SurfaceMeshReal

/-!
# Theorems about the surface mesher: C17, C20
-/
namespace Traceon
open Spec V3 SMesh

/-! ## C17 -/

/-- The states of the point table of one section that the mesher can reach: it starts without levels (but with the points of the
sections meshed before it), levels are added, points are looked up, and the point list grows because other sections are meshed. -/
inductive PointTable (s : Surface) : PState V3 → Prop
  | start (pts : List V3) : PointTable s ⟨[], pts⟩
  | level {st : PState V3} : PointTable s st → PointTable s ⟨addLevel st.levels, st.points⟩
  | lookup {st st' : PState V3} {d i j k : ℕ} : PointTable s st → toPointIndex s.gridPoint st d i j = some (k, st') → PointTable s st'
  | other {st : PState V3} (more : List V3) : PointTable s st → PointTable s ⟨st.levels, st.points ++ more⟩

theorem gridPoint_consistent (s : Surface) : Consistent s.gridPoint := by
  intro d i j
  unfold Surface.gridPoint
  have e : ∀ (l : ℝ) (k : ℕ), l / 2 ^ (d + 1) * ((2 * k : ℕ) : ℝ) = l / 2 ^ d * k := by
    intro l k; push_cast; rw [pow_succ]; field_simp
  rw [e, e]

theorem PointTable.sound {s : Surface} {st : PState V3} (h : PointTable s st) : Sound s.gridPoint st := by
  induction h with
  | start pts => exact sound_init _ _
  | level _ ih => exact addLevel_sound (gridPoint_consistent s) ih
  | lookup _ hl ih => exact (toPointIndex_spec (gridPoint_consistent s) ih hl).1
  | other more _ ih => exact fun d m hm => (ih d m hm).mono more

/-- **C17**: in every state the mesher can reach, the point a table gives for grid position `(d, i, j)` exists and is the surface
at `u = length1 · i / 2^d`, `v = length2 · j / 2^d`; and a lookup returns such a point, without changing any point or table entry
that was there. -/
theorem C17_point_table (s : Surface) {st : PState V3} (h : PointTable s st) :
    (∀ (d : ℕ) m i j k, st.levels[d]? = some m → m i j = some k →
      ∃ p, st.points[k]? = some p ∧ s.func (s.length1 * (i / 2 ^ d)) (s.length2 * (j / 2 ^ d)) = some p) ∧
    (∀ (d i j k : ℕ) st', toPointIndex s.gridPoint st d i j = some (k, st') →
      (∃ p, st'.points[k]? = some p ∧ s.func (s.length1 * (i / 2 ^ d)) (s.length2 * (j / 2 ^ d)) = some p) ∧
      st.points <+: st'.points ∧
      (∀ (d' : ℕ) m i' j' k', st.levels[d']? = some m → m i' j' = some k' → ∃ m', st'.levels[d']? = some m' ∧ m' i' j' = some k') ∧
      toPointIndex s.gridPoint st' d i j = some (k, st')) ∧
    (∀ d i j : ℕ, i ≤ 2 ^ d → j ≤ 2 ^ d → (s.func (s.length1 * (i / 2 ^ d)) (s.length2 * (j / 2 ^ d))).isSome →
      (toPointIndex s.gridPoint st d i j).isSome) := by
  have hs := h.sound
  have hg : ∀ d i j : ℕ, s.gridPoint d i j = s.func (s.length1 * (i / 2 ^ d)) (s.length2 * (j / 2 ^ d)) := by
    intro d i j; unfold Surface.gridPoint; congr 1 <;> ring
  refine ⟨fun d m i j k hm hk => ?_, fun d i j k st' hl => ?_, fun d i j hi hj hp => ?_⟩
  · obtain ⟨_, _, p, hp, hp'⟩ := hs d m hm i j k hk
    exact ⟨p, hp', by rw [← hg]; exact hp⟩
  · obtain ⟨s1, s2, s3, ⟨m, s4, s5⟩, p, s6, s7⟩ := toPointIndex_spec (gridPoint_consistent s) hs hl
    obtain ⟨t, ht⟩ := s2.points
    refine ⟨⟨p, s7, by rw [← hg]; exact s6⟩, ⟨t, ht.symm⟩, fun d' m i' j' k' hm hk => ?_, ?_⟩
    · obtain ⟨m', h1, h2⟩ := s2.levels d' m hm
      exact ⟨m', h1, h2 _ _ _ hk⟩
    · obtain ⟨hi, hj, _⟩ := s1 d m s4 i j k s5
      exact toPointIndex_again hi hj s4 s5
  · exact toPointIndex_total hi hj (by rw [hg]; exact hp)

/-- **C17**, the final table: when all points are brought to one depth, nothing is lost or moved. The entry for a position is the
number of the point of the surface there, and every position that had a point (at the start depth or deeper) has one. -/
theorem C17_normalized (s : Surface) {st : PState V3} (h : PointTable s st) {depth start : ℕ} (hl : st.levels.length ≤ depth + 1)
    (hs : start ≤ depth) :
    ∃ m, normalizeMap depth start st.levels = some m ∧
      (∀ i j k, m i j = some k → ∃ p, st.points[k]? = some p ∧ s.func (s.length1 * (i / 2 ^ depth)) (s.length2 * (j / 2 ^ depth)) = some p) ∧
      (∀ (d : ℕ) m0 i j, start ≤ d → st.levels[d]? = some m0 → (m0 i j).isSome → (m (i * 2 ^ (depth - d)) (j * 2 ^ (depth - d))).isSome) := by
  obtain ⟨m, h1, h2, h3⟩ := normalizeMap_spec (start := start) (gridPoint_consistent s) h.sound hl hs
  refine ⟨m, h1, fun i j k hk => ?_, h3⟩
  obtain ⟨_, _, p, hp, hp'⟩ := h2 i j k hk
  refine ⟨p, hp', ?_⟩
  rw [← hp]; unfold Surface.gridPoint; congr 1 <;> ring

/-- A non-trivial case: the flat square, its corner looked up at depth 0 and then, after a level was added, at depth 1. -/
example : ∃ st, PointTable ⟨fun u v => some ⟨u, v, 0⟩, 1, 1, [], [], none⟩ st ∧ st.points = [⟨1, 1, 0⟩] ∧ st.levels.length = 2 := by
  refine ⟨_, .lookup (d := 1) (i := 2) (j := 2) (.lookup (d := 0) (i := 1) (j := 1) (.start []) rfl) rfl, ?_, rfl⟩
  simp

/-! ## C20 -/

/-- a grid position as a point of the plane -/
def castPos (p : Pos) : ℝ × ℝ := ((p.1 : ℝ), (p.2 : ℝ))

/-- the corners of a triangle -/
def triCorners (t : Tri2) : List (ℝ × ℝ) := [t.1, t.2.1, t.2.2]

theorem tilesRect_of_para {ts : List Tri2} {o A B : ℝ × ℝ} {x0 x1 y0 y1 : ℝ} (h : TilesPara ts o A B)
    (hin : ∀ a b, 0 ≤ a → a ≤ 1 → 0 ≤ b → b ≤ 1 → x0 ≤ (para o A B a b).1 ∧ (para o A B a b).1 ≤ x1 ∧ y0 ≤ (para o A B a b).2 ∧ (para o A B a b).2 ≤ y1)
    (hout : ∀ p : ℝ × ℝ, x0 ≤ p.1 → p.1 ≤ x1 → y0 ≤ p.2 → p.2 ≤ y1 → ∃ a b, 0 ≤ a ∧ a ≤ 1 ∧ 0 ≤ b ∧ b ≤ 1 ∧ p = para o A B a b)
    (harea : paraCross A B = -((x1 - x0) * (y1 - y0))) : TilesRect ts x0 x1 y0 y1 where
  orient := h.orient
  inside := fun t ht p hp => by
    obtain ⟨a, b, h0, h1, h2, h3, rfl⟩ := h.inside t ht p hp
    exact hin a b h0 h1 h2 h3
  cover := fun p h0 h1 h2 h3 => by
    obtain ⟨a, b, g0, g1, g2, g3, rfl⟩ := hout p h0 h1 h2 h3
    exact h.cover a b g0 g1 g2 g3
  disjoint := h.disjoint
  area := by rw [h.area, harea]; ring

theorem mid_frac {a b : ℕ} (h : absDiff a b > 1) : ∃ t : ℝ, 0 < t ∧ t < 1 ∧ (((a + b) / 2 : ℕ) : ℝ) = a + t * ((b : ℝ) - a) := by
  obtain ⟨h1, h2⟩ := absDiff_mid h
  rcases Nat.lt_or_ge a b with hab | hab
  · rw [min_eq_left hab.le] at h1
    rw [max_eq_right hab.le] at h2
    have h1' : (a : ℝ) < (((a + b) / 2 : ℕ) : ℝ) := by exact_mod_cast h1
    have h2' : (((a + b) / 2 : ℕ) : ℝ) < b := by exact_mod_cast h2
    have hp : (0 : ℝ) < b - a := by linarith
    refine ⟨((((a + b) / 2 : ℕ) : ℝ) - a) / (b - a), div_pos (by linarith) hp, by rw [div_lt_one hp]; linarith, ?_⟩
    field_simp; ring
  · have hab' : b ≤ a := hab
    rw [min_eq_right hab'] at h1
    rw [max_eq_left hab'] at h2
    have h1' : (b : ℝ) < (((a + b) / 2 : ℕ) : ℝ) := by exact_mod_cast h1
    have h2' : (((a + b) / 2 : ℕ) : ℝ) < a := by exact_mod_cast h2
    have hp : (0 : ℝ) < a - b := by linarith
    refine ⟨(a - (((a + b) / 2 : ℕ) : ℝ)) / (a - b), div_pos (by linarith) hp, by rw [div_lt_one hp]; linarith, ?_⟩
    field_simp; ring

/-- **C20**: for every quad and every pattern of existing points, the triangles the quad is replaced by tile it. -/
theorem C20_tiles (m : IndexMap) {q : Quad} (hi : q.i0 < q.i1) (hj : q.j0 < q.j1) :
    ∃ ts : List Tri2, (quadTriangles m q).map (·.map castPos) = ts.map triCorners ∧ TilesRect ts q.i0 q.i1 q.j0 q.j1 := by
  obtain ⟨d, i0, i1, j0, j1⟩ := q
  simp only at hi hj
  have hi' : (0 : ℝ) < (i1 : ℝ) - i0 := by have : (i0 : ℝ) < i1 := by exact_mod_cast hi
                                           linarith
  have hj' : (0 : ℝ) < (j1 : ℝ) - j0 := by have : (j0 : ℝ) < j1 := by exact_mod_cast hj
                                           linarith
  have dd : ∀ a : ℕ, (a + a) / 2 = a := fun a => by omega
  have a0 : ∀ a : ℕ, absDiff a a = 0 := fun a => by simp [absDiff]
  have both : ∀ a b : ℕ, absDiff a b = absDiff b a := fun a b => by unfold absDiff; omega
  unfold quadTriangles
  dsimp only
  split
  · rename_i hm
    have hw : absDiff j0 j1 > 1 := by
      simp only [hasMid, a0, Bool.and_eq_true, Bool.or_eq_true, decide_eq_true_eq] at hm; omega
    obtain ⟨t, t0, t1, ht⟩ := mid_frac hw
    refine ⟨paraThree (i0, j0) (0, (j1 : ℝ) - j0) ((i1 : ℝ) - i0, 0) t, ?_, tilesRect_of_para (paraThree_tiles ?_ t0 t1) ?_ ?_ ?_⟩
    · simp only [threeTriangles, paraThree, triCorners, List.map_cons, List.map_nil, midPos, dd, castPos, para, ht]
      simp only [List.cons.injEq, Prod.mk.injEq, and_true]
      refine ⟨⟨?_, ?_, ?_⟩, ⟨?_, ?_, ?_⟩, ?_, ?_, ?_⟩ <;> constructor <;> ring
    · simp only [paraCross]; nlinarith
    · intro a b h0 h1 h2 h3; simp only [para]; refine ⟨?_, ?_, ?_, ?_⟩ <;> nlinarith
    · rintro ⟨x, y⟩ h0 h1 h2 h3
      refine ⟨(y - j0) / (j1 - j0), (x - i0) / (i1 - i0), div_nonneg (by linarith) hj'.le, by rw [div_le_one hj']; linarith,
        div_nonneg (by linarith) hi'.le, by rw [div_le_one hi']; linarith, ?_⟩
      simp only [para]; ext <;> simp <;> field_simp <;> ring
    · simp only [paraCross]; ring
  · split
    · rename_i hm
      have hw : absDiff i0 i1 > 1 := by
        simp only [hasMid, a0, Bool.and_eq_true, Bool.or_eq_true, decide_eq_true_eq] at hm; omega
      obtain ⟨t, t0, t1, ht⟩ := mid_frac hw
      refine ⟨paraThree (i0, j1) ((i1 : ℝ) - i0, 0) (0, (j0 : ℝ) - j1) t, ?_, tilesRect_of_para (paraThree_tiles ?_ t0 t1) ?_ ?_ ?_⟩
      · simp only [threeTriangles, paraThree, triCorners, List.map_cons, List.map_nil, midPos, dd, castPos, para, ht]
        simp only [List.cons.injEq, Prod.mk.injEq, and_true]
        refine ⟨⟨?_, ?_, ?_⟩, ⟨?_, ?_, ?_⟩, ?_, ?_, ?_⟩ <;> constructor <;> ring
      · simp only [paraCross]; nlinarith
      · intro a b h0 h1 h2 h3; simp only [para]; refine ⟨?_, ?_, ?_, ?_⟩ <;> nlinarith
      · rintro ⟨x, y⟩ h0 h1 h2 h3
        refine ⟨(x - i0) / (i1 - i0), (j1 - y) / (j1 - j0), div_nonneg (by linarith) hi'.le, by rw [div_le_one hi']; linarith,
          div_nonneg (by linarith) hj'.le, by rw [div_le_one hj']; linarith, ?_⟩
        simp only [para]; ext <;> simp <;> field_simp <;> ring
      · simp only [paraCross]; ring
    · split
      · rename_i hm
        have hw : absDiff j1 j0 > 1 := by
          simp only [hasMid, a0, Bool.and_eq_true, Bool.or_eq_true, decide_eq_true_eq] at hm; omega
        obtain ⟨t, t0, t1, ht⟩ := mid_frac hw
        refine ⟨paraThree (i1, j1) (0, (j0 : ℝ) - j1) ((i0 : ℝ) - i1, 0) t, ?_, tilesRect_of_para (paraThree_tiles ?_ t0 t1) ?_ ?_ ?_⟩
        · simp only [threeTriangles, paraThree, triCorners, List.map_cons, List.map_nil, midPos, dd, castPos, para, ht]
          simp only [List.cons.injEq, Prod.mk.injEq, and_true]
          refine ⟨⟨?_, ?_, ?_⟩, ⟨?_, ?_, ?_⟩, ?_, ?_, ?_⟩ <;> constructor <;> ring
        · simp only [paraCross]; nlinarith
        · intro a b h0 h1 h2 h3; simp only [para]; refine ⟨?_, ?_, ?_, ?_⟩ <;> nlinarith
        · rintro ⟨x, y⟩ h0 h1 h2 h3
          refine ⟨(j1 - y) / (j1 - j0), (i1 - x) / (i1 - i0), div_nonneg (by linarith) hj'.le, by rw [div_le_one hj']; linarith,
            div_nonneg (by linarith) hi'.le, by rw [div_le_one hi']; linarith, ?_⟩
          simp only [para]; ext <;> simp <;> field_simp <;> ring
        · simp only [paraCross]; ring
      · split
        · rename_i hm
          have hw : absDiff i1 i0 > 1 := by
            simp only [hasMid, a0, Bool.and_eq_true, Bool.or_eq_true, decide_eq_true_eq] at hm; omega
          obtain ⟨t, t0, t1, ht⟩ := mid_frac hw
          refine ⟨paraThree (i1, j0) ((i0 : ℝ) - i1, 0) (0, (j1 : ℝ) - j0) t, ?_, tilesRect_of_para (paraThree_tiles ?_ t0 t1) ?_ ?_ ?_⟩
          · simp only [threeTriangles, paraThree, triCorners, List.map_cons, List.map_nil, midPos, dd, castPos, para, ht]
            simp only [List.cons.injEq, Prod.mk.injEq, and_true]
            refine ⟨⟨?_, ?_, ?_⟩, ⟨?_, ?_, ?_⟩, ?_, ?_, ?_⟩ <;> constructor <;> ring
          · simp only [paraCross]; nlinarith
          · intro a b h0 h1 h2 h3; simp only [para]; refine ⟨?_, ?_, ?_, ?_⟩ <;> nlinarith
          · rintro ⟨x, y⟩ h0 h1 h2 h3
            refine ⟨(i1 - x) / (i1 - i0), (y - j0) / (j1 - j0), div_nonneg (by linarith) hi'.le, by rw [div_le_one hi']; linarith,
              div_nonneg (by linarith) hj'.le, by rw [div_le_one hj']; linarith, ?_⟩
            simp only [para]; ext <;> simp <;> field_simp <;> ring
          · simp only [paraCross]; ring
        · refine ⟨paraTwo (i0, j0) (0, (j1 : ℝ) - j0) ((i1 : ℝ) - i0, 0), ?_, tilesRect_of_para (paraTwo_tiles ?_) ?_ ?_ ?_⟩
          · simp only [paraTwo, triCorners, List.map_cons, List.map_nil, castPos, para]
            simp only [List.cons.injEq, Prod.mk.injEq, and_true]
            refine ⟨⟨?_, ?_, ?_⟩, ?_, ?_, ?_⟩ <;> constructor <;> ring
          · simp only [paraCross]; nlinarith
          · intro a b h0 h1 h2 h3; simp only [para]; refine ⟨?_, ?_, ?_, ?_⟩ <;> nlinarith
          · rintro ⟨x, y⟩ h0 h1 h2 h3
            refine ⟨(y - j0) / (j1 - j0), (x - i0) / (i1 - i0), div_nonneg (by linarith) hj'.le, by rw [div_le_one hj']; linarith,
              div_nonneg (by linarith) hi'.le, by rw [div_le_one hi']; linarith, ?_⟩
            simp only [para]; ext <;> simp <;> field_simp <;> ring
          · simp only [paraCross]; ring

/-- **C20**: the triangles only use points that exist, and so the conversion does not fail, if the corners of the quads exist; the
triangles are those of the quads, in order, with every position replaced by the number of its point. -/
theorem C20_exists (m : IndexMap) (quads : List Quad)
    (h : ∀ q ∈ quads, (m q.i0 q.j0).isSome ∧ (m q.i0 q.j1).isSome ∧ (m q.i1 q.j1).isSome ∧ (m q.i1 q.j0).isSome) :
    ∃ ts, toTriangles m quads = some ts ∧
      ts.map (fun t => t.map some) = (quads.map (fun q => (quadTriangles m q).map (fun t => t.map (fun p => m p.1 p.2)))).flatten := by
  obtain ⟨ts, hts⟩ := toTriangles_total h
  refine ⟨ts, hts, ?_⟩
  have one : ∀ (l : List Pos) (e : List ℕ), l.mapM (fun p => m p.1 p.2) = some e → e.map some = l.map (fun p => m p.1 p.2) :=
    fun l e he => ((mapM_eq_some_iff).1 he).symm
  unfold toTriangles at hts
  rw [List.flatten_eq_flatMap, List.flatMap_map]
  simp only [id]
  rw [← List.map_flatMap]
  generalize quads.flatMap (quadTriangles m) = tp at hts
  induction tp generalizing ts with
  | nil => cases hts; rfl
  | cons t tp ih =>
    rw [List.mapM_cons] at hts
    obtain ⟨e, he, hts⟩ := Option.bind_eq_some_iff.1 hts
    obtain ⟨ts', hts', hts⟩ := Option.bind_eq_some_iff.1 hts
    cases hts
    rw [List.map_cons, List.map_cons, ih _ hts', one t e he]

/-- A quad with a point on its second edge: three triangles. -/
example : quadTriangles (fun _ _ => some 0) ⟨3, 0, 4, 2, 3⟩
    = [[(0, 3), (2, 3), (0, 2)], [(2, 3), (4, 2), (0, 2)], [(2, 3), (4, 3), (4, 2)]] := by decide

end Traceon
