import Verif.Props.Ruled2
import Verif.Props.Shapes3
import Verif.Props.Extend

/-!
# C18, C67 for the surfaces a user makes: extrusions, surfaces of revolution, spheres, tori
-/
namespace Traceon
open Spec SMesh

theorem path_lipschitz {p : Path} (hp : GoodPath p) {K : ℝ}
    (h : ∀ uu ∈ pieces p, ∀ u u' q q', uu.1 ≤ u → u ≤ uu.2 → uu.1 ≤ u' → u' ≤ uu.2 → p.func u = some q → p.func u' = some q' → Spec.dist q q' ≤ K * |u - u'|) :
    LipschitzPath p K := by
  have hlast : (p.breaks ++ [p.length]).getLastD 0 = p.length := by
    rw [← List.getLast_eq_getLastD (by simp)]; simp
  have key := lipschitz_pieces (f := p.func) (K := K) (p.breaks ++ [p.length]) 0 (goodPath_breaks hp)
    (by rw [hlast]; exact hp.defined) h
  rw [hlast] at key
  have zero : ∀ q : V3, Spec.dist q q = 0 := by intro q; unfold Spec.dist V3.norm V3.dot; simp
  have main : ∀ u u' q q', 0 ≤ u → u ≤ u' → u' ≤ p.length → p.func u = some q → p.func u' = some q' → Spec.dist q q' ≤ K * |u - u'| := by
    intro u u' q q' h1 h2 h3 e1 e2
    rcases key u u' q q' h1 h2 h3 e1 e2 with rfl | h
    · rw [e1] at e2; cases e2; rw [zero]; simp
    · exact h
  have comm : ∀ q q' : V3, Spec.dist q q' = Spec.dist q' q := by
    intro q q'; unfold Spec.dist V3.norm V3.dot; congr 1; simp; ring
  intro u u' q q' h1 h2 h3 h4 e1 e2
  rcases le_total u u' with h | h
  · exact main u u' q q' h1 h h4 e1 e2
  · rw [comm, abs_sub_comm]; exact main u' u q' q h3 h h2 e2 e1

/-- paths that are straight between their breakpoints are not arbitrarily fast -/
theorem straight_lipschitz {p : Path} (hp : GoodPath p) (h : StraightPath p) : ∃ K, 0 ≤ K ∧ LipschitzPath p K := by
  have : ∀ l : List (ℝ × ℝ), (∀ uu ∈ l, ∃ o d : V3, ∀ u, uu.1 ≤ u → u ≤ uu.2 → p.func u = some (o + u * d)) →
      ∃ K, 0 ≤ K ∧ ∀ uu ∈ l, ∀ u u' q q', uu.1 ≤ u → u ≤ uu.2 → uu.1 ≤ u' → u' ≤ uu.2 → p.func u = some q → p.func u' = some q' → Spec.dist q q' ≤ K * |u - u'| := by
    intro l
    induction l with
    | nil => exact fun _ => ⟨0, le_rfl, by simp⟩
    | cons uu l ih =>
      intro hl
      obtain ⟨K, hK, hk⟩ := ih (fun vv hv => hl vv (List.mem_cons_of_mem _ hv))
      obtain ⟨o, d, hod⟩ := hl uu (by simp)
      have hn := norm_nonneg' d
      refine ⟨K + V3.norm d, by linarith, fun vv hv u u' q q' h1 h2 h3 h4 e1 e2 => ?_⟩
      rcases List.mem_cons.1 hv with rfl | hv
      · rw [hod _ h1 h2] at e1
        rw [hod _ h3 h4] at e2
        cases e1; cases e2
        rw [straight_dist]
        nlinarith [abs_nonneg (u - u')]
      · have := hk vv hv u u' q q' h1 h2 h3 h4 e1 e2
        nlinarith [abs_nonneg (u - u')]
  obtain ⟨K, hK, hk⟩ := this (pieces p) h
  exact ⟨K, hK, path_lipschitz hp hk⟩

/-! ## Lines and polygons -/

theorem line_straight {a b : V3} (h : a ≠ b) : StraightPath (Path.line a b) := by
  intro uu hu
  refine ⟨a, (1 / V3.norm (a - b)) * (b - a), fun u _ _ => ?_⟩
  rw [line_func h]
  congr 1
  ext <;> simp <;> ring

theorem pairs_append (l : List ℝ) (a b : ℝ) : Surface.pairs (l ++ [a] ++ [b]) = Surface.pairs (l ++ [a]) ++ [(a, b)] := by
  unfold Surface.pairs
  induction l with
  | nil => simp
  | cons x l ih =>
    cases l with
    | nil => simp
    | cons y l => simpa using ih

/-- `line_to` adds a straight piece to a straight path -/
theorem lineTo_straight {p : Path} (hp : GoodPath p) (hs : StraightPath p) {a b : V3} (ha : p.endpoint = some a) (hab : a ≠ b) :
    ∃ r, p.lineTo b = some r ∧ GoodPath r ∧ StraightPath r ∧ r.endpoint = some b := by
  obtain ⟨r, hr, hg, hl, -, he, hb, -, -, -, h1, h2⟩ := C22_line_to hp ha hab
  refine ⟨r, hr, hg, ?_, he⟩
  intro uu hu
  have e : pieces r = pieces p ++ [(p.length, r.length)] := by
    unfold pieces
    rw [hb]
    have := pairs_append (0 :: p.breaks) p.length r.length
    simpa using this
  rw [e] at hu
  rcases List.mem_append.1 hu with hu | hu
  · obtain ⟨o, d, hod⟩ := hs uu hu
    obtain ⟨b1, b2, b3⟩ := pairs_bounds (goodPath_breaks hp) hu
    exact ⟨o, d, fun u u1 u2 => by rw [h1 u (by linarith) (by linarith)]; exact hod u u1 u2⟩
  · rw [List.mem_singleton] at hu
    subst hu
    refine ⟨a - (p.length / V3.norm (a - b)) * (b - a), (1 / V3.norm (a - b)) * (b - a), fun u u1 u2 => ?_⟩
    simp only at u1 u2
    have := h2 (u - p.length) (by linarith) (by linarith)
    rw [show p.length + (u - p.length) = u by ring] at this
    rw [this]
    congr 1
    ext <;> simp <;> ring

/-- a path made of straight lines -/
inductive Spec.Polygon : Path → Prop
  | line {a b : V3} : a ≠ b → Polygon (Path.line a b)
  | lineTo {p r : Path} {a b : V3} : Polygon p → p.endpoint = some a → a ≠ b → p.lineTo b = some r → Polygon r

theorem polygon_straight {p : Path} (h : Polygon p) : GoodPath p ∧ StraightPath p := by
  induction h with
  | line h => exact ⟨line_good h, line_straight h⟩
  | lineTo h ha hab hr ih =>
    obtain ⟨r', hr', h1, h2, -⟩ := lineTo_straight ih.1 ih.2 ha hab
    rw [hr] at hr'; cases hr'
    exact ⟨h1, h2⟩

/-- **C18/C67**: a polygon turned about any of the three axes, over any angle, is tame: its mesh has no holes, whatever the mesh size. -/
theorem polygon_revolve_tame {p : Path} (h : Polygon p) {rAvg : ℝ} (hr : 0 < rAvg) (angle : ℝ) :
    Tame (p.revolveX rAvg angle) ∧ Tame (p.revolveY rAvg angle) ∧ Tame (p.revolveZ rAvg angle) := by
  obtain ⟨hp, hs⟩ := polygon_straight h
  obtain ⟨K, hK, hl⟩ := straight_lipschitz hp hs
  obtain ⟨h0, h1, h2⟩ := revolve_tame hp hK hl (straight_even hs) hr angle
  exact ⟨h0 (straight_slim hs 0), h1 (straight_slim hs 1), h2 (straight_slim hs 2)⟩

/-! ## Extrusions -/

/-- A path of lines and arcs moved along another one: the sum of the two. -/
theorem sum_tame {s : Surface} {p q : Path} (hp : GoodPath p) (hq : GoodPath q) (hb : p.breaks = [] ∨ q.breaks = [])
    (ep : EvenPath p) (eq : EvenPath q) {K L : ℝ} (hK : 0 ≤ K) (hL : 0 ≤ L) (lp : LipschitzPath p K) (lq : LipschitzPath q L) {o : V3}
    (l1 : s.length1 = p.length) (l2 : s.length2 = q.length) (b1 : s.breaks1 = p.breaks) (b2 : s.breaks2 = q.breaks)
    (hf : ∀ u v a b, p.func u = some a → q.func v = some b → s.func u v = some (a + b - o)) : Tame s := by
  have d1 : ∀ a a' b : V3, Spec.dist (a + b - o) (a' + b - o) = Spec.dist a a' := by
    intro a a' b; unfold Spec.dist; congr 1; ext <;> simp
  have d2 : ∀ a b b' : V3, Spec.dist (a + b - o) (a + b' - o) = Spec.dist b b' := by
    intro a b b'; unfold Spec.dist; congr 1; ext <;> simp
  have hg : GoodSurface s := by
    refine ⟨by rw [b1, l1]; exact goodPath_breaks hp, by rw [b2, l2]; exact goodPath_breaks hq, fun u v h1 h2 h3 h4 => ?_⟩
    obtain ⟨a, ha⟩ := hp.defined u h1 (by rw [← l1]; exact h2)
    obtain ⟨b, hb⟩ := hq.defined v h3 (by rw [← l2]; exact h4)
    rw [hf u v a b ha hb]; rfl
  refine ⟨hg, by rw [b1, b2]; exact hb, ?_, K + L, by linarith, ?_, ?_⟩
  · intro sec h
    unfold Surface.sections at h
    obtain ⟨uu, hu, h⟩ := List.mem_flatMap.1 h
    obtain ⟨vv, hv, rfl⟩ := List.mem_map.1 h
    obtain ⟨a1, a2, a3⟩ := pairs_bounds hg.breaks1 hu
    obtain ⟨c1, c2, c3⟩ := pairs_bounds hg.breaks2 hv
    rw [l1] at a3
    rw [l2] at c3
    obtain ⟨f, f0, hf1⟩ := ep uu (by rw [pieces, ← l1, ← b1]; exact hu)
    obtain ⟨g, g0, hg1⟩ := eq vv (by rw [pieces, ← l2, ← b2]; exact hv)
    have hdp : ∀ u, 0 ≤ u → u ≤ uu.2 - uu.1 → ∃ a, p.func (uu.1 + u) = some a := fun u h1 h2 => hp.defined _ (by linarith) (by linarith)
    have hdq : ∀ v, 0 ≤ v → v ≤ vv.2 - vv.1 → ∃ a, q.func (vv.1 + v) = some a := fun v h1 h2 => hq.defined _ (by linarith) (by linarith)
    refine ⟨fun _ => 1, fun _ => 1, g, f, ?_, ?_, fun k _ x y z _ _ _ _ => by simp, fun k _ x y z _ _ _ _ => by simp, g0, f0⟩
    · intro u u' v P P' h1 h2 h3 h4 h5 h6 e1 e2
      obtain ⟨a, ha⟩ := hdp u h1 h2
      obtain ⟨a', ha'⟩ := hdp u' h3 h4
      obtain ⟨b, hb⟩ := hdq v h5 h6
      simp only at h2 h4 e1 e2
      rw [hf _ _ _ _ ha hb] at e1
      rw [hf _ _ _ _ ha' hb] at e2
      cases e1; cases e2
      rw [d1, hf1 _ _ _ _ (by linarith) (by linarith) (by linarith) (by linarith) ha ha', one_mul, add_sub_add_left_eq_sub]
    · intro u v v' P P' h1 h2 h3 h4 h5 h6 e1 e2
      obtain ⟨a, ha⟩ := hdp u h1 h2
      obtain ⟨b, hb⟩ := hdq v h3 h4
      obtain ⟨b', hb'⟩ := hdq v' h5 h6
      simp only at h4 h6 e1 e2
      rw [hf _ _ _ _ ha hb] at e1
      rw [hf _ _ _ _ ha hb'] at e2
      cases e1; cases e2
      rw [d2, hg1 _ _ _ _ (by linarith) (by linarith) (by linarith) (by linarith) hb hb', one_mul, add_sub_add_left_eq_sub]
  · intro u u' v P P' h1 h2 h3 h4 h5 h6 e1 e2
    rw [l1] at h2 h4
    rw [l2] at h6
    obtain ⟨a, ha⟩ := hp.defined u h1 h2
    obtain ⟨a', ha'⟩ := hp.defined u' h3 h4
    obtain ⟨b, hb⟩ := hq.defined v h5 h6
    rw [hf _ _ _ _ ha hb] at e1
    rw [hf _ _ _ _ ha' hb] at e2
    cases e1; cases e2
    rw [d1]
    have := lp _ _ _ _ h1 h2 h3 h4 ha ha'
    nlinarith [abs_nonneg (u - u')]
  · intro u v v' P P' h1 h2 h3 h4 h5 h6 e1 e2
    rw [l1] at h2
    rw [l2] at h4 h6
    obtain ⟨a, ha⟩ := hp.defined u h1 h2
    obtain ⟨b, hb⟩ := hq.defined v h3 h4
    obtain ⟨b', hb'⟩ := hq.defined v' h5 h6
    rw [hf _ _ _ _ ha hb] at e1
    rw [hf _ _ _ _ ha hb'] at e2
    cases e1; cases e2
    rw [d2]
    have := lq _ _ _ _ h3 h4 h5 h6 hb hb'
    nlinarith [abs_nonneg (v - v')]

/-- Extruding a path of lines and arcs gives a tame surface. -/
theorem extrude_tame {p : Path} (hp : GoodPath p) {K : ℝ} (hK : 0 ≤ K) (hl : LipschitzPath p K) (he : EvenPath p) {w : V3} (hw : w ≠ 0) :
    Tame (p.extrude w) := by
  have h0 : (0 : V3) ≠ w := Ne.symm hw
  have hn : V3.norm ((0 : V3) - w) = V3.norm w := by
    unfold V3.norm V3.dot; congr 1; simp
  obtain ⟨L, hL, hl'⟩ := straight_lipschitz (line_good h0) (line_straight h0)
  refine sum_tame (q := Path.line 0 w) (o := 0) hp (line_good h0) (Or.inr rfl) he (straight_even (line_straight h0)) hK hL hl hl' rfl ?_ rfl rfl ?_
  · simp only [Path.extrude, Path.line]; exact hn.symm
  · intro u v a b ha hb
    rw [line_func h0, hn] at hb
    cases hb
    have hw' : V3.norm w ≠ 0 := by rw [← hn]; exact (norm_sub_pos h0).ne'
    simp only [Path.extrude, ha, safeDiv, hw', if_false, Option.bind_eq_bind, Option.bind_some, Option.pure_def, Option.some.injEq]
    ext <;> simp

/-- Extruding a path of lines and arcs along another one gives a tame surface, if one of the two has no breakpoints. -/
theorem extrudeByPath_tame {p q : Path} (hp : GoodPath p) (hq : GoodPath q) (hb : p.breaks = [] ∨ q.breaks = [])
    (ep : EvenPath p) (eq : EvenPath q) {K L : ℝ} (hK : 0 ≤ K) (hL : 0 ≤ L) (lp : LipschitzPath p K) (lq : LipschitzPath q L) :
    ∃ s, p.extrudeByPath q = some s ∧ Tame s := by
  obtain ⟨o, ho⟩ := hq.defined 0 le_rfl hq.len
  refine ⟨_, by simp only [Path.extrudeByPath, Path.start, ho, Option.bind_eq_bind, Option.bind_some]; rfl,
    sum_tame (o := o) hp hq hb ep eq hK hL lp lq rfl rfl rfl rfl (fun u v a b ha hb => ?_)⟩
  simp only [ha, hb, Option.bind_eq_bind, Option.bind_some, Option.pure_def]

end Traceon
