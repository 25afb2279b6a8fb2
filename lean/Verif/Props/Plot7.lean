import Verif.Props.Plot5
import Verif.Lemmas.List

/-!
# C96: the plotted trajectories
-/
namespace Traceon
open Spec Plotting

theorem mask_iff (b : Limits) (p : V3) : b.mask p = true ↔ WithinLimits b p := by
  obtain ⟨a1, a2, a3, a4, a5, a6⟩ := b
  unfold Limits.mask
  constructor
  · intro h
    cases a1 <;> cases a2 <;> cases a3 <;> cases a4 <;> cases a5 <;> cases a6 <;>
      simp only [Bool.and_eq_true, decide_eq_true_eq, ge_iff_le, Bool.true_and, true_and] at h <;>
      exact ⟨⟨by simp [h], by simp [h]⟩, ⟨by simp [h], by simp [h]⟩, ⟨by simp [h], by simp [h]⟩⟩
  · rintro ⟨⟨h1, h2⟩, ⟨h3, h4⟩, h5, h6⟩
    cases a1 <;> cases a2 <;> cases a3 <;> cases a4 <;> cases a5 <;> cases a6 <;> simp_all

theorem compress_mask (b : Limits) (t : List V3) : compress (t.map b.mask) t = visiblePart b t := by
  rw [compress_map_eq_filter]
  unfold visiblePart
  congr 1
  funext p
  rw [Bool.eq_iff_iff, mask_iff]
  exact (@decide_eq_true_iff _ (Classical.propDecidable _)).symm

theorem dropLast_zip_tail {α : Type} : ∀ t : List α, t.dropLast.zip t.tail = t.zip t.tail
  | [] => rfl
  | [_] => rfl
  | a :: b :: t => by
    have := dropLast_zip_tail (b :: t)
    simp only [List.dropLast_cons_cons, List.tail_cons, List.zip_cons_cons] at this ⊢
    rw [this]

/-- C96: for every trajectory with a point within the limits, in order, the figure gets one object: the lines joining each of its visible points to the next. What was in the figure stays. -/
theorem C96_shown (ts : List (List V3)) (b : Limits) (colour : String) (f : Figure) :
    f.plotTrajectories ts b colour = { f with toPlot := f.toPlot ++ ((ts.map (visiblePart b)).filter (· ≠ [])).map fun v => [.lines (joined v) colour none] } := by
  unfold Figure.plotTrajectories
  induction ts generalizing f with
  | nil => simp
  | cons t ts ih =>
    rw [List.foldl_cons, ih]
    simp only [compress_mask, dropLast_zip_tail, List.map_cons]
    by_cases h0 : t = []
    · subst h0
      simp [visiblePart]
    by_cases h1 : visiblePart b t = []
    · rw [if_neg h0, if_pos h1, List.filter_cons_of_neg (by simp [h1])]
    · rw [if_neg h0, if_neg h1, List.filter_cons_of_pos (by simp [h1])]
      simp [joined]

theorem joined_append_cons (a : List V3) (p q : V3) (c : List V3) : (p, q) ∈ joined (a ++ p :: q :: c) := by
  unfold joined
  induction a with
  | nil => simp
  | cons x a ih =>
    cases a with
    | nil => simp
    | cons y a => simp only [List.cons_append, List.tail_cons, List.zip_cons_cons] at ih ⊢; exact List.mem_cons_of_mem _ ih

theorem mem_joined {l : List V3} {p q : V3} : (p, q) ∈ joined l ↔ ∃ a c, l = a ++ p :: q :: c := by
  constructor
  · unfold joined
    induction l with
    | nil => simp
    | cons x l ih =>
      cases l with
      | nil => simp
      | cons y l =>
        intro h
        simp only [List.tail_cons, List.zip_cons_cons, List.mem_cons, Prod.mk.injEq] at h ih
        rcases h with ⟨rfl, rfl⟩ | h
        · exact ⟨[], l, rfl⟩
        · obtain ⟨a, c, h⟩ := ih h
          exact ⟨x :: a, c, by rw [h]; rfl⟩
  · rintro ⟨a, c, rfl⟩
    exact joined_append_cons a p q c

/-- C96, which points are joined: the points `p` and `q` are joined exactly if on some trajectory both are within the limits and all points between `p` and the later `q` are not. In the property there are no points
between them; see `C96_refuted`. -/
theorem C96_joined_partial (ts : List (List V3)) (b : Limits) (colour : String) (f : Figure) : ∃ new : List (List Shape), (f.plotTrajectories ts b colour).toPlot = f.toPlot ++ new ∧
    (∀ l c, (l, c) ∈ paintedLines new.flatten → c = colour) ∧
    ∀ p q, ((p, q), colour) ∈ paintedLines new.flatten ↔ ∃ t ∈ ts, ∃ u v w, t = u ++ p :: (v ++ q :: w) ∧ WithinLimits b p ∧ WithinLimits b q ∧ ∀ r ∈ v, ¬WithinLimits b r := by
  refine ⟨_, by rw [C96_shown], ?_⟩
  have hp : ∀ vs : List (List V3), paintedLines (vs.map fun v => [Shape.lines (joined v) colour none]).flatten = vs.flatMap fun v => (joined v).map fun l => (l, colour) := by
    intro vs
    induction vs with
    | nil => rfl
    | cons v vs ih =>
      rw [List.map_cons, List.flatten_cons, (painted_append _ _).2.1, ih, List.flatMap_cons]
      congr 1
      simp [paintedLines]
  rw [hp]
  constructor
  · intro l c h
    obtain ⟨v, -, h⟩ := List.mem_flatMap.1 h
    obtain ⟨l', -, e⟩ := List.mem_map.1 h
    cases e; rfl
  intro p q
  have hm : ∀ l : V3 × V3, (l, colour) ∈ (((ts.map (visiblePart b)).filter (· ≠ [])).flatMap fun v => (joined v).map fun l => (l, colour)) ↔ ∃ t ∈ ts, l ∈ joined (visiblePart b t) := by
    intro l
    constructor
    · intro h
      obtain ⟨v, hv, h⟩ := List.mem_flatMap.1 h
      obtain ⟨t, ht, rfl⟩ := List.mem_map.1 (List.mem_filter.1 hv).1
      obtain ⟨l', hl, e⟩ := List.mem_map.1 h
      cases e
      exact ⟨t, ht, hl⟩
    · rintro ⟨t, ht, hl⟩
      refine List.mem_flatMap.2 ⟨visiblePart b t, List.mem_filter.2 ⟨List.mem_map_of_mem ht, ?_⟩, List.mem_map_of_mem hl⟩
      cases h : visiblePart b t with
      | nil => rw [h] at hl; cases hl
      | cons _ _ => simp
  rw [hm]
  constructor
  · rintro ⟨t, ht, hl⟩
    refine ⟨t, ht, ?_⟩
    obtain ⟨a, c, h⟩ := mem_joined.1 hl
    unfold visiblePart at h
    rw [List.filter_eq_append_iff] at h
    obtain ⟨t1, t2, rfl, h1, h2⟩ := h
    rw [List.filter_eq_cons_iff] at h2
    obtain ⟨u1, u2, rfl, h3, h4, h5⟩ := h2
    rw [List.filter_eq_cons_iff] at h5
    obtain ⟨v1, v2, rfl, h6, h7, h8⟩ := h5
    refine ⟨t1 ++ u1, v1, v2, by simp, by simpa using h4, by simpa using h7, fun r hr => by simpa using h6 r hr⟩
  · rintro ⟨t, ht, u, v, w, rfl, h1, h2, h3⟩
    refine ⟨_, ht, mem_joined.2 ⟨visiblePart b u, visiblePart b w, ?_⟩⟩
    have hv : visiblePart b v = [] := by
      unfold visiblePart
      rw [List.filter_eq_nil_iff]
      intro r hr
      simpa using h3 r hr
    unfold visiblePart at hv ⊢
    rw [List.filter_append, List.filter_cons_of_pos (by simpa using h1), List.filter_append, hv, List.nil_append, List.filter_cons_of_pos (by simpa using h2)]

/-- C96: consecutive points of a trajectory that are within the limits are joined; without limits, all are. -/
theorem C96_complete {ts : List (List V3)} (b : Limits) (colour : String) (f : Figure) {t u w : List V3} {p q : V3} (ht : t ∈ ts) (h : t = u ++ p :: q :: w) (hp : WithinLimits b p) (hq : WithinLimits b q) :
    ∃ new : List (List Shape), (f.plotTrajectories ts b colour).toPlot = f.toPlot ++ new ∧ ((p, q), colour) ∈ paintedLines new.flatten := by
  obtain ⟨new, h1, -, h2⟩ := C96_joined_partial ts b colour f
  exact ⟨new, h1, (h2 p q).2 ⟨t, ht, u, [], w, h, hp, hq, by simp⟩⟩

/-- C96: a trajectory all of whose points are within the limits (for instance because there are none) is drawn as it is: each of its points is joined to the next. -/
theorem C96_whole (ts : List (List V3)) (b : Limits) (colour : String) (f : Figure) (hne : ∀ t ∈ ts, t ≠ []) (h : ∀ t ∈ ts, ∀ p ∈ t, WithinLimits b p) :
    f.plotTrajectories ts b colour = { f with toPlot := f.toPlot ++ ts.map fun t => [.lines (t.zip t.tail) colour none] } := by
  rw [C96_shown]
  have h1 : ts.map (visiblePart b) = ts := by
    conv_rhs => rw [← List.map_id ts]
    refine List.map_congr_left fun t ht => ?_
    unfold visiblePart
    rw [List.filter_eq_self.2 (fun p hp => by simpa using h t ht p hp)]
    rfl
  rw [h1, List.filter_eq_self.2 (fun t ht => by simpa using hne t ht)]
  rfl

/-- There are no limits. -/
theorem WithinLimits_none (p : V3) : WithinLimits {} p := ⟨⟨nofun, nofun⟩, ⟨nofun, nofun⟩, nofun, nofun⟩

/-- The hypotheses of `C96_whole` are met. -/
theorem C96_example : (Figure.plotTrajectories [[⟨0, 0, 0⟩, ⟨1, 0, 0⟩, ⟨2, 0, 1⟩]] {} "red" {}).toPlot = [[.lines [(⟨0, 0, 0⟩, ⟨1, 0, 0⟩), (⟨1, 0, 0⟩, ⟨2, 0, 1⟩)] "red" none]] := by
  rw [C96_whole _ _ _ _ (by simp) (fun _ _ p _ => WithinLimits_none p)]
  rfl

/-- C96 fails: a particle that leaves the limits and comes back is shown to move straight from where it left to where it came back. -/
theorem C96_refuted : ∃ (t : List V3) (b : Limits) (p q : V3), (∀ u w, t ≠ u ++ p :: q :: w) ∧ ∀ (colour : String) (f : Figure), ∃ new : List (List Shape), (f.plotTrajectories [t] b colour).toPlot = f.toPlot ++ new ∧
    ((p, q), colour) ∈ paintedLines new.flatten := by
  refine ⟨[⟨0, 0, 0⟩, ⟨0, 0, 2⟩, ⟨1, 0, 0⟩], { zmax := some 1 }, ⟨0, 0, 0⟩, ⟨1, 0, 0⟩, ?_, fun colour f => ?_⟩
  · intro u w h
    have h' := mem_joined.2 ⟨u, w, h⟩
    simp [joined] at h'
  · obtain ⟨new, h1, -, h2⟩ := C96_joined_partial [[⟨0, 0, 0⟩, ⟨0, 0, 2⟩, ⟨1, 0, 0⟩]] { zmax := some 1 } colour f
    refine ⟨new, h1, (h2 _ _).2 ⟨_, by simp, [], [⟨0, 0, 2⟩], [], rfl, ?_, ?_, ?_⟩⟩
    · exact ⟨⟨nofun, nofun⟩, ⟨nofun, nofun⟩, nofun, fun v hv => by cases hv; norm_num⟩
    · exact ⟨⟨nofun, nofun⟩, ⟨nofun, nofun⟩, nofun, fun v hv => by cases hv; norm_num⟩
    · intro r hr h
      rw [List.mem_singleton] at hr
      subst hr
      have := h.z.2 1 rfl
      norm_num at this

end Traceon
