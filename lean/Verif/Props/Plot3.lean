import Verif.Props.Plot2
import Mathlib.Tactic.FinCases

/-!
# C94, C95: a plotted mesh and its normals
-/
namespace Traceon
open Spec Plotting

theorem triVerts_shown {m : Mesh V3} {ts : List Tri3} (h : m.triangles.mapM (triVerts m.points) = some ts) {i : Nat} {t : Tri3} (ht : ts[i]? = some t) : TriangleShown m i t := by
  rw [mapM_getElem? h] at ht
  obtain ⟨e, h1, h2⟩ := Option.bind_eq_some_iff.1 ht
  unfold triVerts at h2
  split at h2
  · rename_i a b c
    cases ha : m.points[a]? with
    | none => rw [ha] at h2; cases h2
    | some pa =>
      cases hb : m.points[b]? with
      | none => rw [ha, hb] at h2; cases h2
      | some pb =>
        cases hc : m.points[c]? with
        | none => rw [ha, hb, hc] at h2; cases h2
        | some pc =>
          rw [ha, hb, hc] at h2
          cases h2
          exact ⟨a, b, c, h1, ha, hb, hc⟩
  · cases h2

theorem lineEnds_shown {m : Mesh V3} {ls : List (V3 × V3)} (h : m.lines.mapM (lineEnds m.points) = some ls) {i : Nat} {l : V3 × V3} (ht : ls[i]? = some l) : LineShown m i l := by
  rw [mapM_getElem? h] at ht
  obtain ⟨e, h1, h2⟩ := Option.bind_eq_some_iff.1 ht
  unfold lineEnds at h2
  match e, h1, h2 with
  | [], _, h2 => cases h2
  | [_], _, h2 => cases h2
  | a :: b :: r, h1, h2 =>
    simp only [List.take_succ_cons, List.take_zero] at h2
    cases ha : m.points[a]? with
    | none => rw [ha] at h2; cases h2
    | some pa =>
      cases hb : m.points[b]? with
      | none => rw [ha, hb] at h2; cases h2
      | some pb =>
        rw [ha, hb] at h2
        cases h2
        exact ⟨_, a, b, h1, rfl, rfl, ha, hb⟩

/-- What a call of `plot_mesh` adds to a figure. -/
theorem plotMesh_spec {order : List String → List String} (ho : IsSetOrder order) {m : Mesh V3} (hv : Valid m) (sn : Bool) (colours : Dict String) (f : Figure) (hne : ¬(m.triangles = [] ∧ m.lines = [])) :
    ∃ (d : Nat → Option String) (ts : List Tri3) (ls : List (V3 × V3)) (f' : Figure) (new : List (List Shape)) (leg : List Shape),
      f.plotMesh order m sn colours = some f' ∧ pointToPhysical m = some d ∧ m.triangles.mapM (triVerts m.points) = some ts ∧ m.lines.mapM (lineEnds m.points) = some ls ∧
      f'.toPlot = f.toPlot ++ new ∧ f'.legendEntries = f.legendEntries ++ leg ∧ f'.is2d = (f.is2d && m.is2d realThirds) ∧ f'.showLegend = f.showLegend ∧
      (paintedTriangles new.flatten).Perm (ts.zip (m.triangles.map fun t => cut7 (elementColour colours "#CCCCCC" d t))) ∧
      (paintedLines new.flatten).Perm (ls.zip (m.lines.map fun l => elementColour colours "#CCCCC" d (l.take 2))) ∧
      arrowsIn new.flatten = (if sn then ts.map triangleArrow ++ ls.map lineArrow else []) ∧
      (∀ s ∈ leg, s ∈ new.flatten) ∧ (∀ s ∈ new.flatten, (∃ as, s = .arrows as) ∨ s ∈ leg) ∧
      (∀ s ∈ leg, (∃ us c, s = .triangles us c (legendOf colours c)) ∨ ∃ us c, s = .lines us c (legendOf colours c)) := by
  obtain ⟨d, ts, ss, h1, h2, h3, h4, h5, h6, h7, h8⟩ := drawTriangles_spec ho hv colours
  obtain ⟨d', ls, ss', g1, g2, g3, g5, g6, g7, g8⟩ := drawLines_spec ho hv colours
  rw [h1] at g1
  cases g1
  have n1 : drawTriangleNormals m = some (.arrows (ts.map triangleArrow)) := by
    unfold drawTriangleNormals
    rw [h4, h2]
    rfl
  have n2 : drawLineNormals m = some (.arrows (ls.map lineArrow)) := by
    unfold drawLineNormals
    rw [g2]
    rfl
  have flat : ∀ s : Shape, [[s]].flatten = [s] := fun s => rfl
  by_cases ht : m.triangles = [] <;> by_cases hl : m.lines = []
  · exact absurd ⟨ht, hl⟩ hne
  · have hts : ts = [] := by rw [ht] at h2; cases h2; rfl
    have hss : paintedTriangles ss = [] := by rw [hts] at h7; simpa using h7
    refine ⟨d, ts, ls, { f with legendEntries := f.legendEntries ++ (ss'), toPlot := f.toPlot ++ ([ss'] ++ (if sn then [[.arrows (ls.map lineArrow)]] else [])), is2d := f.is2d && m.is2d realThirds }, [ss'] ++ (if sn then [[.arrows (ls.map lineArrow)]] else []), ss', ?_, h1, h2, g2, ?_⟩
    · unfold Figure.plotMesh
      rw [if_neg hne]
      simp only [if_pos ht, if_neg hl, g3, n2, Option.map_some, Option.bind_eq_bind, Option.bind_some]
      cases sn <;> simp
    · refine ⟨rfl, rfl, rfl, rfl, ?_⟩
      cases sn <;> simp [painted_append, paintedTriangles, paintedLines, arrowsIn, g5, g6, g7, hts, ht]
      · exact ⟨fun s hs => Or.inr hs, fun s hs => Or.inr (g8 s hs)⟩
      · exact ⟨fun s hs => Or.inl hs, fun s hs => hs.elim Or.inr fun h => Or.inl ⟨_, h⟩, fun s hs => Or.inr (g8 s hs)⟩
  · have hls : ls = [] := by rw [hl] at g2; cases g2; rfl
    refine ⟨d, ts, ls, { f with legendEntries := f.legendEntries ++ (ss), toPlot := f.toPlot ++ ([ss] ++ (if sn then [[.arrows (ts.map triangleArrow)]] else [])), is2d := f.is2d && m.is2d realThirds }, [ss] ++ (if sn then [[.arrows (ts.map triangleArrow)]] else []), ss, ?_, h1, h2, g2, ?_⟩
    · unfold Figure.plotMesh
      rw [if_neg hne]
      simp only [if_pos hl, if_neg ht, h3, n1, Option.map_some, Option.bind_eq_bind, Option.bind_some]
      cases sn <;> simp
    · refine ⟨rfl, rfl, rfl, rfl, ?_⟩
      cases sn <;> simp [painted_append, paintedTriangles, paintedLines, arrowsIn, h5, h6, h7, hls, hl]
      · exact ⟨fun s hs => Or.inr hs, fun s hs => Or.inl (h8 s hs)⟩
      · exact ⟨fun s hs => Or.inl hs, fun s hs => hs.elim Or.inr fun h => Or.inl ⟨_, h⟩, fun s hs => Or.inl (h8 s hs)⟩
  · refine ⟨d, ts, ls, { f with legendEntries := f.legendEntries ++ (ss ++ ss'), toPlot := f.toPlot ++ ([ss] ++ [ss'] ++ (if sn then [[.arrows (ts.map triangleArrow)], [.arrows (ls.map lineArrow)]] else [])), is2d := f.is2d && m.is2d realThirds }, [ss] ++ [ss'] ++ (if sn then [[.arrows (ts.map triangleArrow)], [.arrows (ls.map lineArrow)]] else []), ss ++ ss', ?_, h1, h2, g2, ?_⟩
    · unfold Figure.plotMesh
      rw [if_neg hne]
      simp only [if_neg hl, if_neg ht, h3, n1, g3, n2, Option.map_some, Option.bind_eq_bind, Option.bind_some]
      cases sn <;> simp
    · refine ⟨rfl, rfl, rfl, rfl, ?_⟩
      cases sn <;> simp [painted_append, paintedTriangles, paintedLines, arrowsIn, h5, h6, h7, g5, g6, g7]
      · have := fun s (hs : s ∈ ss ∨ s ∈ ss') => hs.elim (fun hs => Or.inl (h8 s hs)) fun hs => Or.inr (g8 s hs)
        exact ⟨fun s hs => Or.inr hs, this⟩
      · have := fun s (hs : s ∈ ss ∨ s ∈ ss') => hs.elim (fun hs => Or.inl (h8 s hs)) fun hs => Or.inr (g8 s hs)
        refine ⟨fun s hs => ?_, fun s hs => ?_, this⟩
        · tauto
        · rcases hs with h | h | h | h
          · exact Or.inr (Or.inl h)
          · exact Or.inr (Or.inr h)
          · exact Or.inl ⟨_, h⟩
          · exact Or.inl ⟨_, h⟩

end Traceon
