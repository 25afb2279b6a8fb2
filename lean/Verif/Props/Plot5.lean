import Verif.Props.Plot4

/-!
# C94: where the colours are wrong
-/
namespace Traceon
open Spec Plotting

/-- Two triangles with a common edge. -/
def plotPair : Mesh V3 where
  points := [⟨0, 0, 0⟩, ⟨1, 0, 0⟩, ⟨0, 1, 0⟩, ⟨1, 1, 0⟩]
  lines := []
  triangles := [[0, 1, 2], [1, 3, 2]]
  physLines := []
  physTris := [("a", [0]), ("b", [1])]

theorem plotPair_valid : Valid plotPair := by
  constructor <;> simp [plotPair]

/-- Two lines in a group `a`, and a triangle in no group. -/
def plotFree : Mesh V3 where
  points := [⟨0, 0, 0⟩, ⟨1, 0, 0⟩, ⟨0, 1, 0⟩]
  lines := [[0, 1], [1, 2]]
  triangles := [[0, 1, 2]]
  physLines := [("a", [0, 1])]
  physTris := []

theorem plotFree_valid : Valid plotFree := by
  constructor <;> simp [plotFree]

/-- The colours of the painted triangles. -/
theorem painted_colours {order : List String → List String} (ho : IsSetOrder order) {m : Mesh V3} (hv : Valid m) (sn : Bool) (colours : Dict String) (f : Figure) (hne : ¬(m.triangles = [] ∧ m.lines = []))
    {d : Nat → Option String} (hd : pointToPhysical m = some d) :
    ∃ (f' : Figure) (new : List (List Shape)), f.plotMesh order m sn colours = some f' ∧ f'.toPlot = f.toPlot ++ new ∧
      ((paintedTriangles new.flatten).map (·.2)).Perm (m.triangles.map fun t => cut7 (elementColour colours "#CCCCCC" d t)) ∧
      ((paintedLines new.flatten).map (·.2)).Perm (m.lines.map fun l => elementColour colours "#CCCCC" d (l.take 2)) := by
  obtain ⟨d', ts, ls, f', new, leg, h1, h2, h3, h4, h5, h6, h7, h8, h9, h10, -⟩ := plotMesh_spec ho hv sn colours f hne
  rw [hd] at h2
  cases h2
  refine ⟨f', new, h1, h5, (h9.map _).trans (.of_eq ?_), (h10.map _).trans (.of_eq ?_)⟩
  · rw [← List.unzip_snd, List.unzip_zip]; rw [List.length_map, mapM_length h3]
  · rw [← List.unzip_snd, List.unzip_zip]; rw [List.length_map, mapM_length h4]

/-- C94 fails: a triangle of the group `a` that has a corner in common with a group `b` is grey although a colour was given for `a`; the first triangle here is nowhere painted red. -/
theorem C94_refuted {order : List String → List String} (ho : IsSetOrder order) :
    ∃ (m : Mesh V3) (colours : Dict String), Valid m ∧ ("a", [0]) ∈ m.physTris ∧ colours.get "a" = some "red" ∧ ∀ (sn : Bool) (f : Figure), ∃ (f' : Figure) (new : List (List Shape)), f.plotMesh order m sn colours = some f' ∧
      f'.toPlot = f.toPlot ++ new ∧ ∀ t, (t, "red") ∉ paintedTriangles new.flatten := by
  refine ⟨plotPair, [("a", "red"), ("b", "blue")], plotPair_valid, by simp [plotPair], rfl, fun sn f => ?_⟩
  obtain ⟨f', new, h1, h2, h3, -⟩ := painted_colours ho plotPair_valid sn [("a", "red"), ("b", "blue")] f (by simp [plotPair]) (d := _) rfl
  refine ⟨f', new, h1, h2, fun t ht => ?_⟩
  have := h3.mem_iff.1 (List.mem_map_of_mem ht)
  revert this
  show ¬"red" ∈ (["#CCCCCC", "blue"] : List String)
  decide

/-- C94 fails: a triangle in no group is painted in the colour of the group `a` that its corners are in. -/
theorem C94_free_refuted {order : List String → List String} (ho : IsSetOrder order) :
    ∃ (m : Mesh V3) (colours : Dict String), Valid m ∧ m.physTris = [] ∧ m.triangles.length = 1 ∧ colours.get "a" = some "red" ∧ ∀ (sn : Bool) (f : Figure), ∃ (f' : Figure) (new : List (List Shape)), f.plotMesh order m sn colours = some f' ∧
      f'.toPlot = f.toPlot ++ new ∧ (paintedTriangles new.flatten).map (·.2) = ["red"] := by
  refine ⟨plotFree, [("a", "red")], plotFree_valid, rfl, rfl, rfl, fun sn f => ?_⟩
  obtain ⟨f', new, h1, h2, h3, -⟩ := painted_colours ho plotFree_valid sn [("a", "red")] f (by simp [plotFree]) (d := _) rfl
  refine ⟨f', new, h1, h2, ?_⟩
  have h4 : ((paintedTriangles new.flatten).map (·.2)).Perm ["red"] := h3
  exact List.perm_singleton.1 h4

/-- C94 fails: of the name of a colour only seven characters are kept for triangles (and the entry in the legend is lost, because the colour is no longer the one given). -/
theorem C94_long_refuted {order : List String → List String} (ho : IsSetOrder order) :
    ∃ (m : Mesh V3) (colours : Dict String), Valid m ∧ ("a", [0]) ∈ m.physTris ∧ colours.get "b" = some "lightblue" ∧ ∀ (sn : Bool) (f : Figure), ∃ (f' : Figure) (new : List (List Shape)), f.plotMesh order m sn colours = some f' ∧
      f'.toPlot = f.toPlot ++ new ∧ ((paintedTriangles new.flatten).map (·.2)).Perm ["#CCCCCC", "lightbl"] ∧ legendOf colours "lightbl" = none := by
  refine ⟨plotPair, [("b", "lightblue")], plotPair_valid, by simp [plotPair], rfl, fun sn f => ?_⟩
  obtain ⟨f', new, h1, h2, h3, -⟩ := painted_colours ho plotPair_valid sn [("b", "lightblue")] f (by simp [plotPair]) (d := _) rfl
  exact ⟨f', new, h1, h2, h3, rfl⟩

/-- C94 fails: the default colour of lines is not that of triangles, and with its five digits is no colour. -/
theorem C94_grey_refuted {order : List String → List String} (ho : IsSetOrder order) :
    ∃ m : Mesh V3, Valid m ∧ ∀ (sn : Bool) (f : Figure), ∃ (f' : Figure) (new : List (List Shape)), f.plotMesh order m sn [] = some f' ∧
      f'.toPlot = f.toPlot ++ new ∧ ((paintedTriangles new.flatten).map (·.2)).Perm ["#CCCCCC"] ∧ ((paintedLines new.flatten).map (·.2)).Perm ["#CCCCC", "#CCCCC"] := by
  refine ⟨plotFree, plotFree_valid, fun sn f => ?_⟩
  obtain ⟨f', new, h1, h2, h3, h4⟩ := painted_colours ho plotFree_valid sn [] f (by simp [plotFree]) (d := _) rfl
  exact ⟨f', new, h1, h2, h3, h4⟩

/-- A triangle in the group `a`, and one in the group `b` that does not touch it. -/
def plotTwo : Mesh V3 where
  points := [⟨0, 0, 0⟩, ⟨1, 0, 0⟩, ⟨0, 1, 0⟩, ⟨0, 0, 5⟩, ⟨1, 0, 5⟩, ⟨0, 1, 5⟩]
  lines := []
  triangles := [[0, 1, 2], [3, 4, 5]]
  physLines := []
  physTris := [("a", [0]), ("b", [1])]

theorem plotTwo_valid : Valid plotTwo := by
  constructor <;> simp [plotTwo]

theorem plotTwo_sep (p : Nat) (n' : String) (h : PointInGroup plotTwo "a" p) (h' : PointInGroup plotTwo n' p) : n' = "a" := by
  simp only [PointInGroup, plotTwo, List.not_mem_nil, false_and, exists_false, false_or, List.mem_cons, Prod.mk.injEq, or_false] at h h'
  obtain ⟨g, ⟨-, rfl⟩ | ⟨h0, -⟩, i, hi, e, he, hp⟩ := h
  · obtain ⟨g', ⟨rfl, rfl⟩ | ⟨rfl, rfl⟩, i', hi', e', he', hp'⟩ := h'
    · rfl
    · simp only [List.mem_singleton] at hi hi'
      subst hi hi'
      cases he
      cases he'
      simp only [List.mem_cons, List.not_mem_nil, or_false] at hp hp'
      omega
  · exact absurd h0 (by decide)

/-- The hypotheses of `C94_shown`, `C94_legend` and `C94_colour_partial` are met: both triangles are drawn, the first in red. -/
theorem C94_example {order : List String → List String} (ho : IsSetOrder order) : ∃ (f' : Figure) (new : List (List Shape)) (t : Tri3), Figure.plotMesh order plotTwo true [("a", "red")] {} = some f' ∧ f'.toPlot = new ∧
    TriangleShown plotTwo 0 t ∧ (t, "red") ∈ paintedTriangles new.flatten ∧ ((paintedTriangles new.flatten).map (·.2)).Perm ["red", "#CCCCCC"] := by
  obtain ⟨f', new, t, h1, h2, h3, h4⟩ := (C94_colour_partial ho plotTwo_valid true [("a", "red")] {} rfl plotTwo_sep).1 [0] (by simp [plotTwo]) (by decide) 0 (by simp)
  obtain ⟨f'', new', g1, g2, g3, -⟩ := painted_colours ho plotTwo_valid true [("a", "red")] {} (by simp [plotTwo]) (d := _) rfl
  rw [h1] at g1
  cases g1
  rw [h2] at g2
  cases List.append_cancel_left g2
  exact ⟨f', new, t, h1, by rw [h2]; rfl, h3, h4, g3⟩

/-- An order of iteration over a set. -/
theorem IsSetOrder_example : IsSetOrder List.dedup := fun l => ⟨List.nodup_dedup l, fun _ => List.mem_dedup⟩

end Traceon
