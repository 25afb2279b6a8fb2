import Verif.Props.Plot3

/-!
# C94: the plotted mesh
-/
namespace Traceon
open Spec Plotting

/-- C94: plotting a valid mesh that is not empty adds to the figure every triangle and every line of the mesh exactly once, at the place it has in the mesh, and nothing else that is a triangle or a line. Its
colour is that given for its physical group when its corners are in that group only, and the default colour if some corner is in no group. What was in the figure stays. -/
theorem C94_shown {order : List String → List String} (ho : IsSetOrder order) {m : Mesh V3} (hv : Valid m) (sn : Bool) (colours : Dict String) (f : Figure) (hne : ¬(m.triangles = [] ∧ m.lines = [])) :
    ∃ (f' : Figure) (new : List (List Shape)) (ts : List (Tri3 × String)) (ls : List ((V3 × V3) × String)), f.plotMesh order m sn colours = some f' ∧ f'.toPlot = f.toPlot ++ new ∧
      (paintedTriangles new.flatten).Perm ts ∧ ts.length = m.triangles.length ∧
      (∀ (i : Nat) t c, ts[i]? = some (t, c) → TriangleShown m i t ∧ ∀ e, m.triangles[i]? = some e → ColourSpec m colours "#CCCCCC" cut7 e c) ∧
      (paintedLines new.flatten).Perm ls ∧ ls.length = m.lines.length ∧
      (∀ (i : Nat) l c, ls[i]? = some (l, c) → LineShown m i l ∧ ∀ e, m.lines[i]? = some e → ColourSpec m colours "#CCCCC" id (e.take 2) c) ∧
      f'.is2d = (f.is2d && m.is2d realThirds) ∧ f'.showLegend = f.showLegend := by
  obtain ⟨d, ts, ls, f', new, leg, h1, h2, h3, h4, h5, h6, h7, h8, h9, h10, h11, h12, h13, h14⟩ := plotMesh_spec ho hv sn colours f hne
  refine ⟨f', new, ts.zip (m.triangles.map fun t => cut7 (elementColour colours "#CCCCCC" d t)), ls.zip (m.lines.map fun l => elementColour colours "#CCCCC" d (l.take 2)), h1, h5, h9, ?_, ?_, h10, ?_, ?_, h7, h8⟩
  · rw [List.length_zip, List.length_map, mapM_length h3, Nat.min_self]
  · intro i t c hi
    rw [List.getElem?_zip_eq_some] at hi
    refine ⟨triVerts_shown h3 hi.1, fun e he => ?_⟩
    have hc := hi.2
    rw [List.getElem?_map, he] at hc
    cases hc
    refine colourSpec_of h2 colours _ _ ?_
    intro h0
    obtain ⟨a, b, c, hh, -⟩ := triVerts_shown h3 hi.1
    rw [hh] at he; cases he; cases h0
  · rw [List.length_zip, List.length_map, mapM_length h4, Nat.min_self]
  · intro i t c hi
    rw [List.getElem?_zip_eq_some] at hi
    refine ⟨lineEnds_shown h4 hi.1, fun e he => ?_⟩
    have hc := hi.2
    rw [List.getElem?_map, he] at hc
    cases hc
    refine colourSpec_of (cut := id) h2 colours _ ?_
    intro h0
    obtain ⟨e', a, b, hh, h1', -⟩ := lineEnds_shown h4 hi.1
    rw [hh] at he; cases he
    cases e with
    | nil => cases h1'
    | cons _ _ => cases h0

/-- C94: what is in the legend is among what is drawn, and every triangle or line drawn is an entry; an entry's name is one for which the user gave the entry's colour, and if there is such a name the entry
has one. -/
theorem C94_legend {order : List String → List String} (ho : IsSetOrder order) {m : Mesh V3} (hv : Valid m) (sn : Bool) (colours : Dict String) (f : Figure) (hne : ¬(m.triangles = [] ∧ m.lines = [])) :
    ∃ (f' : Figure) (new : List (List Shape)) (leg : List Shape), f.plotMesh order m sn colours = some f' ∧ f'.toPlot = f.toPlot ++ new ∧ f'.legendEntries = f.legendEntries ++ leg ∧
      (∀ s ∈ leg, s ∈ new.flatten) ∧ (∀ s ∈ new.flatten, (∃ as, s = .arrows as) ∨ s ∈ leg) ∧
      (∀ s ∈ leg, ∀ n c, legendEntry s = some (n, c) → (n, c) ∈ colours) ∧
      ∀ s ∈ leg, ∀ c n, ((∃ us, s = .triangles us c n) ∨ ∃ vs, s = .lines vs c n) → (∃ k, (k, c) ∈ colours) → n ≠ none := by
  obtain ⟨d, ts, ls, f', new, leg, h1, h2, h3, h4, h5, h6, h7, h8, h9, h10, h11, h12, h13, h14⟩ := plotMesh_spec ho hv sn colours f hne
  have hl : ∀ c n, legendOf colours c = some n → (n, c) ∈ colours := by
    intro c n h
    unfold legendOf at h
    obtain ⟨a, ha, hb⟩ := Option.map_eq_some_iff.1 h
    have h1 := List.find?_some ha
    have h2 := List.mem_of_find?_eq_some ha
    simp only [beq_iff_eq] at h1
    subst hb h1
    exact h2
  have hs : ∀ c, (∃ k, (k, c) ∈ colours) → legendOf colours c ≠ none := by
    rintro c ⟨k, hk⟩ h
    unfold legendOf at h
    rw [Option.map_eq_none_iff, List.find?_eq_none] at h
    exact h _ hk (by simp)
  refine ⟨f', new, leg, h1, h5, h6, h12, h13, ?_, ?_⟩
  · intro s hs n c he
    rcases h14 s hs with ⟨us, c', rfl⟩ | ⟨us, c', rfl⟩ <;>
    · cases hn : legendOf colours c' with
      | none => rw [hn] at he; cases he
      | some n' => rw [hn] at he; cases he; exact hl _ _ hn
  · intro s hs' c n h hk
    rcases h14 s hs' with ⟨us', c', e⟩ | ⟨us', c', e⟩
    · subst e
      rcases h with ⟨vs, h⟩ | ⟨vs, h⟩ <;> cases h
      exact hs _ hk
    · subst e
      rcases h with ⟨vs, h⟩ | ⟨vs, h⟩ <;> cases h
      exact hs _ hk

/-- C94: plotting an empty mesh raises. -/
theorem C94_empty (order : List String → List String) (m : Mesh V3) (sn : Bool) (colours : Dict String) (f : Figure) (h : m.triangles = [] ∧ m.lines = []) : f.plotMesh order m sn colours = none := by
  unfold Figure.plotMesh
  rw [if_pos h]

theorem cut7_short {s : String} (h : s.length ≤ 7) : cut7 s = s := by
  unfold cut7
  rw [List.take_of_length_le (by rw [String.length_toList]; exact h), String.ofList_toList]

/-- C94, for groups that share no points with other groups and colours of at most seven characters: every triangle of the group `n` is drawn, and in the colour given for `n`, and so is every line (whatever the
length of the colour). Missing: groups with common points, longer colours (see `C94_refuted`). -/
theorem C94_colour_partial {order : List String → List String} (ho : IsSetOrder order) {m : Mesh V3} (hv : Valid m) (sn : Bool) (colours : Dict String) (f : Figure) {n col : String} (hcol : colours.get n = some col)
    (hsep : ∀ p n', PointInGroup m n p → PointInGroup m n' p → n' = n) :
    (∀ g, (n, g) ∈ m.physTris → col.length ≤ 7 → ∀ i ∈ g, ∃ (f' : Figure) (new : List (List Shape)) (t : Tri3), f.plotMesh order m sn colours = some f' ∧ f'.toPlot = f.toPlot ++ new ∧ TriangleShown m i t ∧ (t, col) ∈ paintedTriangles new.flatten) ∧
    ∀ g, (n, g) ∈ m.physLines → ∀ i ∈ g, ∃ (f' : Figure) (new : List (List Shape)) (l : V3 × V3), f.plotMesh order m sn colours = some f' ∧ f'.toPlot = f.toPlot ++ new ∧ LineShown m i l ∧ (l, col) ∈ paintedLines new.flatten := by
  constructor
  · intro g hg hlen i hi
    have hlt := hv.groupTris _ hg i hi
    obtain ⟨f', new, ts, ls, h1, h2, h3, h4, h5, -⟩ := C94_shown ho hv sn colours f (fun h => by rw [h.1] at hlt; cases hlt)
    have hget : ts[i]? = some (ts[i]'(by rw [h4]; exact hlt)) := List.getElem?_eq_getElem _
    generalize ts[i]'(by rw [h4]; exact hlt) = tc at hget
    obtain ⟨t, c⟩ := tc
    obtain ⟨k1, k2⟩ := h5 i t c hget
    have he : m.triangles[i]? = some m.triangles[i] := List.getElem?_eq_getElem hlt
    have hc := (k2 _ he).own n col (fun p hp n' => ⟨fun h => hsep p n' (.inr ⟨g, hg, i, hi, _, he, hp⟩) h, fun h => h ▸ .inr ⟨g, hg, i, hi, _, he, hp⟩⟩) hcol
    rw [cut7_short hlen] at hc
    subst hc
    exact ⟨f', new, t, h1, h2, k1, h3.mem_iff.2 (List.mem_of_getElem? hget)⟩
  · intro g hg i hi
    have hlt := hv.groupLines _ hg i hi
    obtain ⟨f', new, ts, ls, h1, h2, -, -, -, h3, h4, h5, -⟩ := C94_shown ho hv sn colours f (fun h => by rw [h.2] at hlt; cases hlt)
    have hget : ls[i]? = some (ls[i]'(by rw [h4]; exact hlt)) := List.getElem?_eq_getElem _
    generalize ls[i]'(by rw [h4]; exact hlt) = tc at hget
    obtain ⟨t, c⟩ := tc
    obtain ⟨k1, k2⟩ := h5 i t c hget
    have he : m.lines[i]? = some m.lines[i] := List.getElem?_eq_getElem hlt
    have hc := (k2 _ he).own n col (fun p hp n' => ⟨fun h => hsep p n' (.inl ⟨g, hg, i, hi, _, he, List.mem_of_mem_take hp⟩) h, fun h => h ▸ .inl ⟨g, hg, i, hi, _, he, List.mem_of_mem_take hp⟩⟩) hcol
    rw [id] at hc
    subst hc
    exact ⟨f', new, t, h1, h2, k1, h3.mem_iff.2 (List.mem_of_getElem? hget)⟩

end Traceon
