import Verif.Props.Plot8

/-!
# C97: the plotted charge density, the theorems
-/
namespace Traceon
open Spec Plotting Excitation

/-- Which kind of charges is shown: the electrostatic ones if there are voltages, and the magnetostatic ones otherwise. -/
def shownKind (x : Excitation ℝ V3) : Statics := if x.isElectrostatic then .electrostatic else .magnetostatic

/-- The corresponding charges. -/
def shownList (x : Excitation ℝ V3) (elec mag : List ℝ) : List ℝ := if x.isElectrostatic then elec else mag

theorem shownCharges_eq (x : Excitation ℝ V3) (elec mag : List ℝ) : shownCharges x elec mag = (x.activeElements (shownKind x)).map fun a => (a, shownList x elec mag) := by
  unfold shownCharges shownKind shownList
  split <;> rfl

theorem getElem?_coords {m : Mesh V3} {es : List Elem} {i : Nat} {v : List V3} (h : (es.map (coords m.points))[i]? = some v) : ∃ e, es[i]? = some e ∧ v = coords m.points e := by
  rw [List.getElem?_map] at h
  obtain ⟨e, h1, h2⟩ := Option.map_eq_some_iff.1 h
  exact ⟨e, h1, h2.symm⟩

theorem coords_three {m : Mesh V3} {a b c : Nat} (h : ∀ i ∈ [a, b, c], i < m.points.length) : ∃ p q r, coords m.points [a, b, c] = [p, q, r] ∧ m.points[a]? = some p ∧ m.points[b]? = some q ∧ m.points[c]? = some r := by
  have ha := h a (by simp)
  have hb := h b (by simp)
  have hc := h c (by simp)
  refine ⟨m.points[a], m.points[b], m.points[c], ?_, List.getElem?_eq_getElem ha, List.getElem?_eq_getElem hb, List.getElem?_eq_getElem hc⟩
  simp [coords, List.getElem?_eq_getElem ha, List.getElem?_eq_getElem hb, List.getElem?_eq_getElem hc]

/-- C97, in three dimensions: for a mesh of triangles the figure gets one object for every group with an excitation of the kind shown, with the triangles of the group at their places, each with its own charge, on a
scale from the least to the greatest charge. -/
theorem C97_threeD {x : Excitation ℝ V3} (hv : Valid x.mesh) (hn : x.types.keys.Nodup) (hp : Proper x (shownKind x)) (hs : x.symmetry ≠ .radial) (ht : x.mesh.triangles ≠ []) (hl : x.mesh.lines = [])
    {elec mag : List ℝ} {verts : List (List V3)} {names : Dict (List Nat)} (ha : x.activeElements (shownKind x) = some (verts, names)) (hc : (shownList x elec mag).length = verts.length) (hne : verts ≠ []) (cm : String) (f : Figure) :
    ∃ (f' : Figure) (shapes : List Shape) (lo hi : ℝ), f.plotChargeDensity x elec mag cm = some f' ∧ f'.toPlot = f.toPlot ++ [shapes] ∧ f'.is2d = (f.is2d && x.mesh.is2d realThirds) ∧ f'.showLegend = f.showLegend ∧ f'.legendEntries = f.legendEntries ∧
      IsRange (shownList x elec mag) lo hi ∧ shapes.length = (excitedGroups x (shownKind x)).length ∧
      ∀ (k : Nat) n g, (excitedGroups x (shownKind x))[k]? = some (n, g) → ∃ ps, shapes[k]? = some (.chargedTriangles ps lo hi cm) ∧ ps.length = g.length ∧
        ∀ (j i : Nat), g[j]? = some i → ∃ t q, ps[j]? = some (t, q) ∧ TriangleShown x.mesh i t ∧ ChargeOf x (shownKind x) (shownList x elec mag) i q := by
  obtain ⟨verts', names', idx, hA⟩ := active_spec hv hn hp
  have hA' := hA.eq
  rw [ha] at hA'
  cases hA'
  obtain ⟨lo, hi, hmm, hr⟩ := minMax_spec (qs := shownList x elec mag) (fun h => by rw [h] at hc; exact hne (List.length_eq_zero_iff.1 hc.symm))
  have hel : x.elements = x.mesh.triangles := by unfold elements; rw [if_neg hs]
  obtain ⟨shapes, h1, h2, h3⟩ := charged_spec hA hc (fun v => match v.take 3 with | [a, b, c] => some (⟨a, b, c⟩ : Tri3) | _ => none) (fun ps => .chargedTriangles ps lo hi cm) (by
    intro i v hi
    obtain ⟨e, he, rfl⟩ := getElem?_coords hi
    rw [hel] at he
    obtain ⟨hl3, hlt⟩ := hv.tris e (List.mem_of_getElem? he)
    match e, hl3, hlt with
    | [a, b, c], _, hlt =>
      obtain ⟨p, q, r, hh, -⟩ := coords_three hlt
      exact ⟨⟨p, q, r⟩, by rw [hh]; rfl⟩)
  have h3d : chargeDensity3d x elec mag cm = some shapes := by
    unfold chargeDensity3d
    rw [shownCharges_eq, ha]
    show (minMax (shownList x elec mag)).bind _ = _
    rw [hmm]
    exact h1
  refine ⟨{ f with toPlot := f.toPlot ++ [shapes], is2d := f.is2d && x.mesh.is2d realThirds }, shapes, lo, hi, ?_, rfl, rfl, rfl, rfl, hr, h2, ?_⟩
  · unfold Figure.plotChargeDensity
    simp [ht, hl, h3d]
  · intro k n g hk
    obtain ⟨ps, k1, k2, k3⟩ := h3 k n g hk
    refine ⟨ps, k1, k2, fun j i hi => ?_⟩
    obtain ⟨t, q, v, e1, e2, e3, e4⟩ := k3 j i hi
    refine ⟨t, q, e1, ?_, e4⟩
    obtain ⟨e, he, rfl⟩ := getElem?_coords e2
    rw [hel] at he
    obtain ⟨hl3, hlt⟩ := hv.tris e (List.mem_of_getElem? he)
    match e, hl3, hlt, he with
    | [a, b, c], _, hlt, he =>
      obtain ⟨p, q, r, hh, g1, g2, g3⟩ := coords_three hlt
      rw [hh] at e3
      cases e3
      exact ⟨a, b, c, he, g1, g2, g3⟩

theorem coords_two {m : Mesh V3} {a b : Nat} {r : List Nat} (h : ∀ i ∈ a :: b :: r, i < m.points.length) : ∃ p q w, coords m.points (a :: b :: r) = p :: q :: w ∧ m.points[a]? = some p ∧ m.points[b]? = some q := by
  have ha := h a (by simp)
  have hb := h b (by simp)
  refine ⟨m.points[a], m.points[b], coords m.points r, ?_, List.getElem?_eq_getElem ha, List.getElem?_eq_getElem hb⟩
  simp [coords, List.getElem?_eq_getElem ha, List.getElem?_eq_getElem hb]

/-- C97, for radial symmetry and a mesh of lines (so that there are no coils): for every group with an excitation of the kind shown, the lines of the group at their places, each with its own charge, on a scale from the
least to the greatest charge. -/
theorem C97_radial_partial {x : Excitation ℝ V3} (hv : Valid x.mesh) (hn : x.types.keys.Nodup) (hp : Proper x (shownKind x)) (hs : x.symmetry = .radial) (ht : x.mesh.triangles = []) (hl : x.mesh.lines ≠ [])
    {elec mag : List ℝ} {verts : List (List V3)} {names : Dict (List Nat)} (ha : x.activeElements (shownKind x) = some (verts, names)) (hc : (shownList x elec mag).length = verts.length) (hne : verts ≠ []) (cm : String) (f : Figure) :
    ∃ (f' : Figure) (shapes : List Shape) (lo hi : ℝ), f.plotChargeDensity x elec mag cm = some f' ∧ f'.toPlot = f.toPlot ++ [shapes] ∧ f'.is2d = (f.is2d && x.mesh.is2d realThirds) ∧ f'.showLegend = f.showLegend ∧ f'.legendEntries = f.legendEntries ∧
      IsRange (shownList x elec mag) lo hi ∧ shapes.length = (excitedGroups x (shownKind x)).length ∧
      ∀ (k : Nat) n g, (excitedGroups x (shownKind x))[k]? = some (n, g) → ∃ ps, shapes[k]? = some (.chargedLines ps lo hi cm) ∧ ps.length = g.length ∧
        ∀ (j i : Nat), g[j]? = some i → ∃ l q, ps[j]? = some (l, q) ∧ LineShown x.mesh i l ∧ ChargeOf x (shownKind x) (shownList x elec mag) i q := by
  obtain ⟨verts', names', idx, hA⟩ := active_spec hv hn hp
  have hA' := hA.eq
  rw [ha] at hA'
  cases hA'
  obtain ⟨lo, hi, hmm, hr⟩ := minMax_spec (qs := shownList x elec mag) (fun h => by rw [h] at hc; exact hne (List.length_eq_zero_iff.1 hc.symm))
  have hel : x.elements = x.mesh.lines := by unfold elements; rw [if_pos hs]
  have hlong : ∀ e ∈ x.mesh.lines, ∃ a b r, e = a :: b :: r := by
    intro e he
    have := (hv.lines e he).1
    match e with
    | [] => rcases hv.cols with h | h <;> rw [h] at this <;> cases this
    | [_] => rcases hv.cols with h | h <;> rw [h] at this <;> cases this
    | a :: b :: r => exact ⟨a, b, r, rfl⟩
  obtain ⟨shapes, h1, h2, h3⟩ := charged_spec hA hc (fun v => match v with | a :: b :: _ => some (a, b) | _ => none) (fun ps => .chargedLines ps lo hi cm) (by
    intro i v hi
    obtain ⟨e, he, rfl⟩ := getElem?_coords hi
    rw [hel] at he
    obtain ⟨a, b, r, rfl⟩ := hlong e (List.mem_of_getElem? he)
    obtain ⟨p, q, w, hh, -⟩ := coords_two (hv.lines _ (List.mem_of_getElem? he)).2
    exact ⟨(p, q), by rw [hh]⟩)
  have h2d : chargeDensity2d x elec mag cm = some shapes := by
    unfold chargeDensity2d
    rw [shownCharges_eq, ha]
    show (if verts.length ≠ (shownList x elec mag).length then none else (minMax (shownList x elec mag)).bind _) = _
    rw [if_neg (by rw [hc]; simp), hmm]
    exact h1
  refine ⟨{ f with toPlot := f.toPlot ++ [shapes], is2d := f.is2d && x.mesh.is2d realThirds }, shapes, lo, hi, ?_, rfl, rfl, rfl, rfl, hr, h2, ?_⟩
  · unfold Figure.plotChargeDensity
    simp [ht, hl, h2d]
  · intro k n g hk
    obtain ⟨ps, k1, k2, k3⟩ := h3 k n g hk
    refine ⟨ps, k1, k2, fun j i hi => ?_⟩
    obtain ⟨t, q, v, e1, e2, e3, e4⟩ := k3 j i hi
    refine ⟨t, q, e1, ?_, e4⟩
    obtain ⟨e, he, rfl⟩ := getElem?_coords e2
    rw [hel] at he
    obtain ⟨a, b, r, rfl⟩ := hlong e (List.mem_of_getElem? he)
    obtain ⟨p, q, w, hh, g1, g2⟩ := coords_two (hv.lines _ (List.mem_of_getElem? he)).2
    rw [hh] at e3
    cases e3
    exact ⟨_, a, b, he, rfl, rfl, g1, g2⟩

end Traceon
