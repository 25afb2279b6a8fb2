import Verif.Props.Plot10

/-!
# C97: meshes in three dimensions that have lines as well
-/
namespace Traceon
open Spec Plotting Excitation

/-- An element has one charge. -/
theorem chargeOf_unique {x : Excitation ℝ V3} {s : Statics} {charges : List ℝ} {i : Nat} {q q' : ℝ} (h : ChargeOf x s charges i q) (h' : ChargeOf x s charges i q') : q = q' := by
  obtain ⟨a, a1, a2, r, a3, a4⟩ := h
  obtain ⟨b, b1, b2, r', b3, b4⟩ := h'
  have hab : a = b := by
    refine List.Perm.eq_of_pairwise (le := (· < ·)) (fun u v _ _ h1 h2 => absurd h1 (by omega)) a1 b1 ?_
    refine (List.perm_ext_iff_of_nodup (a1.imp fun h => by omega) (b1.imp fun h => by omega)).2 fun i => ?_
    rw [a2, b2]
  subst hab
  have : r = r' := by
    obtain ⟨h1, h2⟩ := List.getElem?_eq_some_iff.1 a3
    obtain ⟨h3, h4⟩ := List.getElem?_eq_some_iff.1 b3
    exact (List.Nodup.getElem_inj_iff (a1.imp fun h => by omega)).1 (h2.trans h4.symm)
  subst this
  rw [a4] at b4
  exact Option.some.inj b4

/-- C97, in three dimensions: for a mesh that has lines as well as triangles the figure gets one object for every group with an excitation of the kind shown, with the triangles of the group at their places, each with its own charge, on a
scale from the least to the greatest charge. A second object for every group marks the first edge of each of these triangles with
the charge of the triangle; nothing else is drawn. -/
theorem C97_threeD_lines {x : Excitation ℝ V3} (hv : Valid x.mesh) (hn : x.types.keys.Nodup) (hp : Proper x (shownKind x)) (hs : x.symmetry ≠ .radial) (ht : x.mesh.triangles ≠ []) (hl : x.mesh.lines ≠ [])
    {elec mag : List ℝ} {verts : List (List V3)} {names : Dict (List Nat)} (ha : x.activeElements (shownKind x) = some (verts, names)) (hc : (shownList x elec mag).length = verts.length) (hne : verts ≠ []) (cm : String) (f : Figure) :
    ∃ (f' : Figure) (shapes edges : List Shape) (lo hi : ℝ), f.plotChargeDensity x elec mag cm = some f' ∧ f'.toPlot = f.toPlot ++ [shapes, edges] ∧ f'.is2d = (f.is2d && x.mesh.is2d realThirds) ∧ f'.showLegend = f.showLegend ∧ f'.legendEntries = f.legendEntries ∧
      IsRange (shownList x elec mag) lo hi ∧ shapes.length = (excitedGroups x (shownKind x)).length ∧ edges.length = shapes.length ∧
      ∀ (k : Nat) n g, (excitedGroups x (shownKind x))[k]? = some (n, g) → ∃ ps ls, shapes[k]? = some (.chargedTriangles ps lo hi cm) ∧ edges[k]? = some (.chargedLines ls lo hi cm) ∧ ps.length = g.length ∧ ls.length = g.length ∧
        ∀ (j i : Nat), g[j]? = some i → ∃ t q, ps[j]? = some (t, q) ∧ ls[j]? = some ((t.v0, t.v1), q) ∧ TriangleShown x.mesh i t ∧ ChargeOf x (shownKind x) (shownList x elec mag) i q := by
  obtain ⟨verts', names', idx, hA⟩ := active_spec hv hn hp
  have hA' := hA.eq
  rw [ha] at hA'
  cases hA'
  obtain ⟨lo, hi, hmm, hr⟩ := minMax_spec (qs := shownList x elec mag) (fun h => by rw [h] at hc; exact hne (List.length_eq_zero_iff.1 hc.symm))
  have hel : x.elements = x.mesh.triangles := by unfold elements; rw [if_neg hs]
  have hthree : ∀ (i : Nat) v, (x.elements.map (coords x.mesh.points))[i]? = some v → ∃ a b c p q r, x.mesh.triangles[i]? = some [a, b, c] ∧ v = [p, q, r] ∧
      x.mesh.points[a]? = some p ∧ x.mesh.points[b]? = some q ∧ x.mesh.points[c]? = some r := by
    intro i v hi
    obtain ⟨e, he, rfl⟩ := getElem?_coords hi
    rw [hel] at he
    obtain ⟨hl3, hlt⟩ := hv.tris e (List.mem_of_getElem? he)
    match e, hl3, hlt, he with
    | [a, b, c], _, hlt, he =>
      obtain ⟨p, q, r, hh, k⟩ := coords_three hlt
      exact ⟨a, b, c, p, q, r, he, hh, k⟩
  obtain ⟨shapes, h1, h2, h3⟩ := charged_spec hA hc (fun v => match v.take 3 with | [a, b, c] => some (⟨a, b, c⟩ : Tri3) | _ => none) (fun ps => .chargedTriangles ps lo hi cm) (by
    intro i v hi
    obtain ⟨a, b, c, p, q, r, -, rfl, -⟩ := hthree i v hi
    exact ⟨⟨p, q, r⟩, rfl⟩)
  obtain ⟨edges, g1, g2, g3⟩ := charged_spec hA hc (fun v => match v with | a :: b :: _ => some (a, b) | _ => none) (fun ps => .chargedLines ps lo hi cm) (by
    intro i v hi
    obtain ⟨a, b, c, p, q, r, -, rfl, -⟩ := hthree i v hi
    exact ⟨(p, q), rfl⟩)
  have h3d : chargeDensity3d x elec mag cm = some shapes := by
    unfold chargeDensity3d
    rw [shownCharges_eq, ha]
    show (minMax (shownList x elec mag)).bind _ = _
    rw [hmm]
    exact h1
  have h2d : chargeDensity2d x elec mag cm = some edges := by
    unfold chargeDensity2d
    rw [shownCharges_eq, ha]
    show (if verts.length ≠ (shownList x elec mag).length then none else (minMax (shownList x elec mag)).bind _) = _
    rw [if_neg (by rw [hc]; simp), hmm]
    exact g1
  refine ⟨{ f with toPlot := f.toPlot ++ [shapes, edges], is2d := f.is2d && x.mesh.is2d realThirds }, shapes, edges, lo, hi, ?_, rfl, rfl, rfl, rfl, hr, h2, g2.trans h2.symm, ?_⟩
  · unfold Figure.plotChargeDensity
    simp [ht, hl, h3d, h2d]
  · intro k n g hk
    obtain ⟨ps, k1, k2, k3⟩ := h3 k n g hk
    obtain ⟨ls, l1, l2, l3⟩ := g3 k n g hk
    refine ⟨ps, ls, k1, l1, k2, l2, fun j i hi => ?_⟩
    obtain ⟨t, q, v, e1, e2, e3, e4⟩ := k3 j i hi
    obtain ⟨l, q', v', d1, d2, d3, d4⟩ := l3 j i hi
    obtain ⟨a, b, c, p1, p2, p3, he, rfl, c1, c2, c3⟩ := hthree i v e2
    rw [e2] at d2
    cases d2
    cases e3
    cases d3
    rw [← chargeOf_unique e4 d4] at d1
    exact ⟨_, q, e1, d1, ⟨a, b, c, he, c1, c2, c3⟩, e4⟩

/-- The example of **C97** with the edge of the plate as a line in the mesh. -/
theorem C97_lines_example : ∃ (x : Excitation ℝ V3) (f' : Figure) (t : Tri3), Valid x.mesh ∧ x.mesh.lines ≠ [] ∧ Figure.plotChargeDensity x [5] [] "coolwarm" {} = some f' ∧ TriangleShown x.mesh 0 t ∧
    f'.toPlot = [[.chargedTriangles [(t, 5)] 5 5 "coolwarm"], [.chargedLines [((t.v0, t.v1), 5)] 5 5 "coolwarm"]] := by
  refine ⟨{ plateExc with mesh := { plateMesh with lines := [[0, 1]] } }, _, ⟨_, _, _⟩, ?_, by simp, rfl, ⟨0, 1, 2, rfl, rfl, rfl, rfl⟩, ?_⟩
  · constructor <;> simp [plateExc, plateMesh]
  · rfl

end Traceon
