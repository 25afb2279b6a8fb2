import Verif.Props.Plot9
import Verif.Props.SolveField3
import Verif.Props.Similar7
import Verif.Props.SuperpositionField8

/-!
# C97: examples, and where the charge density is not shown
-/
namespace Traceon
open Spec Plotting Excitation

theorem mapM_none {α β : Type} {f : α → Option β} {a : α} : ∀ {l : List α}, a ∈ l → f a = none → l.mapM f = none
  | b :: l, h, hf => by
    rw [List.mapM_cons]
    rcases List.mem_cons.1 h with rfl | h
    · rw [hf]; rfl
    · rw [mapM_none h hf]
      cases f b <;> rfl

/-- C97 fails: for a radial problem (with straight lines) whose mesh also has triangles, such as those of a coil, plotting the charge density raises, as soon as some group with elements is excited. -/
theorem C97_coil_refuted {x : Excitation ℝ V3} (hv : Valid x.mesh) (hn : x.types.keys.Nodup) (hp : Proper x (shownKind x)) (hs : x.symmetry = .radial) (hcols : x.mesh.lineCols = 2) (ht : x.mesh.triangles ≠ [])
    (hg : ∃ n g, (n, g) ∈ excitedGroups x (shownKind x) ∧ g ≠ []) (elec mag : List ℝ) (cm : String) (f : Figure) : f.plotChargeDensity x elec mag cm = none := by
  obtain ⟨verts, names, idx, hA⟩ := active_spec hv hn hp
  have h3d : chargeDensity3d x elec mag cm = none := by
    unfold chargeDensity3d
    rw [shownCharges_eq, hA.eq]
    show (minMax (shownList x elec mag)).bind _ = _
    cases minMax (shownList x elec mag) with
    | none => rfl
    | some lh =>
      obtain ⟨n, g, hm, hg⟩ := hg
      obtain ⟨k, hk⟩ := List.mem_iff_getElem?.1 hm
      obtain ⟨js, e1, e2⟩ := hA.pairs k (n, g) (by rw [← excitedGroups_eq]; exact hk)
      refine mapM_none (a := (n, js)) (List.mem_of_getElem? e1) ?_
      show (gather verts js).bind _ = none
      cases hvs : gather verts js with
      | none => rfl
      | some vs =>
        show Option.bind (vs.mapM _) _ = none
        have hjs : js ≠ [] := by
          rintro rfl
          simp only [List.map_nil] at e2
          exact hg (List.map_eq_nil_iff.1 e2.symm)
        have hl : vs.length = js.length := gather_length hvs
        obtain ⟨v, vs', rfl⟩ : ∃ v vs', vs = v :: vs' := by
          cases vs with
          | nil => exact absurd (List.length_eq_zero_iff.1 hl.symm) hjs
          | cons v vs => exact ⟨v, vs, rfl⟩
        have h0 := gather_getElem? hvs 0
        obtain ⟨r, hr, h0⟩ := Option.bind_eq_some_iff.1 h0.symm
        have hi : ∃ i : Nat, idx[r]? = some i := by
          have := congrArg (fun l => l[0]?) e2
          simp only [List.getElem?_map, hr, Option.map_some] at this
          obtain ⟨i, hi, e⟩ := Option.map_eq_some_iff.1 this.symm
          exact ⟨i, e.symm⟩
        obtain ⟨i, hi⟩ := hi
        rw [hA.vertIdx r i hi] at h0
        obtain ⟨e, he, hve⟩ := getElem?_coords h0
        have hel : x.elements = x.mesh.lines := by unfold elements; rw [if_pos hs]
        rw [hel] at he
        obtain ⟨hl2, hlt⟩ := hv.lines e (List.mem_of_getElem? he)
        have hlen : v.length = 2 := by rw [hve, coords_length hlt, hl2, hcols]
        rw [mapM_none (a := v) (by simp)]
        · rfl
        · match v, hlen with
          | [_, _], _ => rfl
  unfold Figure.plotChargeDensity
  simp [ht, h3d]

/-- C97: without charges (a coil alone, for instance) plotting the charge density raises. -/
theorem C97_none (x : Excitation ℝ V3) (elec mag : List ℝ) (h : shownList x elec mag = []) (cm : String) (f : Figure) : f.plotChargeDensity x elec mag cm = none := by
  have h3 : chargeDensity3d x elec mag cm = none := by
    unfold chargeDensity3d
    rw [shownCharges_eq, h]
    cases x.activeElements (shownKind x) <;> rfl
  have h2 : chargeDensity2d x elec mag cm = none := by
    unfold chargeDensity2d
    rw [shownCharges_eq, h]
    cases x.activeElements (shownKind x) with
    | none => rfl
    | some a => cases ha : a.1 <;> simp [ha, minMax]
  unfold Figure.plotChargeDensity
  by_cases ht : x.mesh.triangles = [] <;> by_cases hl : x.mesh.lines = [] <;> simp [ht, hl, h2, h3]

/-- C97 fails: with lines of higher order and a coil, the first three of the four points of each line are shown as if they were a triangle. The mesh has no such triangle. -/
theorem C97_higher_refuted (a b p q : ℝ) (hpq : p ≤ q) (cm : String) (f : Figure) : ∃ f' new, f.plotChargeDensity (coilExc a b) [] [p, q] cm = some f' ∧ f'.toPlot = f.toPlot ++ new ∧
    Shape.chargedTriangles [(⟨⟨1, 0, 0⟩, ⟨4, 0, 0⟩, ⟨2, 0, 0⟩⟩, p)] p q cm ∈ new.flatten ∧ ∀ i, ¬TriangleShown (coilExc a b).mesh i ⟨⟨1, 0, 0⟩, ⟨4, 0, 0⟩, ⟨2, 0, 0⟩⟩ := by
  have hm : minMax [p, q] = some (p, q) := by simp [minMax, hpq]
  have ha : (coilExc a b).activeElements .magnetostatic =
      some ([[⟨1, 0, 0⟩, ⟨4, 0, 0⟩, ⟨2, 0, 0⟩, ⟨3, 0, 0⟩], [⟨1, 0, 1⟩, ⟨4, 0, 1⟩, ⟨2, 0, 1⟩, ⟨3, 0, 1⟩]], [("iron", [0]), ("air", [1])]) := by rfl
  have hk : (coilExc a b).isElectrostatic = false := by simp [coilExc, isElectrostatic]
  have hs : shownCharges (coilExc a b) [] [p, q] = some (([[⟨1, 0, 0⟩, ⟨4, 0, 0⟩, ⟨2, 0, 0⟩, ⟨3, 0, 0⟩], [⟨1, 0, 1⟩, ⟨4, 0, 1⟩, ⟨2, 0, 1⟩, ⟨3, 0, 1⟩]], [("iron", [0]), ("air", [1])]), [p, q]) := by
    unfold shownCharges
    rw [hk, ha]
    rfl
  have h3 : chargeDensity3d (coilExc a b) [] [p, q] cm = some [.chargedTriangles [(⟨⟨1, 0, 0⟩, ⟨4, 0, 0⟩, ⟨2, 0, 0⟩⟩, p)] p q cm, .chargedTriangles [(⟨⟨1, 0, 1⟩, ⟨4, 0, 1⟩, ⟨2, 0, 1⟩⟩, q)] p q cm] := by
    unfold chargeDensity3d
    simp only [hs, hm, Option.bind_eq_bind, Option.bind_some]
    rfl
  have h2 : ∃ ls, chargeDensity2d (coilExc a b) [] [p, q] cm = some ls := by
    unfold chargeDensity2d
    refine ⟨[.chargedLines [((⟨1, 0, 0⟩, ⟨4, 0, 0⟩), p)] p q cm, .chargedLines [((⟨1, 0, 1⟩, ⟨4, 0, 1⟩), q)] p q cm], ?_⟩
    simp only [hs, hm, Option.bind_eq_bind, Option.bind_some]
    rfl
  obtain ⟨ls, h2⟩ := h2
  refine ⟨{ f with toPlot := f.toPlot ++ [[.chargedTriangles [(⟨⟨1, 0, 0⟩, ⟨4, 0, 0⟩, ⟨2, 0, 0⟩⟩, p)] p q cm, .chargedTriangles [(⟨⟨1, 0, 1⟩, ⟨4, 0, 1⟩, ⟨2, 0, 1⟩⟩, q)] p q cm]] ++ [ls], is2d := f.is2d && (coilExc a b).mesh.is2d realThirds }, [[.chargedTriangles [(⟨⟨1, 0, 0⟩, ⟨4, 0, 0⟩, ⟨2, 0, 0⟩⟩, p)] p q cm, .chargedTriangles [(⟨⟨1, 0, 1⟩, ⟨4, 0, 1⟩, ⟨2, 0, 1⟩⟩, q)] p q cm], ls], ?_, ?_, ?_, ?_⟩
  · unfold Figure.plotChargeDensity
    rw [h3, h2]
    rfl
  · simp
  · simp
  · rintro i ⟨u, v, w, h1, hu, hv, hw⟩
    match i, h1 with
    | 0, h1 => cases h1; revert hu; simp [coilExc, coilMesh]
    | 1, h1 => cases h1; revert hu; simp [coilExc, coilMesh]

theorem keys_one {α : Type} (n : String) (a : α) : (Dict.keys ([(n, a)] : Dict α)).Nodup := by simp [Dict.keys]

/-- The hypotheses of `C97_threeD` are met: the plate is shown with its charge. -/
theorem C97_example : ∃ (f' : Figure) (shapes : List Shape) (ps : List (Tri3 × ℝ)) (t : Tri3), Figure.plotChargeDensity plateExc [5] [] "coolwarm" {} = some f' ∧ f'.toPlot = [shapes] ∧ shapes = [.chargedTriangles ps 5 5 "coolwarm"] ∧
    TriangleShown plateMesh 0 t ∧ ps = [(t, 5)] := by
  have hk : shownKind plateExc = .electrostatic := by simp [shownKind, isElectrostatic, plateExc]
  have hl : shownList plateExc [5] [] = [5] := by simp [shownList, isElectrostatic, plateExc]
  have ha : plateExc.activeElements .electrostatic = some ([[⟨0, 0, 0⟩, ⟨2, 0, 0⟩, ⟨1, 1, 0⟩]], [("plate", [0])]) := by rfl
  have hp : Proper plateExc (shownKind plateExc) := by
    intro n tv h _
    refine ⟨[0], ?_⟩
    have := Dict.mem_of_get h
    simp only [plateExc, List.mem_singleton, Prod.mk.injEq] at this
    rw [this.1]
    rfl
  have hG : excitedGroups plateExc (shownKind plateExc) = [("plate", [0])] := by
    rw [excitedGroups_eq, hk]; rfl
  obtain ⟨f', shapes, lo, hi, h1, h2, -, -, -, h3, h4, h5⟩ := C97_threeD (x := plateExc) (elec := [5]) (mag := []) (by constructor <;> simp [plateExc, plateMesh]) (by simp [plateExc, Dict.keys]) hp
    (by simp [plateExc]) (by simp [plateExc, plateMesh]) rfl (by rw [hk]; exact ha) (by rw [hl]; rfl) (by simp) "coolwarm" {}
  rw [hG] at h4 h5
  rw [hl] at h3
  obtain ⟨ps, e1, e2, e3⟩ := h5 0 "plate" [0] rfl
  obtain ⟨t, q, g1, g2, g3⟩ := e3 0 0 rfl
  have hlo : lo = 5 := by simpa using h3.mem.1
  have hhi : hi = 5 := by simpa using h3.mem.2
  have hq : q = 5 := by
    obtain ⟨idx, -, -, r, -, hr⟩ := g3
    rw [hl] at hr
    simpa using List.mem_of_getElem? hr
  subst hlo hhi hq
  refine ⟨f', shapes, ps, t, h1, by rw [h2]; rfl, ?_, g2, ?_⟩
  · match shapes, h4, e1 with
    | [s], _, e1 => cases e1; rfl
  · match ps, e2, g1 with
    | [s], _, e1 => cases e1; rfl

/-- The hypotheses of `C97_radial_partial` are met by two discs. -/
theorem C97_radial_example : ∃ (f' : Figure) (shapes : List Shape), Figure.plotChargeDensity discExc [5, 7] [] "coolwarm" {} = some f' ∧ f'.toPlot = [shapes] ∧
    shapes = [.chargedLines [((⟨1, 0, 0⟩, ⟨4, 0, 0⟩), 5)] 5 7 "coolwarm", .chargedLines [((⟨1, 0, 1⟩, ⟨4, 0, 1⟩), 7)] 5 7 "coolwarm"] := by
  have hk : shownKind discExc = .electrostatic := by simp [shownKind, isElectrostatic, discExc]
  have hl : shownList discExc [5, 7] [] = [5, 7] := by simp [shownList, isElectrostatic, discExc]
  have ha : discExc.activeElements .electrostatic =
      some ([[⟨1, 0, 0⟩, ⟨4, 0, 0⟩, ⟨2, 0, 0⟩, ⟨3, 0, 0⟩], [⟨1, 0, 1⟩, ⟨4, 0, 1⟩, ⟨2, 0, 1⟩, ⟨3, 0, 1⟩]], [("disc", [0]), ("glass", [1])]) := by rfl
  have hp : Proper discExc (shownKind discExc) := by
    intro n tv h _
    have := Dict.mem_of_get h
    simp only [discExc, List.mem_cons, List.not_mem_nil, or_false, Prod.mk.injEq] at this
    rcases this with h | h
    · exact ⟨[0], by rw [h.1]; rfl⟩
    · exact ⟨[1], by rw [h.1]; rfl⟩
  have hG : excitedGroups discExc (shownKind discExc) = [("disc", [0]), ("glass", [1])] := by
    rw [excitedGroups_eq, hk]; rfl
  obtain ⟨f', shapes, lo, hi, h1, h2, -, -, -, h3, h4, h5⟩ := C97_radial_partial (x := discExc) (elec := [5, 7]) (mag := []) disc_valid (by simp [discExc, Dict.keys]) hp
    rfl rfl (by simp [discExc, discMesh]) (by rw [hk]; exact ha) (by rw [hl]; rfl) (by simp) "coolwarm" {}
  refine ⟨f', shapes, h1, by rw [h2]; rfl, ?_⟩
  have hm : minMax [(5 : ℝ), 7] = some (5, 7) := by norm_num [minMax]
  have hs : chargeDensity2d discExc [5, 7] [] "coolwarm" = some [.chargedLines [((⟨1, 0, 0⟩, ⟨4, 0, 0⟩), 5)] 5 7 "coolwarm", .chargedLines [((⟨1, 0, 1⟩, ⟨4, 0, 1⟩), 7)] 5 7 "coolwarm"] := by
    unfold chargeDensity2d
    rw [shownCharges_eq, hk, hl, ha]
    simp only [hm, Option.bind_eq_bind, Option.bind_some, Option.map_some]
    rfl
  unfold Figure.plotChargeDensity at h1
  rw [hs] at h1
  simp only [discExc, discMesh, List.cons_ne_nil, and_false, if_false, if_true] at h1
  cases h1
  cases h2
  rfl

end Traceon
