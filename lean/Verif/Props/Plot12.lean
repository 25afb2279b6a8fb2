import Verif.Props.Plot11

/-!
# C99: the surface that shows a potential
-/
namespace Traceon
open Spec Plotting

theorem mapM_some_of {α β : Type} {f : α → Option β} : ∀ {l : List α}, (∀ a ∈ l, ∃ b, f a = some b) → ∃ r, l.mapM f = some r
  | [], _ => ⟨[], rfl⟩
  | a :: l, h => by
    obtain ⟨b, hb⟩ := h a (by simp)
    obtain ⟨r, hr⟩ := mapM_some_of (l := l) (fun a ha => h a (by simp [ha]))
    exact ⟨b :: r, by rw [List.mapM_cons, hb, hr]; rfl⟩

theorem getGrid_entry {potential : V3 → Option ℝ} {surface : ℝ → ℝ → V3} {l1 l2 : ℝ} {N0 N1 : Nat} {g : List (List (V3 × Option ℝ))} (h : getGrid potential surface l1 l2 N0 N1 = some g) :
    g.length = N1 ∧ (∀ row ∈ g, row.length = N0) ∧ ∀ (j i : Nat) row, g[j]? = some row → i < N0 → ∃ v, potential (surface (l1 * (i / (N0 - 1 : ℝ))) (l2 * (j / (N1 - 1 : ℝ)))) = some v ∧
      row[i]? = some (surface (l1 * (i / (N0 - 1 : ℝ))) (l2 * (j / (N1 - 1 : ℝ))), some v) := by
  unfold getGrid at h
  have hrow : ∀ (j : Nat) row, g[j]? = some row → j < N1 ∧ ((List.range N0).map fun (i : Nat) => l1 * (i / (N0 - 1 : ℝ))).mapM (fun x => (potential (surface x (l2 * (j / (N1 - 1 : ℝ))))).map fun v => (surface x (l2 * (j / (N1 - 1 : ℝ))), some v)) = some row := by
    intro j row hj
    rw [mapM_getElem? h, List.getElem?_map] at hj
    obtain ⟨y, hy, hj⟩ := Option.bind_eq_some_iff.1 hj
    obtain ⟨j', hj', rfl⟩ := Option.map_eq_some_iff.1 hy
    have hlt : j < N1 := by simpa using (List.getElem?_eq_some_iff.1 hj').1
    rw [List.getElem?_range hlt] at hj'
    cases hj'
    exact ⟨hlt, hj⟩
  refine ⟨by rw [mapM_length h]; simp, ?_, ?_⟩
  · intro row hr
    obtain ⟨j, hj⟩ := List.mem_iff_getElem?.1 hr
    rw [mapM_length (hrow j row hj).2]; simp
  · intro j i row hj hi
    have h1 := mapM_getElem? (hrow j row hj).2 i
    have hli : i < row.length := by rw [mapM_length (hrow j row hj).2]; simpa using hi
    rw [List.getElem?_map, List.getElem?_range hi, Option.map_some, Option.bind_some, List.getElem?_eq_getElem hli] at h1
    obtain ⟨v, hv, he⟩ := Option.map_eq_some_iff.1 h1.symm
    exact ⟨v, hv, by rw [List.getElem?_eq_getElem hli, he]⟩

/-- C99: a plot of the potential on a surface that does not raise adds two objects made of the same grid: the coloured surface and the equipotential lines. The grid has `N1` rows of `N0` vertices; the vertex `i` of the row `j` is the point of
the surface at the fractions `i / (N0 - 1)` and `j / (N1 - 1)` of its two sides, and the value attached to it is the potential there. -/
theorem C99_grid {potential : V3 → Option ℝ} {surface : ℝ → ℝ → V3} {l1 l2 : ℝ} {N0 N1 : Nat} {cm col : String} {n : Nat} {f f' : Figure} (h : f.plotEquipotentialLines potential surface l1 l2 N0 N1 cm n col = some f') :
    ∃ g, f' = { f with toPlot := f.toPlot ++ [[.grid g cm], [.isolines g n col]] } ∧ g.length = N1 ∧ (∀ row ∈ g, row.length = N0) ∧
      ∀ (j i : Nat) row, g[j]? = some row → i < N0 → ∃ v, potential (surface (l1 * (i / (N0 - 1 : ℝ))) (l2 * (j / (N1 - 1 : ℝ)))) = some v ∧
        row[i]? = some (surface (l1 * (i / (N0 - 1 : ℝ))) (l2 * (j / (N1 - 1 : ℝ))), some v) := by
  unfold Figure.plotEquipotentialLines at h
  simp only [Option.bind_eq_bind] at h
  obtain ⟨g, hg, h⟩ := Option.bind_eq_some_iff.1 h
  cases h
  exact ⟨g, rfl, getGrid_entry hg⟩

/-- C99: the plot raises only if the potential cannot be evaluated at some point of the surface, within its sides. -/
theorem C99_returns {potential : V3 → Option ℝ} {surface : ℝ → ℝ → V3} {l1 l2 : ℝ} (h1 : 0 ≤ l1) (h2 : 0 ≤ l2) (h : ∀ x y, 0 ≤ x → x ≤ l1 → 0 ≤ y → y ≤ l2 → (potential (surface x y)).isSome = true) (N0 N1 : Nat) (cm col : String) (n : Nat) (f : Figure) :
    ∃ f', f.plotEquipotentialLines potential surface l1 l2 N0 N1 cm n col = some f' := by
  have hfrac : ∀ (i N : Nat), i < N → 0 ≤ (i / (N - 1 : ℝ)) ∧ (i / (N - 1 : ℝ)) ≤ 1 := by
    intro i N hi
    have hN : (1 : ℝ) ≤ N := by exact_mod_cast (by omega : 1 ≤ N)
    have hi' : (i : ℝ) ≤ N - 1 := by
      have : (i : ℝ) + 1 ≤ N := by exact_mod_cast hi
      linarith
    exact ⟨div_nonneg (by positivity) (by linarith), div_le_one_of_le₀ hi' (by linarith)⟩
  have : ∃ g, getGrid potential surface l1 l2 N0 N1 = some g := by
    unfold getGrid
    refine mapM_some_of fun y hy => mapM_some_of fun x hx => ?_
    obtain ⟨j, hj, rfl⟩ := List.mem_map.1 hy
    obtain ⟨i, hi, rfl⟩ := List.mem_map.1 hx
    obtain ⟨a1, a2⟩ := hfrac i N0 (List.mem_range.1 hi)
    obtain ⟨b1, b2⟩ := hfrac j N1 (List.mem_range.1 hj)
    obtain ⟨v, hv⟩ := Option.isSome_iff_exists.1 (h (l1 * (i / (N0 - 1 : ℝ))) (l2 * (j / (N1 - 1 : ℝ))) (by positivity) (mul_le_of_le_one_right h1 a2) (by positivity) (mul_le_of_le_one_right h2 b2))
    exact ⟨(surface (l1 * (i / (N0 - 1 : ℝ))) (l2 * (j / (N1 - 1 : ℝ))), some v), by rw [hv]; rfl⟩
  obtain ⟨g, hg⟩ := this
  refine ⟨{ f with toPlot := f.toPlot ++ [[.grid g cm], [.isolines g n col]] }, ?_⟩
  unfold Figure.plotEquipotentialLines
  rw [hg]
  rfl

/-- C99: with at least two vertices on each side, the four corners of the surface are vertices of the grid: nothing of the surface is left out. -/
theorem C99_corners {potential : V3 → Option ℝ} {surface : ℝ → ℝ → V3} {l1 l2 : ℝ} {N0 N1 : Nat} {cm col : String} {n : Nat} {f f' : Figure} (h : f.plotEquipotentialLines potential surface l1 l2 N0 N1 cm n col = some f') (h0 : 2 ≤ N0) (h1 : 2 ≤ N1) :
    ∃ g, f'.toPlot = f.toPlot ++ [[.grid g cm], [.isolines g n col]] ∧ ∀ a ∈ [(0 : ℝ), 1], ∀ b ∈ [(0 : ℝ), 1], ∃ row ∈ g, ∃ v, (surface (l1 * a) (l2 * b), some v) ∈ row ∧ potential (surface (l1 * a) (l2 * b)) = some v := by
  obtain ⟨g, rfl, k1, k2, k3⟩ := C99_grid h
  refine ⟨g, rfl, ?_⟩
  have hend : ∀ N : Nat, 2 ≤ N → ∀ a ∈ [(0 : ℝ), 1], ∃ i : Nat, i < N ∧ (i / (N - 1 : ℝ)) = a := by
    intro N hN a ha
    simp only [List.mem_cons, List.not_mem_nil, or_false] at ha
    rcases ha with rfl | rfl
    · exact ⟨0, by omega, by simp⟩
    · refine ⟨N - 1, by omega, ?_⟩
      rw [Nat.cast_sub (by omega), Nat.cast_one]
      have : (2 : ℝ) ≤ N := by exact_mod_cast hN
      exact div_self (by linarith)
  intro a ha b hb
  obtain ⟨i, hi, rfl⟩ := hend N0 h0 a ha
  obtain ⟨j, hj, rfl⟩ := hend N1 h1 b hb
  rw [← k1] at hj
  obtain ⟨v, hv, he⟩ := k3 j i _ (List.getElem?_eq_getElem hj) hi
  exact ⟨_, List.getElem_mem hj, v, List.mem_of_getElem? he, hv⟩

/-- The hypotheses are met: the potential `x` on the unit square, with two by two vertices. -/
theorem C99_example : ∃ f', Figure.plotEquipotentialLines (fun p => some p.x) (fun x y => ⟨x, y, 0⟩) 1 1 2 2 "coolwarm" 40 "#444444" {} = some f' ∧
    f'.toPlot = [[.grid [[(⟨0, 0, 0⟩, some 0), (⟨1, 0, 0⟩, some 1)], [(⟨0, 1, 0⟩, some 0), (⟨1, 1, 0⟩, some 1)]] "coolwarm"],
      [.isolines [[(⟨0, 0, 0⟩, some 0), (⟨1, 0, 0⟩, some 1)], [(⟨0, 1, 0⟩, some 0), (⟨1, 1, 0⟩, some 1)]] 40 "#444444"]] := by
  obtain ⟨f', h⟩ := C99_returns (potential := fun p => some p.x) (surface := fun x y => ⟨x, y, 0⟩) (l1 := 1) (l2 := 1) (by norm_num) (by norm_num) (fun _ _ _ _ _ _ => rfl) 2 2 "coolwarm" "#444444" 40 {}
  refine ⟨f', h, ?_⟩
  have hg : getGrid (fun p => some p.x) (fun x y => ⟨x, y, 0⟩) 1 1 2 2 = some [[(⟨0, 0, 0⟩, some 0), (⟨1, 0, 0⟩, some 1)], [(⟨0, 1, 0⟩, some 0), (⟨1, 1, 0⟩, some 1)]] := by
    unfold getGrid
    norm_num [List.range_succ, List.mapM_cons]
  unfold Figure.plotEquipotentialLines at h
  rw [hg] at h
  cases h
  rfl

end Traceon
