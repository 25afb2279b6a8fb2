import Verif.Props.Plot

/-!
# C94: a plotted mesh (continued)
-/
namespace Traceon
open Spec Plotting

theorem colourSpec_of {m : Mesh V3} {d : Nat → Option String} (hd : pointToPhysical m = some d) (colours : Dict String) (default : String) (cut : String → String) {e : List Nat} (he : e ≠ []) :
    ColourSpec m colours default cut e (cut (elementColour colours default d e)) := by
  have hin : ∀ n, (∀ p ∈ e, d p = some n) → ∀ p ∈ e, PointInGroup m n p := by
    intro n h p hp
    rcases pointToPhysical_spec hd p with ⟨h1, -⟩ | ⟨n', h1, h2⟩
    · rw [h p hp] at h1; cases h1
    · rw [h p hp] at h1; cases h1; exact h2
  refine ⟨fun n col h1 h2 => ?_, ?_, ?_⟩
  · rw [elementColour_own he (n := n) (c := col) ?_ h2]
    intro p hp
    rcases pointToPhysical_spec hd p with ⟨-, h3⟩ | ⟨n', h3, h4⟩
    · exact absurd ((h1 p hp n).2 rfl) (h3 n)
    · rw [h3, (h1 p hp n').1 h4]
  · rintro ⟨p, hp, h1⟩
    rcases elementColour_cases colours default d e with h2 | ⟨n, -, h2⟩
    · rw [h2]
    · exact absurd (hin n h2 p hp) (h1 n)
  · rcases elementColour_cases colours default d e with h2 | ⟨n, h1, h2⟩
    · left; rw [h2]
    · right; exact ⟨n, _, h1, rfl, hin n h2⟩

/-- What the drawing of the triangles amounts to. -/
theorem drawTriangles_spec {order : List String → List String} (ho : IsSetOrder order) {m : Mesh V3} (hv : Valid m) (colours : Dict String) :
    ∃ (d : Nat → Option String) (ts : List Tri3) (ss : List Shape), pointToPhysical m = some d ∧ m.triangles.mapM (triVerts m.points) = some ts ∧ drawTriangles order m colours = some ss ∧
      (m.triangles.map (·.take 3)) = m.triangles ∧ paintedLines ss = [] ∧ arrowsIn ss = [] ∧
      (paintedTriangles ss).Perm (ts.zip (m.triangles.map fun t => cut7 (elementColour colours "#CCCCCC" d t))) ∧ (∀ s ∈ ss, ∃ us c, s = .triangles us c (legendOf colours c)) := by
  obtain ⟨d, hd⟩ := pointToPhysical_some hv
  have htake : m.triangles.map (·.take 3) = m.triangles := by
    conv_rhs => rw [← List.map_id m.triangles]
    refine List.map_congr_left fun t ht => ?_
    simp [List.take_of_length_le (hv.tris t ht).1.le]
  have hts : ∃ ts, m.triangles.mapM (triVerts m.points) = some ts := by
    have : ∀ t ∈ m.triangles, ∃ u, triVerts m.points t = some u := by
      intro t ht
      obtain ⟨h1, h2⟩ := hv.tris t ht
      match t, h1 with
      | [a, b, c], _ =>
        have ha := h2 a (by simp)
        have hb := h2 b (by simp)
        have hc := h2 c (by simp)
        exact ⟨⟨m.points[a], m.points[b], m.points[c]⟩, by simp [triVerts, ha, hb, hc]⟩
    revert this
    generalize m.triangles = l
    intro h
    induction l with
    | nil => exact ⟨[], rfl⟩
    | cons t l ih =>
      obtain ⟨u, hu⟩ := h t (by simp)
      obtain ⟨us, hus⟩ := ih fun t ht => h t (List.mem_cons_of_mem _ ht)
      exact ⟨u :: us, by rw [List.mapM_cons, hu, hus]; rfl⟩
  obtain ⟨ts, hts⟩ := hts
  have hlen : ts.length = m.triangles.length := mapM_length hts
  set cs := m.triangles.map fun t => cut7 (elementColour colours "#CCCCCC" d t) with hcs
  have hcl : cs.length = ts.length := by rw [hcs, List.length_map, hlen]
  refine ⟨d, ts, (order cs).map fun c => .triangles (compress (cs.map (· == c)) ts) c (legendOf colours c), hd, hts, ?_, htake, ?_, ?_, ?_, ?_⟩
  · unfold drawTriangles
    rw [hd]
    simp only [Option.bind_eq_bind, Option.bind_some, htake, hts]
    rfl
  · generalize order cs = l
    induction l with
    | nil => rfl
    | cons c l ih => simpa [paintedLines] using ih
  · generalize order cs = l
    induction l with
    | nil => rfl
    | cons c l ih => simpa [arrowsIn] using ih
  · have hz : ∀ c, (compress (cs.map (· == c)) ts).map (fun t => (t, c)) = (ts.zip cs).filter fun a => a.2 == c := by
      exact fun c => compress_coloured c cs ts hcl
    have hp : ∀ l : List String, paintedTriangles (l.map fun c => .triangles (compress (cs.map (· == c)) ts) c (legendOf colours c)) = l.flatMap fun c => (ts.zip cs).filter fun a => a.2 == c := by
      intro l
      induction l with
      | nil => rfl
      | cons c l ih =>
        rw [List.map_cons, List.flatMap_cons, ← ih, ← hz]
        rfl
    rw [hp]
    refine parts_perm (fun a : Tri3 × String => a.2) _ _ (ho cs).1 fun a ha => ?_
    exact ((ho cs).2 a.2).2 (List.of_mem_zip ha).2
  · intro s hs
    obtain ⟨c, -, rfl⟩ := List.mem_map.1 hs
    exact ⟨_, c, rfl⟩

/-- What the drawing of the lines amounts to. -/
theorem drawLines_spec {order : List String → List String} (ho : IsSetOrder order) {m : Mesh V3} (hv : Valid m) (colours : Dict String) :
    ∃ (d : Nat → Option String) (ls : List (V3 × V3)) (ss : List Shape), pointToPhysical m = some d ∧ m.lines.mapM (lineEnds m.points) = some ls ∧ drawLines order m colours = some ss ∧
      paintedTriangles ss = [] ∧ arrowsIn ss = [] ∧
      (paintedLines ss).Perm (ls.zip (m.lines.map fun l => elementColour colours "#CCCCC" d (l.take 2))) ∧ (∀ s ∈ ss, ∃ us c, s = .lines us c (legendOf colours c)) := by
  obtain ⟨d, hd⟩ := pointToPhysical_some hv
  have hts : ∃ ts, m.lines.mapM (lineEnds m.points) = some ts := by
    have : ∀ t ∈ m.lines, ∃ u, lineEnds m.points t = some u := by
      intro t ht
      obtain ⟨h1, h2⟩ := hv.lines t ht
      have hc := hv.cols
      match t, h1, h2 with
      | [], h1, _ => simp at h1; omega
      | [_], h1, _ => simp at h1; omega
      | a :: b :: _, _, h2 =>
        have ha := h2 a (by simp)
        have hb := h2 b (by simp)
        exact ⟨(m.points[a], m.points[b]), by simp [lineEnds, ha, hb]⟩
    revert this
    generalize m.lines = l
    intro h
    induction l with
    | nil => exact ⟨[], rfl⟩
    | cons t l ih =>
      obtain ⟨u, hu⟩ := h t (by simp)
      obtain ⟨us, hus⟩ := ih fun t ht => h t (List.mem_cons_of_mem _ ht)
      exact ⟨u :: us, by rw [List.mapM_cons, hu, hus]; rfl⟩
  obtain ⟨ts, hts⟩ := hts
  have hlen : ts.length = m.lines.length := mapM_length hts
  set cs := m.lines.map fun l => elementColour colours "#CCCCC" d (l.take 2) with hcs
  have hcl : cs.length = ts.length := by rw [hcs, List.length_map, hlen]
  refine ⟨d, ts, (order cs).map fun c => .lines (compress (cs.map (· == c)) ts) c (legendOf colours c), hd, hts, ?_, ?_, ?_, ?_, ?_⟩
  · unfold drawLines
    rw [hd]
    simp only [Option.bind_eq_bind, Option.bind_some, hts]
    rfl
  · generalize order cs = l
    induction l with
    | nil => rfl
    | cons c l ih => simpa [paintedTriangles] using ih
  · generalize order cs = l
    induction l with
    | nil => rfl
    | cons c l ih => simpa [arrowsIn] using ih
  · have hz : ∀ c, (compress (cs.map (· == c)) ts).map (fun t => (t, c)) = (ts.zip cs).filter fun a => a.2 == c := by
      exact fun c => compress_coloured c cs ts hcl
    have hp : ∀ l : List String, paintedLines (l.map fun c => .lines (compress (cs.map (· == c)) ts) c (legendOf colours c)) = l.flatMap fun c => (ts.zip cs).filter fun a => a.2 == c := by
      intro l
      induction l with
      | nil => rfl
      | cons c l ih =>
        rw [List.map_cons, List.flatMap_cons, ← ih, ← hz]
        rfl
    rw [hp]
    refine parts_perm (fun a : (V3 × V3) × String => a.2) _ _ (ho cs).1 fun a ha => ?_
    exact ((ho cs).2 a.2).2 (List.of_mem_zip ha).2
  · intro s hs
    obtain ⟨c, -, rfl⟩ := List.mem_map.1 hs
    exact ⟨_, c, rfl⟩

end Traceon
