import Verif.Props.Excitation2
import Verif.Props.Ruled3
import Verif.Props.Triangle3

/-!
# Witnesses: concrete cases of C18, C26, C32, C33, C34 and C55
-/
namespace Traceon
open Spec Excitation SMesh

/-- Three lines and a triangle; line 1 belongs to both groups. -/
def wireMesh : Mesh (Int × Int) :=
  { points := [(1, 0), (2, 0), (1, 1), (2, 1), (3, 0)], lines := [[0, 1], [2, 3], [1, 4]], triangles := [[0, 1, 2]]
    physLines := [("a", [0, 1]), ("b", [1, 2])], physTris := [("coil", [0])] }

/-- Two voltages, the first one changed afterwards; the second one becomes a dielectric; a call with an unknown name changes nothing. -/
def wireCalls : List (Excitation.Call Int (Int × Int)) :=
  [.voltage [("a", .num 10), ("b", .num 5)], .voltage [("a", .num 7)], .dielectric [("b", .num 2)], .voltage [("c", .num 1)], .current [("coil", .num 3)]]

theorem wire_valid : Valid wireMesh := by
  refine ⟨Or.inl rfl, ?_, ?_, ?_, ?_, ?_, ?_⟩ <;> simp [wireMesh]

/-- The case meets the hypotheses of **C32**, and has the expected outcome. -/
theorem C32_example (G : Geo (Int × Int)) : ∃ x0 : Excitation Int (Int × Int), Valid wireMesh ∧ Excitation.new wireMesh .radial (fun _ => true) = some x0 ∧
    (x0.calls G wireCalls).types.get "a" = some (.voltageFixed, .num 7) ∧ (x0.calls G wireCalls).types.get "b" = some (.dielectric, .num 2) ∧
    (x0.calls G wireCalls).types.get "c" = none ∧ (x0.calls G wireCalls).types.get "coil" = some (.current, .num 3) ∧ (x0.calls G wireCalls).mesh = wireMesh :=
  ⟨{ mesh := wireMesh, electrodes := ["a", "b", "coil"], symmetry := .radial }, wire_valid, rfl, rfl, rfl, rfl, rfl, rfl⟩

/-- The excitation after these calls. -/
def wireExc : Excitation Int (Int × Int) :=
  { mesh := wireMesh, electrodes := ["a", "b", "coil"], symmetry := .radial, types := [("a", .voltageFixed, .num 7), ("b", .dielectric, .num 2), ("coil", .current, .num 3)] }

theorem wire_reached (G : Geo (Int × Int)) : Excitation.calls G { mesh := wireMesh, electrodes := ["a", "b", "coil"], symmetry := .radial } wireCalls = wireExc := rfl

theorem wire_get {n : String} {tv : ExcType × ExcVal Int (Int × Int)} (h : wireExc.types.get n = some tv) :
    (n = "a" ∧ tv = (.voltageFixed, .num 7)) ∨ (n = "b" ∧ tv = (.dielectric, .num 2)) ∨ (n = "coil" ∧ tv = (.current, .num 3)) := by
  have := Dict.mem_of_get h
  simpa [wireExc] using this

theorem wire_proper : Proper wireExc .electrostatic := by
  intro n tv h h'
  rcases wire_get h with ⟨rfl, rfl⟩ | ⟨rfl, rfl⟩ | ⟨rfl, rfl⟩
  · exact ⟨[0, 1], rfl⟩
  · exact ⟨[1, 2], rfl⟩
  · exact absurd h' (by decide)

theorem wire_numeric : Numeric wireExc .electrostatic := by
  intro n tv h h'
  rcases wire_get h with ⟨rfl, rfl⟩ | ⟨rfl, rfl⟩ | ⟨rfl, rfl⟩
  · exact ⟨(nomatch ·), fun _ => ⟨7, rfl⟩⟩
  · exact ⟨(nomatch ·), fun _ => ⟨2, rfl⟩⟩
  · exact absurd h' (by decide)

/-- The hypotheses of **C33** (and the outcome): all lines are active, and the groups keep their elements. -/
theorem C33_example : Valid wireExc.mesh ∧ wireExc.types.keys.Nodup ∧ Proper wireExc .electrostatic ∧
    wireExc.activeElements .electrostatic = some ([[(1, 0), (2, 0)], [(1, 1), (2, 1)], [(2, 0), (3, 0)]], [("a", [0, 1]), ("b", [1, 2])]) :=
  ⟨wire_valid, by decide, wire_proper, by decide +kernel⟩

/-- A voltage on triangles of a radially symmetric problem: the hypothesis of `C33_wrong_dimension`. -/
theorem C33_wrong_dimension_example : ¬Proper (V := Int) { wireExc with types := [("coil", .voltageFixed, .num 3)] } .electrostatic := by
  intro h
  obtain ⟨g, hg⟩ := h "coil" (.voltageFixed, .num 3) rfl rfl
  have : (wireMesh.physLines.get "coil") = some g := hg
  exact absurd this (by rw [show wireMesh.physLines.get "coil" = none from by decide +kernel]; simp)

/-- The hypotheses of **C34** (and the outcome): line 1, which is in both groups, is a dielectric, the group which comes last decides. -/
theorem C34_example : Valid wireExc.mesh ∧ wireExc.types.keys.Nodup ∧ Proper wireExc .electrostatic ∧ Numeric wireExc .electrostatic ∧
    wireExc.electricRhs (fun ps => ps.headD 0) = some [7, 0, 0] :=
  ⟨wire_valid, by decide, wire_proper, wire_numeric, by decide +kernel⟩

/-- The hypotheses of **C18**: a cylinder, meshed with any constant size. -/
theorem C18_example {rAvg ms : ℝ} (hr : 0 < rAvg) (hms : 0 < ms) : ∃ s : Surface, ∃ sec ∈ s.sections, Tame s ∧ ∃ fuel quads st,
    meshSection sec.gridPoint (splitReal (fun _ => ms)) fuel 2 [] = some (quads, st) ∧ coverCount quads (1 / 3) (1 / 7) = 1 := by
  have h1 : (⟨1, 0, 0⟩ : V3) ≠ ⟨1, 0, 2⟩ := by simp
  have ht : Tame ((Path.line ⟨1, 0, 0⟩ ⟨1, 0, 2⟩).revolveZ rAvg (2 * Real.pi)) := (polygon_revolve_tame (.line h1) hr _).2.2
  obtain ⟨K, hK, hl⟩ := ht.speed
  obtain ⟨sec, hsec⟩ : ∃ sec, sec ∈ ((Path.line ⟨1, 0, 0⟩ ⟨1, 0, 2⟩).revolveZ rAvg (2 * Real.pi)).sections := by
    have := single_section (s := (Path.line ⟨1, 0, 0⟩ ⟨1, 0, 2⟩).revolveZ rAvg (2 * Real.pi)) rfl rfl
    match h : ((Path.line ⟨1, 0, 0⟩ ⟨1, 0, 2⟩).revolveZ rAvg (2 * Real.pi)).sections with
    | [] => rw [h] at this; simp at this
    | sec :: _ => exact ⟨sec, by simp⟩
  obtain ⟨f0, hf⟩ := section_finishes ht.good hK hl hms (fun _ => le_refl ms) 2 hsec
  obtain ⟨quads, hq'⟩ := hf f0 le_rfl
  obtain ⟨g1, g2, g3⟩ := section_good ht.good hsec
  obtain ⟨st, hq⟩ := fold_total (gridPoint_consistent sec) (splitReal (fun _ => ms)) f0 (fun d i j hi hj => by rw [evenGrid_some g1 g2 g3 hi hj]; rfl)
    (startQuads 2) [] ⟨[], []⟩ quads (sound_init _ _) (fun q hq => (startQuads_inGrid hq).1) hq'
  exact ⟨_, sec, hsec, ht, f0, quads, st, hq, C18_tame_partial ht hsec ms hq (by norm_num) (by norm_num) (by norm_num) (by norm_num)⟩

/-- A quarter turn about the z-axis (**C26**). -/
theorem C26_example : rotateAxis 2 (Real.pi / 2) 0 ⟨1, 0, 5⟩ = some ⟨0, 1, 5⟩ := by
  rw [rotateAxis_eq 2 (by positivity)]
  simp [rotC]
  ext <;> simp

/-- The right triangle with corner at `(s, 0, 0)`, seen from the origin. -/
theorem normalize_right (s : ℝ) (n : V3) : (normalizeTri ⟨s, 0, 0⟩ ⟨s + 1, 0, 0⟩ ⟨s, 1, 0⟩ 0 n).x0 = s ∧ (normalizeTri ⟨s, 0, 0⟩ ⟨s + 1, 0, 0⟩ ⟨s, 1, 0⟩ 0 n).y0 = 0 ∧
    (normalizeTri ⟨s, 0, 0⟩ ⟨s + 1, 0, 0⟩ ⟨s, 1, 0⟩ 0 n).a = 1 ∧ (normalizeTri ⟨s, 0, 0⟩ ⟨s + 1, 0, 0⟩ ⟨s, 1, 0⟩ 0 n).b = 0 ∧ (normalizeTri ⟨s, 0, 0⟩ ⟨s + 1, 0, 0⟩ ⟨s, 1, 0⟩ 0 n).c = 1 ∧
    (normalizeTri ⟨s, 0, 0⟩ ⟨s + 1, 0, 0⟩ ⟨s, 1, 0⟩ 0 n).z = 0 := by
  simp [normalizeTri, triFrame, V3.unit, V3.dot, V3.cross, V3.norm]

/-- The hypotheses of `C55_potential_branch` and `C55_potential_branch_refuted` are met where the line through the target along the first side meets the triangle: to the right and to the left of it. -/
theorem C55_branch_example (n : V3) :
    (0 < (normalizeTri ⟨1, 0, 0⟩ ⟨1 + 1, 0, 0⟩ ⟨1, 1, 0⟩ 0 n).xmin 0 ∧ (normalizeTri ⟨1, 0, 0⟩ ⟨1 + 1, 0, 0⟩ ⟨1, 1, 0⟩ 0 n).xmin 0 ≤ (normalizeTri ⟨1, 0, 0⟩ ⟨1 + 1, 0, 0⟩ ⟨1, 1, 0⟩ 0 n).xmax 0) ∧
    ((normalizeTri ⟨-2, 0, 0⟩ ⟨-2 + 1, 0, 0⟩ ⟨-2, 1, 0⟩ 0 n).xmin 0 < (normalizeTri ⟨-2, 0, 0⟩ ⟨-2 + 1, 0, 0⟩ ⟨-2, 1, 0⟩ 0 n).xmax 0 ∧
      (normalizeTri ⟨-2, 0, 0⟩ ⟨-2 + 1, 0, 0⟩ ⟨-2, 1, 0⟩ 0 n).xmax 0 < 0) ∧
    ∀ s, Real.sqrt ((0 + (normalizeTri ⟨s, 0, 0⟩ ⟨s + 1, 0, 0⟩ ⟨s, 1, 0⟩ 0 n).y0) * (0 + (normalizeTri ⟨s, 0, 0⟩ ⟨s + 1, 0, 0⟩ ⟨s, 1, 0⟩ 0 n).y0) +
      (normalizeTri ⟨s, 0, 0⟩ ⟨s + 1, 0, 0⟩ ⟨s, 1, 0⟩ 0 n).z * (normalizeTri ⟨s, 0, 0⟩ ⟨s + 1, 0, 0⟩ ⟨s, 1, 0⟩ 0 n).z) < 1e-12 := by
  obtain ⟨h1, h2, h3, h4, h5, h6⟩ := normalize_right 1 n
  obtain ⟨k1, k2, k3, k4, k5, k6⟩ := normalize_right (-2) n
  refine ⟨?_, ?_, fun s => ?_⟩
  · simp only [NormTri.xmin, NormTri.xmax, h1, h3, h4, h5]; norm_num
  · simp only [NormTri.xmin, NormTri.xmax, k1, k3, k4, k5]; norm_num
  · obtain ⟨-, l2, -, -, -, l6⟩ := normalize_right s n
    rw [l2, l6]
    norm_num

end Traceon
