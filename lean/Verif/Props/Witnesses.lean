import Verif.Props.Excitation2
import Verif.Props.SurfaceMesh7
import Verif.Props.Caps
import Verif.Props.Shapes2
import Verif.Props.Pipeline5
import Verif.Props.PathGap
import Verif.Props.FullTurn
import Verif.Props.Ruled6

/-!
# Concrete cases that meet the hypotheses of the theorems

For the theorems of C16, C21, C22, C24, C26, C27, C28, C32–C34, C65 and C66, which are stated in files that come before the examples.
-/
namespace Traceon
open Spec

/-! ## Paths -/

/-- a corner: three units along x, four along z -/
noncomputable def wLegs : Path × Path := (Path.line ⟨1, 0, 0⟩ ⟨4, 0, 0⟩, Path.line ⟨4, 0, 0⟩ ⟨4, 0, 4⟩)

theorem wLegs_ne : (⟨1, 0, 0⟩ : V3) ≠ ⟨4, 0, 0⟩ ∧ (⟨4, 0, 0⟩ : V3) ≠ ⟨4, 0, 4⟩ :=
  ⟨fun h => by have := congrArg V3.x h; norm_num at this, fun h => by have := congrArg V3.z h; norm_num at this⟩

theorem wLegs_good : GoodPath wLegs.1 ∧ GoodPath wLegs.2 := ⟨line_good wLegs_ne.1, line_good wLegs_ne.2⟩

theorem wLegs_lengths : wLegs.1.length = 3 ∧ wLegs.2.length = 4 := by
  constructor
  · simp only [wLegs, Path.line, V3.norm, V3.dot]
    rw [show (3 : ℝ) = Real.sqrt (3 ^ 2) by rw [Real.sqrt_sq (by norm_num)]]; congr 1; norm_num
  · simp only [wLegs, Path.line, V3.norm, V3.dot]
    rw [show (4 : ℝ) = Real.sqrt (4 ^ 2) by rw [Real.sqrt_sq (by norm_num)]]; congr 1; norm_num

theorem line_ends {a b : V3} (h : a ≠ b) : (Path.line a b).start = some a ∧ (Path.line a b).endpoint = some b := by
  have : V3.norm (a - b) ≠ 0 := (norm_sub_pos h).ne'
  unfold Path.start Path.endpoint
  simp only [Path.line, safeDiv, this, if_false, Option.map_some, Option.some.injEq, zero_div, div_self this]
  constructor <;> ext <;> simp

theorem wLegs_ends : wLegs.1.endpoint = some ⟨4, 0, 0⟩ ∧ wLegs.2.start = some ⟨4, 0, 0⟩ ∧ wLegs.1.start = some ⟨1, 0, 0⟩ ∧ wLegs.2.endpoint = some ⟨4, 0, 4⟩ := by
  obtain ⟨n1, n2⟩ := wLegs_ne
  exact ⟨(line_ends n1).2, (line_ends n2).1, (line_ends n1).1, (line_ends n2).2⟩

theorem wLegs_close : pointsClose ⟨4, 0, 0⟩ ⟨4, 0, 0⟩ = true := pointsClose_self _

/-- C16: the mesh of the first leg with mesh size 0.3, named -/
example : ∃ (us : List ℝ) (M : Mesh V3) (n : ℕ), wLegs.1.mesh (realGeo id) (some 0.3) none false (some "leg") true = some M ∧ Valid M ∧ us.Pairwise (· < ·) ∧
    us.head? = some 0 ∧ us.getLast? = some 3 ∧ us.length = n + 1 ∧ M.lines.length = n := by
  obtain ⟨us, M, n, h1, h2, h3, h4, h5, h6, h7, -⟩ := C16_path_mesh (realGeo_lawful id) wLegs_good.1 (ms := some 0.3) (mf := none)
    (fun h e => by cases e; norm_num) (Or.inl rfl) false (some "leg") true
  rw [wLegs_lengths.1] at h5
  exact ⟨us, M, n, h1, h2, h3, h4, h5, by simpa using h6, h7⟩

/-- C21 and C22: the two legs joined -/
example : ∃ r, wLegs.1.join wLegs.2 = some r ∧ r.length = 7 ∧ r.start = some ⟨1, 0, 0⟩ ∧ r.endpoint = some ⟨4, 0, 4⟩ ∧ GoodPath r ∧ 3 ∈ r.breaks ∧
    r.func 3 = some ⟨4, 0, 0⟩ ∧ r.breaks.length = 1 := by
  obtain ⟨h1, h2⟩ := wLegs_lengths
  obtain ⟨e1, e2, e3, e4⟩ := wLegs_ends
  obtain ⟨r, k1, k2, k3, k4, -⟩ := (C21_join (p := wLegs.1) (q := wLegs.2) (by rw [h1]; norm_num) (by rw [h2]; norm_num) e1 e2).2 wLegs_close
  obtain ⟨r', m1, m2, -, m4, m5⟩ := C22_breakpoints_partial wLegs_good.1 wLegs_good.2 rfl e1 e2 wLegs_close
  rw [k1] at m1; cases m1
  rw [h1] at m4
  exact ⟨r, k1, by rw [k2, h1, h2]; norm_num, by rw [k3, e3], by rw [k4 (Or.inl (by rw [h2]; norm_num)), e4], m2, m4.1, m4.2, m5⟩

/-- C21: the legs and the way back, in either order of joining -/
example : ∃ pq qs l r, wLegs.1.join wLegs.2 = some pq ∧ wLegs.2.join (Path.line ⟨4, 0, 4⟩ ⟨1, 0, 4⟩) = some qs ∧ pq.join (Path.line ⟨4, 0, 4⟩ ⟨1, 0, 4⟩) = some l ∧
    wLegs.1.join qs = some r ∧ l.func = r.func ∧ l.length = r.length := by
  obtain ⟨h1, h2⟩ := wLegs_lengths
  obtain ⟨e1, e2, e3, e4⟩ := wLegs_ends
  have hne : (⟨4, 0, 4⟩ : V3) ≠ ⟨1, 0, 4⟩ := fun h => by have := congrArg V3.x h; norm_num at this
  have hs : (Path.line ⟨4, 0, 4⟩ ⟨1, 0, 4⟩).start = some ⟨4, 0, 4⟩ := (line_ends hne).1
  obtain ⟨pq, qs, l, r, a1, a2, a3, a4, a5, a6, -⟩ := C21_join_assoc (p := wLegs.1) (q := wLegs.2) (s := Path.line ⟨4, 0, 4⟩ ⟨1, 0, 4⟩) (by rw [h1]; norm_num)
    (by rw [h2]; norm_num) (norm_nonneg' _) e1 e2 e4 hs wLegs_close (pointsClose_self _)
  exact ⟨pq, qs, l, r, a1, a2, a3, a4, a5, a6⟩

/-- C22: `line_to` -/
example : ∃ r, wLegs.1.lineTo ⟨4, 0, 4⟩ = some r ∧ GoodPath r ∧ r.breaks = [3] ∧ r.endpoint = some ⟨4, 0, 4⟩ := by
  obtain ⟨r, k1, k2, -, -, k5, k6, -⟩ := C22_line_to wLegs_good.1 wLegs_ends.1 wLegs_ne.2
  exact ⟨r, k1, k2, by rw [k6, wLegs_lengths.1]; rfl, k5⟩

/-- C24: the legs do not close -/
example : wLegs.1.isClosed ≠ some true := by
  intro h
  have := ((C24_closed_gap wLegs_ends.2.2.1 wLegs_ends.1).1 h).1
  norm_num at this

/-- C26, C28: the first leg moved and extruded -/
example : (wLegs.1.mapPoints (moveFn ⟨0, 2, 0⟩)).func 3 = some ⟨4, 2, 0⟩ ∧ (wLegs.1.extrude ⟨0, 2, 0⟩).func 3 (wLegs.1.extrude ⟨0, 2, 0⟩).length2 = some ⟨4, 2, 0⟩ := by
  have h3 : wLegs.1.func 3 = some ⟨4, 0, 0⟩ := by
    have := wLegs_ends.1
    unfold Path.endpoint at this
    rwa [wLegs_lengths.1] at this
  have hm : (wLegs.1.mapPoints (moveFn ⟨0, 2, 0⟩)).func 3 = some ⟨4, 2, 0⟩ := by
    rw [(C26_path_transform wLegs.1 _).2.2.2 3 _ h3]
    simp only [moveFn, Option.some.injEq]
    ext <;> simp
  refine ⟨hm, ?_⟩
  have hw : (⟨0, 2, 0⟩ : V3) ≠ 0 := fun h => by have := congrArg V3.y h; norm_num at this
  rw [((C28_extrude wLegs.1 hw).2.2.2 3 _ h3).2.1]
  exact hm

/-! ## Excitations -/

/-- a radial mesh with two named groups of lines, a coil and two lines without a name -/
def wMesh : Mesh IPoint where
  points := [⟨1, 0, 0⟩, ⟨2, 0, 0⟩, ⟨1, 0, 1⟩, ⟨2, 0, 1⟩]
  lines := [[0, 1], [1, 3], [3, 2], [2, 0]]
  triangles := [[0, 1, 2]]
  physLines := [("wall", [0, 1]), ("anode", [3])]
  physTris := [("coil", [0])]

theorem wMesh_valid : Valid wMesh := by
  refine ⟨Or.inl rfl, ?_, ?_, ?_, ?_, ?_, ?_⟩ <;> decide

def wStart : Excitation Int IPoint := { mesh := wMesh, electrodes := ["wall", "anode", "coil"], symmetry := .radial }

theorem wStart_new : Excitation.new wMesh .radial (fun p => p.y == 0) = some wStart := by rfl

/-- voltages, a current, a wrong name in the middle of a call, and a second voltage for the wall -/
def wCalls : List (Excitation.Call Int IPoint) :=
  [.voltage [("wall", .num 5), ("nowhere", .num 1), ("anode", .num 7)], .current [("coil", .num 3)], .dielectric [("anode", .num 2)], .voltage [("wall", .num 9)],
    .current [("wall", .num 1)]]

/-- C32: the last legal assignment counts, an illegal one stops its call only -/
example : Valid wMesh ∧ Excitation.new wMesh .radial (fun p => p.y == 0) = some wStart ∧
    ((wStart.calls intGeo wCalls).types.get "wall").map (·.1) = some .voltageFixed ∧ ((wStart.calls intGeo wCalls).types.get "anode").map (·.1) = some .dielectric ∧
    ((wStart.calls intGeo wCalls).types.get "coil").map (·.1) = some .current ∧ (wStart.calls intGeo wCalls).types.keys.Nodup :=
  ⟨wMesh_valid, wStart_new, rfl, rfl, rfl, (C32_history wMesh_valid wStart_new wCalls).2.1⟩

theorem wCalls_types : (wStart.calls intGeo wCalls).types = [("wall", .voltageFixed, .num 9), ("coil", .current, .num 3), ("anode", .dielectric, .num 2)] := rfl

theorem wCalls_proper (s : Excitation.Statics) : Proper (wStart.calls intGeo wCalls) s ∧ Numeric (wStart.calls intGeo wCalls) s := by
  have h : ∀ n tv, (wStart.calls intGeo wCalls).types.get n = some tv →
      (n = "wall" ∧ tv = (.voltageFixed, .num 9)) ∨ (n = "coil" ∧ tv = (.current, .num 3)) ∨ (n = "anode" ∧ tv = (.dielectric, .num 2)) := by
    intro n tv h
    have := Dict.mem_of_get h
    rw [wCalls_types] at this
    simpa [Prod.ext_iff, and_assoc] using this
  constructor
  · intro n tv hn ht
    rcases h n tv hn with ⟨rfl, rfl⟩ | ⟨rfl, rfl⟩ | ⟨rfl, rfl⟩
    · exact ⟨[0, 1], rfl⟩
    · cases s <;> exact absurd ht (by decide)
    · exact ⟨[3], rfl⟩
  · intro n tv hn ht
    rcases h n tv hn with ⟨rfl, rfl⟩ | ⟨rfl, rfl⟩ | ⟨rfl, rfl⟩ <;> simp

/-- C33 and C34: the lines of the wall and the anode are the unknowns, the right hand side is 9, 9 and 0 -/
example : ∃ (verts : List (List IPoint)) (names : Dict (List Nat)) (F : List Int),
    (wStart.calls intGeo wCalls).activeElements .electrostatic = some (verts, names) ∧ verts.length = 3 ∧ names.get "anode" = some [2] ∧ names.get "coil" = none ∧
    (wStart.calls intGeo wCalls).electricRhs (fun vs => vs.headD ⟨0, 0, 0⟩) = some F ∧ F = [9, 9, 0] := by
  refine ⟨_, _, _, rfl, rfl, rfl, rfl, rfl, rfl⟩

example : Valid (wStart.calls intGeo wCalls).mesh ∧ (wStart.calls intGeo wCalls).types.keys.Nodup ∧ Proper (wStart.calls intGeo wCalls) .electrostatic ∧
    Numeric (wStart.calls intGeo wCalls) .electrostatic ∧ Decides (wStart.calls intGeo wCalls) .electrostatic "anode" 3 :=
  ⟨(C32_boundary_mesh wMesh_valid wStart_new wCalls).1, (C32_history wMesh_valid wStart_new wCalls).2.1, (wCalls_proper _).1, (wCalls_proper _).2,
    [("wall", [0, 1])], [3], [], rfl, by simp, ⟨_, rfl, rfl⟩, by simp⟩

/-- a voltage on the coil -/
def wWrong : Excitation Int IPoint := { mesh := wMesh, electrodes := ["wall", "anode", "coil"], symmetry := .radial, types := [("coil", .voltageFixed, .num 1)] }

/-- C33: a coil does not have lines -/
example : ¬ Proper wWrong .electrostatic ∧ wWrong.activeElements .electrostatic = none := by
  have hp : ¬ Proper wWrong .electrostatic := by
    intro h
    obtain ⟨g, hg⟩ := h "coil" (.voltageFixed, .num 1) rfl rfl
    have : wWrong.physicals.get "coil" = none := rfl
    rw [this] at hg
    cases hg
  exact ⟨hp, C33_wrong_dimension hp⟩

/-! ## Surfaces -/

/-- C65: the walls and the top of a box standing on the unit square -/
example : ∃ ss, exUnitSquare.extrudeBoundary ⟨0, 0, 5⟩ true = some ss ∧ FitsTogether exUnitSquare ss true :=
  C65_extrude_boundary exUnitSquare_boundary (fun h => by have := congrArg V3.z h; norm_num at this) true

/-- C65: a quarter turn of the unit square -/
example : ∃ ss, exUnitSquare.revolveBoundaryX (fun _ => 1) (Real.pi / 2) true = some ss ∧ FitsTogether exUnitSquare ss (true && !Surface.isFullTurn (Real.pi / 2)) :=
  (C65_revolve_boundary_partial exUnitSquare_boundary (fun _ _ => one_ne_zero) (by positivity) true).1

/-- C67: the two legs of a corner, turned about the z-axis, and extruded -/
example : ∃ r, wLegs.1.lineTo ⟨4, 0, 4⟩ = some r ∧ Covered (r.revolveZ 3 (2 * Real.pi)) ∧ Covered (r.extrude ⟨0, 2, 0⟩) := by
  obtain ⟨r, h, -⟩ := C22_line_to wLegs_good.1 wLegs_ends.1 wLegs_ne.2
  exact ⟨r, h, (C67_revolve_polygon_partial (.lineTo (.line wLegs_ne.1) wLegs_ends.1 wLegs_ne.2 h) (by norm_num) _).2.2,
    C67_extrude_partial (.lineTo (.line wLegs_ne.1) wLegs_ends.1 wLegs_ne.2 h) (fun h => by have := congrArg V3.y h; norm_num at this)⟩

/-- C67: a leg and a quarter of a circle -/
example : ∃ r, wLegs.1.arcTo ⟨4, 0, 2⟩ ⟨6, 0, 2⟩ = some r ∧ Contour r ∧ Covered (r.extrude ⟨0, 2, 0⟩) := by
  have hx : V3.cross ((⟨4, 0, 0⟩ : V3) - ⟨4, 0, 2⟩) (⟨6, 0, 2⟩ - ⟨4, 0, 2⟩) ≠ 0 := fun h => by
    have := congrArg V3.y h
    simp [V3.cross] at this
    norm_num at this
  have he : wLegs.1.endpoint = some ⟨4, 0, 0⟩ := wLegs_ends.1
  obtain ⟨r, hr⟩ : ∃ r, wLegs.1.arcTo ⟨4, 0, 2⟩ ⟨6, 0, 2⟩ = some r := by
    obtain ⟨r, -, h, -⟩ := C82_arc wLegs_good.1 he hx false
    exact ⟨r, h⟩
  have hc : Contour r := .arcTo false (.line wLegs_ne.1) he hx hr
  exact ⟨r, hr, hc, C67_extrude_partial hc (fun h => by have := congrArg V3.y h; norm_num at this)⟩

end Traceon
