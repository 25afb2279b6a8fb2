import Mathlib.Analysis.Real.Pi.Bounds
import Verif.Props.Shapes

/-!
# C65: extruding or revolving the boundary of a surface: sides and caps fit together
-/
namespace Traceon
open Spec V3

/-- The claim of C65 for a result `ss` made from the surface `s`: first `s` itself, then one side for every
boundary path of `s`, then (if asked for) a cap; every side starts at its edge of `s` and ends at the same edge
of the cap. -/
def Spec.FitsTogether (s : Surface) (ss : List Surface) (capped : Bool) : Prop :=
  ∃ b sides cap, s.boundaryPaths = some b ∧ ss = [s] ++ sides ++ (if capped then [cap] else []) ∧
    sides.length = b.length ∧
    ∀ (i : ℕ) p side, b[i]? = some p → sides[i]? = some side →
      side.length1 = p.length ∧
      ∃ (k : ℕ) (p' : Path), s.edgePaths[k]? = some p ∧ cap.edgePaths[k]? = some p' ∧ p'.length = p.length ∧
        ∀ u q, p.func u = some q → side.func u 0 = some q ∧ side.func u side.length2 = p'.func u ∧ (p'.func u).isSome

theorem boundary_mem {s : Surface} {b : List Path} (hb : s.boundaryPaths = some b) {p : Path} (hp : p ∈ b) :
    p ∈ s.edgePaths := by
  unfold Surface.boundaryPaths at hb
  cases h : s.edgePaths.mapM (fun p => p.isClosed) with
  | none => rw [h] at hb; cases hb
  | some c =>
    rw [h] at hb
    simp only [Option.bind_eq_bind, Option.bind_some] at hb
    split at hb <;> cases hb
    · obtain ⟨k, _, hk⟩ := (mem_compress (by rw [mapM_length h])).1 hp
      exact List.mem_of_getElem? hk
    · exact hp

/-- The edges of a surface whose points are all mapped by `f`. -/
theorem mapPoints_edges (s : Surface) (f : V3 → Option V3) (k : ℕ) (p : Path) (h : s.edgePaths[k]? = some p) :
    ∃ p', (s.mapPoints f).edgePaths[k]? = some p' ∧ p'.length = p.length ∧ ∀ u, p'.func u = (p.func u).bind f := by
  match k, h with
  | 0, h => cases h; exact ⟨_, rfl, rfl, fun _ => rfl⟩
  | 1, h => cases h; exact ⟨_, rfl, rfl, fun _ => rfl⟩
  | 2, h => cases h; exact ⟨_, rfl, rfl, fun _ => rfl⟩
  | 3, h => cases h; exact ⟨_, rfl, rfl, fun _ => rfl⟩
  | k + 4, h => simp [Surface.edgePaths] at h

/-- The common part of the proofs. -/
theorem fits_aux {s : Surface} {b : List Path} (hb : s.boundaryPaths = some b) (g : Path → Surface)
    (f : V3 → Option V3) (capped : Bool) (hl : ∀ p, (g p).length1 = p.length)
    (h0 : ∀ p ∈ b, ∀ u q, p.func u = some q → (g p).func u 0 = some q ∧ (g p).func u (g p).length2 = f q ∧ (f q).isSome) :
    FitsTogether s ([s] ++ b.map g ++ (if capped then [s.mapPoints f] else [])) capped := by
  refine ⟨b, b.map g, s.mapPoints f, hb, rfl, by simp, ?_⟩
  intro i p side hp hs
  rw [List.getElem?_map, hp] at hs
  cases hs
  have hm := List.mem_of_getElem? hp
  obtain ⟨k, hk⟩ := List.getElem?_of_mem (boundary_mem hb hm)
  obtain ⟨p', h1, h2, h3⟩ := mapPoints_edges s f k p hk
  refine ⟨hl p, k, p', hk, h1, h2, fun u q hq => ?_⟩
  obtain ⟨ha, hb', hc⟩ := h0 p hm u q hq
  refine ⟨ha, ?_, ?_⟩
  · rw [hb', h3, hq]; rfl
  · rw [h3, hq]; exact hc

/-- **C65**, `extrude_boundary` by a non-zero vector. -/
theorem C65_extrude_boundary {s : Surface} {b : List Path} (hb : s.boundaryPaths = some b) {w : V3} (hw : w ≠ 0)
    (enclose : Bool) : ∃ ss, s.extrudeBoundary w enclose = some ss ∧ FitsTogether s ss enclose := by
  have := fits_aux hb (fun p => p.extrude w) (moveFn w) enclose (fun _ => rfl) (fun p _ u q hq => by
    obtain ⟨_, _, _, h⟩ := C28_extrude p hw
    obtain ⟨h1, h2, _⟩ := h u q hq
    refine ⟨h1, ?_, rfl⟩
    rw [h2]
    simp [Path.move, Path.mapPoints, hq, moveFn])
  refine ⟨_, ?_, this⟩
  cases enclose <;> simp [Surface.extrudeBoundary, hb, Surface.move]

/-- **C65**, `revolve_boundary_x` and `revolve_boundary_z` by a non-zero angle (for any non-zero average radii
given by the numerical integration); the cap is left out exactly if it is not wanted or for a full turn. -/
theorem C65_revolve_boundary_partial {s : Surface} {b : List Path} (hb : s.boundaryPaths = some b) {rAvg : Path → ℝ}
    (hr : ∀ p ∈ b, rAvg p ≠ 0) {angle : ℝ} (ha : angle ≠ 0) (enclose : Bool) :
    (∃ ss, s.revolveBoundaryX rAvg angle enclose = some ss ∧
      FitsTogether s ss (enclose && !Surface.isFullTurn angle)) ∧
    (∃ ss, s.revolveBoundaryZ rAvg angle enclose = some ss ∧
      FitsTogether s ss (enclose && !Surface.isFullTurn angle)) := by
  have hx : oneAxis angle 0 0 = true := by simp [oneAxis, ha]
  have hz : oneAxis 0 0 angle = true := by simp [oneAxis, ha]
  constructor
  · have := fits_aux hb (fun p => p.revolveX (rAvg p) angle) (rotateFn angle 0 0 0) (enclose && !Surface.isFullTurn angle)
      (fun _ => rfl) (fun p hp u q hq => by
        obtain ⟨_, _, h⟩ := (C27_revolve_partial p (hr p hp) angle).1
        obtain ⟨h1, _, h2⟩ := h u q hq
        have e := rotateAxis_eq 0 ha 0 q
        simp only [rotateAxis] at e
        refine ⟨h1, h2 ha, by rw [e]; rfl⟩)
    refine ⟨_, ?_, this⟩
    unfold Surface.revolveBoundaryX
    cases enclose && !Surface.isFullTurn angle <;> simp [hb, Surface.rotate, hx]
  · have := fits_aux hb (fun p => p.revolveZ (rAvg p) angle) (rotateFn 0 0 angle 0) (enclose && !Surface.isFullTurn angle)
      (fun _ => rfl) (fun p hp u q hq => by
        obtain ⟨_, _, h⟩ := (C27_revolve_partial p (hr p hp) angle).2
        obtain ⟨h1, _, h2⟩ := h u q hq
        have e := rotateAxis_eq 2 ha 0 q
        simp only [rotateAxis] at e
        refine ⟨h1, h2 ha, by rw [e]; rfl⟩)
    refine ⟨_, ?_, this⟩
    unfold Surface.revolveBoundaryZ
    cases enclose && !Surface.isFullTurn angle <;> simp [hb, Surface.rotate, hz]

/-- **C65**, the caps of a revolved surface: a turn by any angle that differs from the full turn by more than 6.3e-5 is closed by caps if wanted (it is, wherever `FitsTogether` says `true`), and a full turn, also if it is
rounded, never is. -/
theorem C65_full_turn_partial {s : Surface} {b : List Path} (hb : s.boundaryPaths = some b) {rAvg : Path → ℝ} (hr : ∀ p ∈ b, rAvg p ≠ 0) {angle : ℝ} (ha : angle ≠ 0) (enclose : Bool) :
    (6.3e-5 < |angle - 2 * Real.pi| → (∃ ss, s.revolveBoundaryX rAvg angle enclose = some ss ∧ FitsTogether s ss enclose) ∧ ∃ ss, s.revolveBoundaryZ rAvg angle enclose = some ss ∧ FitsTogether s ss enclose) ∧
    (|angle - 2 * Real.pi| ≤ 6.2e-5 → (∃ ss, s.revolveBoundaryX rAvg angle enclose = some ss ∧ FitsTogether s ss false) ∧ ∃ ss, s.revolveBoundaryZ rAvg angle enclose = some ss ∧ FitsTogether s ss false) := by
  have h := C65_revolve_boundary_partial hb hr ha enclose
  have p1 := Real.pi_gt_d4
  have p2 := Real.pi_lt_d4
  have e : |2 * Real.pi| = 2 * Real.pi := abs_of_pos (by positivity)
  constructor
  · intro hd
    have hf : Surface.isFullTurn angle = false := by
      simp only [Surface.isFullTurn, decide_eq_false_iff_not, not_le, e]
      norm_num at hd p1 p2 ⊢
      linarith
    simpa only [hf, Bool.not_false, Bool.and_true] using h
  · intro hd
    have hf : Surface.isFullTurn angle = true := by
      simp only [Surface.isFullTurn, decide_eq_true_eq, e]
      norm_num at hd p1 p2 ⊢
      linarith
    simpa only [hf, Bool.not_true, Bool.and_false] using h

/-- a unit square away from the axes -/
noncomputable def exUnitSquare : Surface :=
  { func := fun u v => some ⟨1 + u, 1 + v, 0⟩, length1 := 1, length2 := 1 }

theorem not_close_aux {a b : V3} (h : ¬ pointsClose a b = true) : pointsClose a b = false := by
  cases e : pointsClose a b <;> simp_all

theorem exUnitSquare_boundary : exUnitSquare.boundaryPaths = some exUnitSquare.edgePaths := by
  have c1 : ∀ y : ℝ, pointsClose (⟨1, y, 0⟩ : V3) ⟨1 + 1, y, 0⟩ = false := by
    intro y
    apply not_close_aux
    simp only [pointsClose]
    norm_num
  have c2 : ∀ x : ℝ, pointsClose (⟨x, 1, 0⟩ : V3) ⟨x, 1 + 1, 0⟩ = false := by
    intro y
    apply not_close_aux
    simp only [pointsClose]
    norm_num
  simp [Surface.boundaryPaths, Surface.edgePaths, Path.isClosed, Path.start, Path.endpoint, exUnitSquare, c1, c2]

/-- **C65 is false for the y-axis**: with a quarter turn of the square, the first side ends elsewhere than the
cap. -/
theorem C65_y_refuted : exUnitSquare.boundaryPaths = some exUnitSquare.edgePaths ∧
    ∃ ss, exUnitSquare.revolveBoundaryY (fun _ => 1) (Real.pi / 2) true = some ss ∧ ¬ FitsTogether exUnitSquare ss true := by
  have hπ := Real.pi_pos
  have ha : Real.pi / 2 ≠ 0 := by positivity
  have hy : oneAxis 0 (Real.pi / 2) 0 = true := by simp [oneAxis]
  have hfull : Surface.isFullTurn (Real.pi / 2) = false := by
    simp only [Surface.isFullTurn, decide_eq_false_iff_not, not_le]
    rw [show Real.pi / 2 - 2 * Real.pi = -(3 / 2 * Real.pi) by ring, abs_neg, abs_of_pos (by positivity),
      abs_of_pos (by positivity)]
    have := Real.one_le_pi_div_two
    norm_num
    linarith
  refine ⟨exUnitSquare_boundary, _, by simp only [Surface.revolveBoundaryY, exUnitSquare_boundary, hfull, Surface.rotate, hy]; rfl, ?_⟩
  rintro ⟨b, sides, cap, hb, hss, hlen, h⟩
  rw [exUnitSquare_boundary] at hb
  cases hb
  simp only [Surface.edgePaths, List.map_cons, List.map_nil, List.cons_append, List.nil_append, List.cons.injEq,
    true_and, if_true] at hss
  match sides, hlen with
  | [s1, s2, s3, s4], _ =>
    simp only [List.cons_append, List.nil_append, List.cons.injEq, and_true] at hss
    obtain ⟨e1, -, -, -, e5⟩ := hss
    obtain ⟨-, k, p', hk, hp', -, hu⟩ := h 0 _ s1 rfl rfl
    have hp0 : (Path.mk (fun u => exUnitSquare.func u 0) exUnitSquare.length1 exUnitSquare.breaks1 exUnitSquare.name).func 0
        = some ⟨1 + 0, 1 + 0, 0⟩ := rfl
    have h1 := (hu 0 _ hp0).2.1
    rw [← e1, (C27_revolve_y_partial _ one_ne_zero (Real.pi / 2) 0 hp0).2.2 ha, rotateAxis_eq _ (neg_ne_zero.2 ha)] at h1
    obtain ⟨p'', h2, -, h3⟩ := mapPoints_edges exUnitSquare (rotateFn 0 (Real.pi / 2) 0 0) k _ hk
    rw [← e5, h2] at hp'
    cases hp'
    have e := rotateAxis_eq 1 ha 0 ⟨1 + 0, 1 + 0, 0⟩
    simp only [rotateAxis] at e
    rw [h3, hp0, Option.bind_some, e] at h1
    have := congrArg V3.z (Option.some.inj h1)
    simp [rotC] at this
    norm_num at this

end Traceon
