import Verif.Model.Surface
import Verif.Props.Arcs

/-!
# Theorems about rigid motions (C26) and surfaces of revolution (C27)
-/
namespace Traceon
open Spec V3

/-! ## C26 -/

/-- `f` is the rotation about the axis through `o` with unit direction `axis`, counter clockwise by
`angle` (right hand rule): it keeps distances, fixes the axis, and turns the plane through `o`
perpendicular to the axis by `angle`. (This determines `f`.) -/
structure Spec.IsRotation (f : V3 → V3) (o axis : V3) (angle : ℝ) : Prop where
  rigid : ∀ p q, Spec.dist (f p) (f q) = Spec.dist p q
  fixes : ∀ t : ℝ, f (o + t * axis) = o + t * axis
  plane : ∀ p, dot (p - o) axis = 0 → dot (f p - o) axis = 0 ∧
    dot (p - o) (f p - o) = Real.cos angle * dot (p - o) (p - o) ∧
    cross (p - o) (f p - o) = (Real.sin angle * dot (p - o) (p - o)) * axis

/-- The three axes of the `rotate` method. -/
def Spec.axisOf : Fin 3 → V3
  | 0 => ⟨1, 0, 0⟩
  | 1 => ⟨0, 1, 0⟩
  | 2 => ⟨0, 0, 1⟩

/-- The keyword arguments `Rx`, `Ry`, `Rz` for a rotation about one axis. -/
noncomputable def rotateAxis (i : Fin 3) (α : ℝ) (o : V3) : V3 → Option V3 :=
  match i with
  | 0 => rotateFn α 0 0 o
  | 1 => rotateFn 0 α 0 o
  | 2 => rotateFn 0 0 α o

/-- The rotation in closed form. -/
noncomputable def rotC (i : Fin 3) (α : ℝ) (o p : V3) : V3 :=
  let d := p - o
  match i with
  | 0 => o + ⟨d.x, Real.cos α * d.y - Real.sin α * d.z, Real.sin α * d.y + Real.cos α * d.z⟩
  | 1 => o + ⟨Real.cos α * d.x + Real.sin α * d.z, d.y, -Real.sin α * d.x + Real.cos α * d.z⟩
  | 2 => o + ⟨Real.cos α * d.x - Real.sin α * d.y, Real.sin α * d.x + Real.cos α * d.y, d.z⟩

theorem rotateAxis_eq (i : Fin 3) {α : ℝ} (hα : α ≠ 0) (o p : V3) :
    rotateAxis i α o p = some (rotC i α o p) := by
  fin_cases i <;> simp only [rotateAxis, rotateFn, rotationMatrix, rotC, hα, ne_eq, not_true_eq_false,
    not_false_eq_true, if_true, if_false, Option.map_some, Mat3.apply, Option.some.injEq] <;>
  · ext <;> simp [dot] <;> ring

theorem dist_eq_sqrt (a b : V3) : Spec.dist a b = Real.sqrt ((a.x - b.x) ^ 2 + (a.y - b.y) ^ 2 + (a.z - b.z) ^ 2) := by
  unfold Spec.dist V3.norm dot; simp only [sub_x, sub_y, sub_z]; congr 1; ring

theorem rotC_rigid (i : Fin 3) (α : ℝ) (o p q : V3) : Spec.dist (rotC i α o p) (rotC i α o q) = Spec.dist p q := by
  rw [dist_eq_sqrt, dist_eq_sqrt]
  congr 1
  have h := Real.cos_sq_add_sin_sq α
  set c := Real.cos α
  set s := Real.sin α
  fin_cases i <;> simp only [rotC, add_x, add_y, add_z, sub_x, sub_y, sub_z]
  · linear_combination ((p.y - q.y) ^ 2 + (p.z - q.z) ^ 2) * h
  · linear_combination ((p.x - q.x) ^ 2 + (p.z - q.z) ^ 2) * h
  · linear_combination ((p.x - q.x) ^ 2 + (p.y - q.y) ^ 2) * h

theorem rotC_comp (i : Fin 3) (α β : ℝ) (o p : V3) : rotC i β o (rotC i α o p) = rotC i (α + β) o p := by
  fin_cases i <;> simp only [rotC, Real.cos_add, Real.sin_add] <;> ext <;> simp <;> ring

theorem rotC_zero (i : Fin 3) (o p : V3) : rotC i 0 o p = p := by
  fin_cases i <;> simp only [rotC, Real.cos_zero, Real.sin_zero] <;> ext <;> simp

theorem rotC_rotation (i : Fin 3) (α : ℝ) (o : V3) : IsRotation (rotC i α o) o (axisOf i) α := by
  constructor
  · exact rotC_rigid i α o
  · intro t; fin_cases i <;> simp only [rotC, axisOf] <;> ext <;> simp
  · intro p hp
    fin_cases i <;> simp [axisOf, dot] at hp <;>
    · refine ⟨by simp [axisOf, rotC, dot, hp], ?_, ?_⟩
      · simp [rotC, dot, hp]; ring
      · ext <;> simp [rotC, cross, dot, axisOf, hp] <;> ring

/-- **C26**, rotations by a non-zero angle about one axis: `rotate` is the rigid rotation about that axis
through `origin`, counter clockwise by the angle; rotating by the opposite angle undoes it; rotations about
the same axis add up as long as the total is not zero. -/
theorem C26_rotate_partial (i : Fin 3) (o : V3) {α : ℝ} (hα : α ≠ 0) :
    (∃ f, (∀ p, rotateAxis i α o p = some (f p)) ∧ IsRotation f o (axisOf i) α) ∧
    (∀ p, (rotateAxis i α o p).bind (rotateAxis i (-α) o) = some p) ∧
    (∀ β, β ≠ 0 → α + β ≠ 0 → ∀ p, (rotateAxis i α o p).bind (rotateAxis i β o) = rotateAxis i (α + β) o p) := by
  refine ⟨⟨rotC i α o, rotateAxis_eq i hα o, rotC_rotation i α o⟩, ?_, ?_⟩
  · intro p
    rw [rotateAxis_eq i hα, Option.bind_some, rotateAxis_eq i (neg_ne_zero.2 hα), rotC_comp, add_neg_cancel, rotC_zero]
  · intro β hβ hab p
    rw [rotateAxis_eq i hα, Option.bind_some, rotateAxis_eq i hβ, rotateAxis_eq i hab, rotC_comp]

/-- **C26 is false for angle zero**: `rotate()` without a non-zero angle accepts its arguments but no
point of the result can be computed (instead of being the identity). -/
theorem C26_zero_angle_refuted (p : Path) (o : V3) :
    ∃ r, p.rotate 0 0 0 o = some r ∧ ∀ u, r.func u = none := by
  refine ⟨p.mapPoints (rotateFn 0 0 0 o), by simp [Path.rotate, oneAxis], ?_⟩
  intro u
  have : rotateFn 0 0 0 o = fun _ => none := by funext q; simp [rotateFn, rotationMatrix]
  simp [Path.mapPoints, this]

/-- **C26**, rotation about two axes at once is refused. -/
theorem C26_two_axes_refused (p : Path) (o : V3) {a b : ℝ} (ha : a ≠ 0) (hb : b ≠ 0) :
    (p.rotate a b 0 o = none) ∧ (p.rotate a 0 b o = none) ∧ (p.rotate 0 a b o = none) := by
  simp [Path.rotate, oneAxis, ha, hb]

/-- **C26**, moves and mirrors: they are rigid, and undone by moving back or mirroring again; mirrors keep
the two other coordinates. -/
theorem C26_move_mirror (d p q : V3) :
    (∃ p' q', moveFn d p = some p' ∧ moveFn d q = some q' ∧ Spec.dist p' q' = Spec.dist p q ∧ p' - p = d ∧
      moveFn (-d) p' = some p) ∧
    (∀ e, (moveFn d p).bind (moveFn e) = moveFn (d + e) p) ∧
    (∀ f ∈ [mirrorXZFn, mirrorYZFn, mirrorXYFn], ∃ p' q', f p = some p' ∧ f q = some q' ∧
      Spec.dist p' q' = Spec.dist p q ∧ f p' = some p) ∧
    (∃ p', mirrorXZFn p = some p' ∧ p'.x = p.x ∧ p'.z = p.z ∧ p'.y + p.y = 0) ∧
    (∃ p', mirrorYZFn p = some p' ∧ p'.y = p.y ∧ p'.z = p.z ∧ p'.x + p.x = 0) ∧
    (∃ p', mirrorXYFn p = some p' ∧ p'.x = p.x ∧ p'.y = p.y ∧ p'.z + p.z = 0) := by
  refine ⟨⟨_, _, rfl, rfl, ?_, ?_, ?_⟩, ?_, ?_, ⟨_, rfl, rfl, rfl, by simp⟩, ⟨_, rfl, rfl, rfl, by simp⟩,
    ⟨_, rfl, rfl, rfl, by simp⟩⟩
  · rw [dist_eq_sqrt, dist_eq_sqrt]; congr 1; simp
  · ext <;> simp
  · simp only [moveFn, Option.some.injEq]; ext <;> simp
  · intro e; simp only [moveFn, Option.bind_some, Option.some.injEq]; ext <;> simp [add_assoc]
  · intro f hf
    simp only [List.mem_cons, List.not_mem_nil, or_false] at hf
    rcases hf with rfl | rfl | rfl
    · exact ⟨_, _, rfl, rfl, by rw [dist_eq_sqrt, dist_eq_sqrt]; congr 1; simp; ring, by simp [mirrorXZFn]⟩
    · exact ⟨_, _, rfl, rfl, by rw [dist_eq_sqrt, dist_eq_sqrt]; congr 1; simp; ring, by simp [mirrorYZFn]⟩
    · exact ⟨_, _, rfl, rfl, by rw [dist_eq_sqrt, dist_eq_sqrt]; congr 1; simp; ring, by simp [mirrorXYFn]⟩

/-- the transformations act on a path point by point and keep its length, breakpoints and name -/
theorem C26_path_transform (p : Path) (f : V3 → Option V3) :
    (p.mapPoints f).length = p.length ∧ (p.mapPoints f).breaks = p.breaks ∧ (p.mapPoints f).name = p.name ∧
    ∀ u q, p.func u = some q → (p.mapPoints f).func u = f q :=
  ⟨rfl, rfl, rfl, fun u q h => by simp [Path.mapPoints, h]⟩

/-! ## C27 -/

theorem polar (y x : ℝ) : Real.sqrt (x * x + y * y) * Real.cos (atan2 y x) = x ∧
    Real.sqrt (x * x + y * y) * Real.sin (atan2 y x) = y := by
  have habs : ‖(⟨x, y⟩ : ℂ)‖ = Real.sqrt (x * x + y * y) := by rw [Complex.norm_def, Complex.normSq_mk]
  by_cases hz : (⟨x, y⟩ : ℂ) = 0
  · have hx : x = 0 := congrArg Complex.re hz
    have hy : y = 0 := congrArg Complex.im hz
    subst hx; subst hy; simp
  · have hn : Real.sqrt (x * x + y * y) ≠ 0 := by rw [← habs]; exact norm_ne_zero_iff.2 hz
    rw [atan2, Complex.cos_arg hz, Complex.sin_arg, habs]
    exact ⟨mul_div_cancel₀ _ hn, mul_div_cancel₀ _ hn⟩

theorem polar_rot (y x φ : ℝ) :
    Real.sqrt (x * x + y * y) * Real.cos (atan2 y x + φ) = Real.cos φ * x - Real.sin φ * y ∧
    Real.sqrt (x * x + y * y) * Real.sin (atan2 y x + φ) = Real.sin φ * x + Real.cos φ * y := by
  obtain ⟨h1, h2⟩ := polar y x
  rw [Real.cos_add, Real.sin_add]
  constructor
  · linear_combination Real.cos φ * h1 - Real.sin φ * h2
  · linear_combination Real.sin φ * h1 + Real.cos φ * h2

/-- Revolving about the x- or z-axis, in closed form. -/
theorem revolveX_func (p : Path) {rAvg : ℝ} (hr : rAvg ≠ 0) (angle u v : ℝ) {q : V3} (hq : p.func u = some q) :
    (p.revolveX rAvg angle).func u v = some (rotC 0 (v / (2 * Real.pi * rAvg) * angle) 0 q) := by
  have h0 : 2 * Real.pi * rAvg ≠ 0 := mul_ne_zero (by positivity) hr
  simp only [Path.revolveX, hq, safeDiv, h0, if_false, Option.bind_eq_bind, Option.bind_some, rotC]
  have := polar_rot q.z q.y (v / (2 * Real.pi * rAvg) * angle)
  rw [pow_two, pow_two, this.1, this.2]
  simp only [Option.pure_def, Option.some.injEq]
  ext <;> simp

theorem revolveZ_func (p : Path) {rAvg : ℝ} (hr : rAvg ≠ 0) (angle u v : ℝ) {q : V3} (hq : p.func u = some q) :
    (p.revolveZ rAvg angle).func u v = some (rotC 2 (v / (2 * Real.pi * rAvg) * angle) 0 q) := by
  have h0 : 2 * Real.pi * rAvg ≠ 0 := mul_ne_zero (by positivity) hr
  simp only [Path.revolveZ, hq, safeDiv, h0, if_false, Option.bind_eq_bind, Option.bind_some, rotC]
  have := polar_rot q.y q.x (v / (2 * Real.pi * rAvg) * angle)
  rw [this.1, this.2]
  simp only [Option.pure_def, Option.some.injEq]
  ext <;> simp

/-- revolving about the y-axis turns the other way -/
theorem revolveY_func (p : Path) {rAvg : ℝ} (hr : rAvg ≠ 0) (angle u v : ℝ) {q : V3} (hq : p.func u = some q) :
    (p.revolveY rAvg angle).func u v = some (rotC 1 (-(v / (2 * Real.pi * rAvg) * angle)) 0 q) := by
  have h0 : 2 * Real.pi * rAvg ≠ 0 := mul_ne_zero (by positivity) hr
  simp only [Path.revolveY, hq, safeDiv, h0, if_false, Option.bind_eq_bind, Option.bind_some, rotC, Real.cos_neg,
    Real.sin_neg]
  have := polar_rot q.z q.x (v / (2 * Real.pi * rAvg) * angle)
  rw [this.1, this.2]
  simp only [Option.pure_def, Option.some.injEq]
  ext <;> simp <;> ring

/-- What C27 claims for one axis: the surface starts at the path, its points are the path points rotated
counter clockwise, in proportion to `v`, up to `angle` at the far end, and the far end is what `rotate`
gives. -/
def Spec.RevolvesLikeRotate (p : Path) (s : Surface) (i : Fin 3) (angle : ℝ) : Prop :=
  s.length1 = p.length ∧ s.breaks1 = p.breaks ∧
  ∀ u q, p.func u = some q →
    s.func u 0 = some q ∧
    (∀ v, ∃ f, IsRotation f 0 (axisOf i) (v / s.length2 * angle) ∧ s.func u v = some (f q)) ∧
    (angle ≠ 0 → s.func u s.length2 = rotateAxis i angle 0 q)

/-- **C27**, the x- and z-axis: revolving is rotating. -/
theorem C27_revolve_partial (p : Path) {rAvg : ℝ} (hr : rAvg ≠ 0) (angle : ℝ) :
    RevolvesLikeRotate p (p.revolveX rAvg angle) 0 angle ∧ RevolvesLikeRotate p (p.revolveZ rAvg angle) 2 angle := by
  have h0 : 2 * Real.pi * rAvg ≠ 0 := mul_ne_zero (by positivity) hr
  constructor
  · refine ⟨rfl, rfl, fun u q hq => ⟨?_, ?_, ?_⟩⟩
    · rw [revolveX_func p hr _ _ _ hq]; simp [rotC_zero]
    · intro v; exact ⟨_, rotC_rotation 0 _ 0, revolveX_func p hr angle u v hq⟩
    · intro ha
      have : (p.revolveX rAvg angle).length2 = 2 * Real.pi * rAvg := rfl
      rw [this, revolveX_func p hr _ _ _ hq, rotateAxis_eq _ ha, div_self h0, one_mul]
  · refine ⟨rfl, rfl, fun u q hq => ⟨?_, ?_, ?_⟩⟩
    · rw [revolveZ_func p hr _ _ _ hq]; simp [rotC_zero]
    · intro v; exact ⟨_, rotC_rotation 2 _ 0, revolveZ_func p hr angle u v hq⟩
    · intro ha
      have : (p.revolveZ rAvg angle).length2 = 2 * Real.pi * rAvg := rfl
      rw [this, revolveZ_func p hr _ _ _ hq, rotateAxis_eq _ ha, div_self h0, one_mul]

/-- **C27**, the y-axis, what the code does: it turns clockwise, i.e. ends at `rotate(Ry=-angle)`. -/
theorem C27_revolve_y_partial (p : Path) {rAvg : ℝ} (hr : rAvg ≠ 0) (angle u : ℝ) {q : V3} (hq : p.func u = some q) :
    (p.revolveY rAvg angle).func u 0 = some q ∧
    (∀ v, ∃ f, IsRotation f 0 (axisOf 1) (-(v / (p.revolveY rAvg angle).length2 * angle)) ∧
      (p.revolveY rAvg angle).func u v = some (f q)) ∧
    (angle ≠ 0 → (p.revolveY rAvg angle).func u (p.revolveY rAvg angle).length2 = rotateAxis 1 (-angle) 0 q) := by
  have h0 : 2 * Real.pi * rAvg ≠ 0 := mul_ne_zero (by positivity) hr
  refine ⟨?_, ?_, ?_⟩
  · rw [revolveY_func p hr _ _ _ hq]; simp [rotC_zero]
  · intro v; exact ⟨_, rotC_rotation 1 _ 0, revolveY_func p hr angle u v hq⟩
  · intro ha
    have : (p.revolveY rAvg angle).length2 = 2 * Real.pi * rAvg := rfl
    rw [this, revolveY_func p hr _ _ _ hq, rotateAxis_eq _ (neg_ne_zero.2 ha), div_self h0, one_mul]

/-- **C27 is false for the y-axis**: a quarter turn of the point (1,0,0) ends at (0,0,1) with `revolve_y` and
at (0,0,-1) with `rotate(Ry=π/2)`; the end cap of `revolve_boundary_y` does not fit. -/
theorem C27_y_refuted :
    ¬ ∀ (p : Path) (rAvg angle : ℝ), rAvg ≠ 0 → RevolvesLikeRotate p (p.revolveY rAvg angle) 1 angle := by
  intro h
  have hπ := Real.pi_pos
  have h1 := (h { func := fun _ => some ⟨1, 0, 0⟩, length := 1 } 1 (Real.pi / 2) one_ne_zero).2.2 0 _ rfl
  have h2 := h1.2.2 (by positivity)
  have h3 : (Path.revolveY { func := fun _ => some ⟨1, 0, 0⟩, length := 1 } 1 (Real.pi / 2)).length2
    = 2 * Real.pi * 1 := rfl
  rw [h3, revolveY_func _ one_ne_zero _ _ _ rfl, rotateAxis_eq _ (by positivity),
    div_self (by positivity), one_mul] at h2
  simp only [Option.some.injEq] at h2
  have := congrArg V3.z h2
  simp [rotC] at this
  norm_num at this

end Traceon
