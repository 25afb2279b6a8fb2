import Verif.Spec.Rigid
import Verif.Props.Matrix3D2
import Verif.Props.SolveField2

/-!
# C81: rigid motions, the matrix
-/
namespace Traceon
open Spec V3

namespace Spec.RigidMotion
variable (R : RigidMotion)

theorem lin_neg (a : V3) : R.lin (-a) = -R.lin a := by
  have h : -a = (-1 : ℝ) * a := by ext <;> simp
  rw [h, R.smul]
  ext <;> simp

theorem lin_sub (a b : V3) : R.lin (a - b) = R.lin a - R.lin b := by
  have h : a - b = a + -b := by ext <;> simp <;> ring
  rw [h, R.add, R.lin_neg]
  ext <;> simp <;> ring

theorem move_sub (a b : V3) : R.move a - R.move b = R.lin (a - b) := by
  rw [lin_sub]
  unfold move
  ext <;> simp

theorem norm_lin (a : V3) : V3.norm (R.lin a) = V3.norm a := by unfold V3.norm; rw [R.dot]

theorem sign_sq : R.sign * R.sign = 1 := by rcases R.sign_eq with h | h <;> rw [h] <;> norm_num

theorem norm_sign (a : V3) : V3.norm (R.sign * a) = V3.norm a := by
  unfold V3.norm
  congr 1
  simp only [V3.dot, smul_x, smul_y, smul_z]
  have := R.sign_sq
  linear_combination (a.x * a.x + a.y * a.y + a.z * a.z) * this

theorem unit_lin (a : V3) : unit (R.lin a) = R.lin (unit a) := by
  unfold unit
  rw [norm_lin, R.smul]

theorem unit_sign (a : V3) : unit (R.sign * a) = R.sign * unit a := by
  unfold unit
  rw [norm_sign]
  ext <;> simp <;> ring

theorem move_affine (a b : ℝ) (v0 v1 v2 : V3) :
    R.move ⟨v0.x + a * (v1.x - v0.x) + b * (v2.x - v0.x), v0.y + a * (v1.y - v0.y) + b * (v2.y - v0.y), v0.z + a * (v1.z - v0.z) + b * (v2.z - v0.z)⟩ =
      ⟨(R.move v0).x + a * ((R.move v1).x - (R.move v0).x) + b * ((R.move v2).x - (R.move v0).x),
       (R.move v0).y + a * ((R.move v1).y - (R.move v0).y) + b * ((R.move v2).y - (R.move v0).y),
       (R.move v0).z + a * ((R.move v1).z - (R.move v0).z) + b * ((R.move v2).z - (R.move v0).z)⟩ := by
  have h : (⟨v0.x + a * (v1.x - v0.x) + b * (v2.x - v0.x), v0.y + a * (v1.y - v0.y) + b * (v2.y - v0.y), v0.z + a * (v1.z - v0.z) + b * (v2.z - v0.z)⟩ : V3) =
      v0 + a * (v1 - v0) + b * (v2 - v0) := by ext <;> simp
  rw [h]
  unfold move
  rw [R.add, R.add, R.smul, R.smul, lin_sub, lin_sub]
  ext <;> simp <;> ring

theorem triTarget_tri (t : Tri3) : triTarget (R.tri t) = R.move (triTarget t) := by
  unfold triTarget
  rw [move_affine]
  rfl

theorem posRow_tri (t : Tri3) : posRow (R.tri t) = (posRow t).map R.move := by
  unfold posRow
  rw [List.map_map]
  refine List.map_congr_left fun q _ => ?_
  rw [Function.comp, move_affine]
  rfl

theorem cross_tri (t : Tri3) : V3.cross ((R.tri t).v1 - (R.tri t).v0) ((R.tri t).v2 - (R.tri t).v0) = R.sign * R.lin (V3.cross (t.v1 - t.v0) (t.v2 - t.v0)) := by
  unfold tri
  rw [move_sub, move_sub, R.cross]

theorem triArea_tri (t : Tri3) : triArea (R.tri t) = triArea t := by
  have h : ∀ t, triArea t = 0.5 * V3.norm (V3.cross (t.v1 - t.v0) (t.v2 - t.v0)) := by
    intro t
    unfold triArea V3.norm
    congr 2
    simp only [V3.dot, V3.cross, sub_x, sub_y, sub_z]
    ring
  rw [h, h, cross_tri, norm_sign, norm_lin]

theorem jacRow_tri (t : Tri3) : jacRow (R.tri t) = jacRow t := by unfold jacRow; rw [triArea_tri]

theorem far_tri (p : V3) (t : Tri3) : FarTriangle (R.move p) (R.tri t) ↔ FarTriangle p t := by
  unfold FarTriangle distance3d tri
  rw [move_sub, move_sub, norm_lin, norm_lin]

theorem normal_tri (t : Tri3) : normal3d (R.tri t).v0 (R.tri t).v1 (R.tri t).v2 = R.sign * R.lin (normal3d t.v0 t.v1 t.v2) := by
  unfold normal3d
  rw [cross_tri, unit_sign, unit_lin]

theorem dot_sign (a b : V3) : V3.dot (R.sign * a) b = R.sign * V3.dot a b := by simp only [V3.dot, smul_x, smul_y, smul_z]; ring

/-- In the coordinates of the triangle nothing changes, except for the side on which the target is. -/
theorem normalizeTri_move (v0 v1 v2 p n : V3) :
    normalizeTri (R.move v0) (R.move v1) (R.move v2) (R.move p) (R.sign * R.lin n) =
      let t := normalizeTri v0 v1 v2 p n
      ⟨t.x0, t.y0, t.a, t.b, t.c, R.sign * t.z, ⟨R.sign * t.normal.x, R.sign * t.normal.y, t.normal.z⟩⟩ := by
  have ex : (triFrame (R.move v0) (R.move v1) (R.move v2)).ex = R.lin (triFrame v0 v1 v2).ex := by
    simp only [triFrame, move_sub, unit_lin]
  have ez : (triFrame (R.move v0) (R.move v1) (R.move v2)).ez = R.sign * R.lin (triFrame v0 v1 v2).ez := by
    simp only [triFrame, move_sub, R.cross, unit_sign, unit_lin]
  have ey : (triFrame (R.move v0) (R.move v1) (R.move v2)).ey = R.lin (triFrame v0 v1 v2).ey := by
    have h1 : ∀ a b c : V3, (triFrame a b c).ey = V3.cross (triFrame a b c).ez (triFrame a b c).ex := fun _ _ _ => rfl
    rw [h1, h1, ex, ez]
    have h2 : ∀ a b : V3, V3.cross (R.sign * a) b = R.sign * V3.cross a b := by intro a b; ext <;> simp [V3.cross] <;> ring
    rw [h2, R.cross]
    have := R.sign_sq
    ext
    · simp only [smul_x]; linear_combination (R.lin (V3.cross (triFrame v0 v1 v2).ez (triFrame v0 v1 v2).ex)).x * this
    · simp only [smul_y]; linear_combination (R.lin (V3.cross (triFrame v0 v1 v2).ez (triFrame v0 v1 v2).ex)).y * this
    · simp only [smul_z]; linear_combination (R.lin (V3.cross (triFrame v0 v1 v2).ez (triFrame v0 v1 v2).ex)).z * this
  have hs : ∀ a b : V3, V3.dot a (R.sign * b) = R.sign * V3.dot a b := by intro a b; simp only [V3.dot, smul_x, smul_y, smul_z]; ring
  simp only [normalizeTri, ex, ey, ez, move_sub, R.dot, norm_lin, dot_sign, hs, NormTri.mk.injEq, V3.mk.injEq, true_and, and_true]
  refine ⟨by ring, ?_⟩
  rw [← mul_assoc, R.sign_sq, one_mul]

theorem potentialReturns_move {v0 v1 v2 p : V3} {r : ℝ} :
    PotentialTriangleReturns (R.move v0) (R.move v1) (R.move v2) (R.move p) r ↔ PotentialTriangleReturns v0 v1 v2 p r := by
  have h0 : R.sign * R.lin 0 = 0 := by
    have : R.lin 0 = (0 : ℝ) * R.lin 0 := by rw [← R.smul]; congr 1; ext <;> simp
    rw [this]; ext <;> simp
  have h := R.normalizeTri_move v0 v1 v2 p 0
  rw [h0] at h
  unfold PotentialTriangleReturns
  simp only at h ⊢
  rw [h]
  have e : (⟨(normalizeTri v0 v1 v2 p 0).x0, (normalizeTri v0 v1 v2 p 0).y0, (normalizeTri v0 v1 v2 p 0).a, (normalizeTri v0 v1 v2 p 0).b, (normalizeTri v0 v1 v2 p 0).c,
      R.sign * (normalizeTri v0 v1 v2 p 0).z,
      ⟨R.sign * (normalizeTri v0 v1 v2 p 0).normal.x, R.sign * (normalizeTri v0 v1 v2 p 0).normal.y, (normalizeTri v0 v1 v2 p 0).normal.z⟩⟩ : NormTri).potentialIntegrand =
      (normalizeTri v0 v1 v2 p 0).potentialIntegrand := by
    funext y
    simp only [NormTri.potentialIntegrand, NormTri.xmin, NormTri.xmax]
    rw [show R.sign * (normalizeTri v0 v1 v2 p 0).z * (R.sign * (normalizeTri v0 v1 v2 p 0).z) = (normalizeTri v0 v1 v2 p 0).z * (normalizeTri v0 v1 v2 p 0).z by
      linear_combination (normalizeTri v0 v1 v2 p 0).z * (normalizeTri v0 v1 v2 p 0).z * R.sign_sq]
  rw [e]

theorem fluxReturns_move (h1 : R.sign = 1) {v0 v1 v2 p n : V3} {r : ℝ} :
    FluxTriangleReturns (R.move v0) (R.move v1) (R.move v2) (R.move p) (R.sign * R.lin n) r ↔ FluxTriangleReturns v0 v1 v2 p n r := by
  have h := R.normalizeTri_move v0 v1 v2 p n
  unfold FluxTriangleReturns
  simp only at h ⊢
  rw [h, h1]
  simp only [one_mul]

theorem selfPotential_move (v0 v1 v2 p : V3) :
    selfPotentialTriangle (R.move v0) (R.move v1) (R.move v2) (R.move p) = selfPotentialTriangle v0 v1 v2 p := by
  have h0 : R.sign * R.lin 0 = 0 := by
    have : R.lin 0 = (0 : ℝ) * R.lin 0 := by rw [← R.smul]; congr 1; ext <;> simp
    rw [this]; ext <;> simp
  have h : ∀ v0 v1 v2, selfPotentialTriangleV0 (R.move v0) (R.move v1) (R.move v2) = selfPotentialTriangleV0 v0 v1 v2 := by
    intro v0 v1 v2
    have h := R.normalizeTri_move v0 v1 v2 v0 0
    rw [h0] at h
    unfold selfPotentialTriangleV0
    rw [h]
  unfold selfPotentialTriangle
  rw [h, h, h]

theorem potential3dPoint_move (p q : V3) : potential3dPoint (R.move p) (R.move q) = potential3dPoint p q := by
  unfold potential3dPoint
  rw [move_sub, norm_lin]

theorem fieldDotNormal_eq (p q n : V3) : fieldDotNormal3d p q n = -(V3.dot n (q - p) / (4 * Real.pi * V3.norm (q - p) ^ 3)) := by
  unfold fieldDotNormal3d dx1Potential3dPoint dy1Potential3dPoint dz1Potential3dPoint V3.dot
  simp only [sub_x, sub_y, sub_z]
  ring

theorem fieldDotNormal_move (p q n : V3) : fieldDotNormal3d (R.move p) (R.move q) (R.lin n) = fieldDotNormal3d p q n := by
  rw [fieldDotNormal_eq, fieldDotNormal_eq, move_sub, norm_lin, R.dot]

/-- A vector is determined by its components along the moved directions. -/
theorem eq_of_dots {a b : V3} (h : ∀ n, V3.dot (R.lin n) a = V3.dot (R.lin n) b) : a = b := by
  have k : ∀ n, V3.dot (R.lin n) (a - b) = 0 := by
    intro n
    have := h n
    simp only [V3.dot, sub_x, sub_y, sub_z] at this ⊢
    linarith
  have hx : V3.dot (R.lin ⟨1, 0, 0⟩) (R.lin ⟨1, 0, 0⟩) = 1 := by rw [R.dot]; simp [V3.dot]
  have hz : V3.dot (R.lin ⟨0, 0, 1⟩) (R.lin ⟨0, 0, 1⟩) = 1 := by rw [R.dot]; simp [V3.dot]
  have hxz : V3.dot (R.lin ⟨1, 0, 0⟩) (R.lin ⟨0, 0, 1⟩) = 0 := by rw [R.dot]; simp [V3.dot]
  have he := dot_expand hx hz hxz (a - b) (a - b)
  have hc : ∀ n, V3.dot (a - b) (R.lin n) = 0 := fun n => by rw [dot_comm']; exact k n
  rw [R.cross] at he
  have hs : V3.dot (a - b) (R.sign * R.lin (V3.cross ⟨0, 0, 1⟩ ⟨1, 0, 0⟩)) = 0 := by
    rw [← R.smul]; exact hc _
  rw [hs, hc, hc] at he
  have h0 : a - b = 0 := dot_self_eq_zero.1 (by linarith)
  have e1 := congrArg V3.x h0
  have e2 := congrArg V3.y h0
  have e3 := congrArg V3.z h0
  simp only [sub_x, sub_y, sub_z, zero_x, zero_y, zero_z] at e1 e2 e3
  ext <;> linarith

end Spec.RigidMotion
end Traceon
