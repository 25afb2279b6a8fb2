import Mathlib.Analysis.Real.Sqrt
import Mathlib.Tactic.Ring
import Mathlib.Tactic.Linarith
import Mathlib.Tactic.Positivity
import Mathlib.Tactic.FieldSimp

/-!
# Vectors in space with real coordinates

The numerical theorems are about exact real arithmetic: rounding is not modelled.
-/
namespace Traceon

/-- A point or vector in space. [arrays of length three, e.g. three_d.c:35, mesher.py:146] -/
@[ext] structure V3 where
  x : ℝ
  y : ℝ
  z : ℝ

namespace V3

/-- component by component: numpy arithmetic (e.g. geometry.py:213), written out in C (e.g. three_d_point.c:3-21) -/
instance : Add V3 := ⟨fun a b => ⟨a.x + b.x, a.y + b.y, a.z + b.z⟩⟩
/-- component by component: numpy arithmetic (e.g. geometry.py:213), written out in C (e.g. three_d_point.c:3-21) -/
instance : Sub V3 := ⟨fun a b => ⟨a.x - b.x, a.y - b.y, a.z - b.z⟩⟩
/-- component by component: numpy arithmetic (e.g. geometry.py:213), written out in C (e.g. three_d_point.c:3-21) -/
instance : Neg V3 := ⟨fun a => ⟨-a.x, -a.y, -a.z⟩⟩
/-- component by component: numpy arithmetic (e.g. geometry.py:213), written out in C (e.g. three_d_point.c:3-21) -/
instance : Zero V3 := ⟨⟨0, 0, 0⟩⟩
/-- component by component: numpy arithmetic (e.g. geometry.py:213), written out in C (e.g. three_d_point.c:3-21) -/
instance : HMul ℝ V3 V3 := ⟨fun k a => ⟨k * a.x, k * a.y, k * a.z⟩⟩

@[simp] theorem add_x (a b : V3) : (a + b).x = a.x + b.x := rfl
@[simp] theorem add_y (a b : V3) : (a + b).y = a.y + b.y := rfl
@[simp] theorem add_z (a b : V3) : (a + b).z = a.z + b.z := rfl
@[simp] theorem sub_x (a b : V3) : (a - b).x = a.x - b.x := rfl
@[simp] theorem sub_y (a b : V3) : (a - b).y = a.y - b.y := rfl
@[simp] theorem sub_z (a b : V3) : (a - b).z = a.z - b.z := rfl
@[simp] theorem neg_x (a : V3) : (-a).x = -a.x := rfl
@[simp] theorem neg_y (a : V3) : (-a).y = -a.y := rfl
@[simp] theorem neg_z (a : V3) : (-a).z = -a.z := rfl
@[simp] theorem zero_x : (0 : V3).x = 0 := rfl
@[simp] theorem zero_y : (0 : V3).y = 0 := rfl
@[simp] theorem zero_z : (0 : V3).z = 0 := rfl
@[simp] theorem smul_x (k : ℝ) (a : V3) : (k * a).x = k * a.x := rfl
@[simp] theorem smul_y (k : ℝ) (a : V3) : (k * a).y = k * a.y := rfl
@[simp] theorem smul_z (k : ℝ) (a : V3) : (k * a).z = k * a.z := rfl

/-- `dot_3d`, backend/utilities_3d.c -/
def dot (a b : V3) : ℝ := a.x * b.x + a.y * b.y + a.z * b.z

/-- `cross_product_3d`, backend/utilities_3d.c -/
def cross (a b : V3) : V3 :=
  ⟨a.y * b.z - a.z * b.y, a.z * b.x - a.x * b.z, a.x * b.y - a.y * b.x⟩

/-- Euclidean length (`norm_3d`). [utilities_3d.c:65-68] -/
noncomputable def norm (a : V3) : ℝ := Real.sqrt (dot a a)

/-- `normalize_3d`. For the zero vector the code computes NaNs, here the result is the zero vector;
see the uses. [utilities_3d.c:75-82] -/
noncomputable def unit (a : V3) : V3 := (1 / norm a) * a

theorem dot_self_nonneg (a : V3) : 0 ≤ dot a a := by
  unfold dot; nlinarith [sq_nonneg a.x, sq_nonneg a.y, sq_nonneg a.z]

theorem dot_self_eq_zero {a : V3} : dot a a = 0 ↔ a = 0 := by
  constructor
  · intro h
    unfold dot at h
    have h1 := mul_self_nonneg a.x
    have h2 := mul_self_nonneg a.y
    have h3 := mul_self_nonneg a.z
    ext
    · exact mul_self_eq_zero.1 (by linarith)
    · exact mul_self_eq_zero.1 (by linarith)
    · exact mul_self_eq_zero.1 (by linarith)
  · rintro rfl; simp [dot]

theorem dot_self_pos {a : V3} (h : a ≠ 0) : 0 < dot a a :=
  lt_of_le_of_ne (dot_self_nonneg a) (fun h' => h (dot_self_eq_zero.1 h'.symm))

theorem norm_pos {a : V3} (h : a ≠ 0) : 0 < norm a := Real.sqrt_pos.2 (dot_self_pos h)

theorem norm_sq (a : V3) : norm a * norm a = dot a a := Real.mul_self_sqrt (dot_self_nonneg a)

theorem dot_unit_self {a : V3} (h : a ≠ 0) : dot (unit a) (unit a) = 1 := by
  have h1 := (norm_pos h).ne'
  have h2 := norm_sq a
  have h3 : dot (unit a) (unit a) = dot a a / (norm a * norm a) := by
    unfold unit dot; simp only [smul_x, smul_y, smul_z]; field_simp
  rw [h3, ← h2]; field_simp

theorem sub_eq_zero {a b : V3} : a - b = 0 ↔ a = b := by
  constructor
  · intro h
    have hx := congrArg V3.x h
    have hy := congrArg V3.y h
    have hz := congrArg V3.z h
    simp at hx hy hz
    ext <;> linarith
  · rintro rfl; ext <;> simp

end V3
end Traceon
