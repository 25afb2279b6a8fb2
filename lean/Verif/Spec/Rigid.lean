import Verif.Model.SolveField
import Verif.Spec.Excitation

/-!
# Moving a problem in space
-/
namespace Traceon.Spec
open Excitation

/-- A rotation (`sign = 1`) or a rotation with a reflection (`sign = -1`), followed by a translation. -/
structure RigidMotion where
  lin : V3 → V3
  shift : V3
  sign : ℝ
  add : ∀ a b, lin (a + b) = lin a + lin b
  smul : ∀ (k : ℝ) a, lin (k * a) = k * lin a
  dot : ∀ a b, V3.dot (lin a) (lin b) = V3.dot a b
  cross : ∀ a b, V3.cross (lin a) (lin b) = sign * lin (V3.cross a b)
  sign_eq : sign = 1 ∨ sign = -1

/-- Where a point goes. -/
def RigidMotion.move (R : RigidMotion) (p : V3) : V3 := R.lin p + R.shift

/-- Where a triangle goes. -/
def RigidMotion.tri (R : RigidMotion) (t : Tri3) : Tri3 := ⟨R.move t.v0, R.move t.v1, R.move t.v2⟩

/-- The same number, or the same function at the moved points. -/
def SameValue (R : RigidMotion) : ExcVal ℝ V3 → ExcVal ℝ V3 → Prop
  | .num v, .num v' => v' = v
  | .fn f, .fn f' => ∀ p, f' (R.move p) = f p
  | .other, .other => True
  | _, _ => False

/-- The three dimensional problem `x'` is the problem `x` moved by `R`. Triangles can be numbered and named differently: triangle `i` of `x` is triangle `σ i` of `x'`.
Only triangles with an excitation of kind `s` matter. -/
structure SameProblem (R : RigidMotion) (σ : Nat → Nat) (x x' : Excitation ℝ V3) (s : Statics) : Prop where
  into : ∀ i, i < x.mesh.triangles.length → Excited x s i → σ i < x'.mesh.triangles.length ∧ Excited x' s (σ i)
  inj : ∀ i j, i < x.mesh.triangles.length → Excited x s i → j < x.mesh.triangles.length → Excited x s j → σ i = σ j → i = j
  onto : ∀ j, j < x'.mesh.triangles.length → Excited x' s j → ∃ i, i < x.mesh.triangles.length ∧ Excited x s i ∧ σ i = j
  corners : ∀ i t, i < x.mesh.triangles.length → Excited x s i → (x.mesh.triangles[i]?).bind (triVerts x.mesh.points) = some t →
    (x'.mesh.triangles[σ i]?).bind (triVerts x'.mesh.points) = some (R.tri t)
  excitation : ∀ i n n' tv tv', Decides x s n i → x.types.get n = some tv → Decides x' s n' (σ i) → x'.types.get n' = some tv' →
    tv'.1 = tv.1 ∧ SameValue R tv.2 tv'.2

/-- A number stays the same, a function of the position moves along; `inv` is the inverse motion. -/
def moveValue (inv : V3 → V3) : ExcVal ℝ V3 → ExcVal ℝ V3
  | .num v => .num v
  | .fn f => .fn fun p => f (inv p)
  | .other => .other

/-- The problem `x` with all points moved, `inv` is the inverse motion. Functions of the position move along. -/
def RigidMotion.excitation (R : RigidMotion) (inv : V3 → V3) (x : Excitation ℝ V3) : Excitation ℝ V3 :=
  { x with
    mesh := { x.mesh with points := x.mesh.points.map R.move }
    types := x.types.map fun nt => (nt.1, nt.2.1, moveValue inv nt.2.2) }

/-- Dielectrics and magnetizable materials, for which the direction of the normal matters. -/
def NoInterfaces (x : Excitation ℝ V3) : Prop := ∀ n tv, x.types.get n = some tv → tv.1 ≠ .dielectric ∧ tv.1 ≠ .magnetizable

end Traceon.Spec
