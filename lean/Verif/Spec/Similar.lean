import Verif.Model.SolveField
import Verif.Spec.Excitation
import Verif.Spec.MatrixRadial
import Verif.Spec.Shape

/-!
# Moving a radially symmetric problem along its axis, and changing the unit of length
-/
namespace Traceon.Spec
open Excitation

/-- Lengths are multiplied with `scale`, then everything is reflected in the plane `z = 0` if `dir = -1`, and moved by `shift` along the axis. -/
structure Similarity where
  scale : ℝ
  shift : ℝ
  pos : 0 < scale
  dir : ℝ := 1
  dir_eq : dir = 1 ∨ dir = -1 := by exact Or.inl rfl

/-- Where a point goes. -/
def Similarity.move (S : Similarity) (p : V3) : V3 := ⟨S.scale * p.x, S.scale * p.y, S.scale * (S.dir * p.z) + S.shift⟩

/-- Where a line goes. -/
def Similarity.line (S : Similarity) (l : Line4) : Line4 := ⟨S.move l.l0, S.move l.l1, S.move l.l2, S.move l.l3⟩

/-- Where a triangle goes. -/
def Similarity.tri (S : Similarity) (t : Tri3) : Tri3 := ⟨S.move t.v0, S.move t.v1, S.move t.v2⟩

/-- What becomes of a vector (a gradient): it is reflected, and divided by the scale. -/
noncomputable def Similarity.vec (S : Similarity) (v : V3) : V3 := ⟨v.x / S.scale, v.y / S.scale, S.dir * v.z / S.scale⟩

/-- The same line in the other direction. -/
def _root_.Traceon.Line4.turned (l : Line4) : Line4 := ⟨l.l1, l.l0, l.l3, l.l2⟩

/-- Where a line with a normal goes. The normal of a line is on one side of its direction: the reflected line has to be turned for its normal to be the reflected normal. -/
def Similarity.side (S : Similarity) (l : Line4) (l' : Line4) : Prop := S.dir = 1 ∧ l' = S.line l ∨ S.dir = -1 ∧ l' = (S.line l).turned

/-- A distance `r` from the axis is treated as zero (by the routines that compute fields) either before and after, or not at all. This always holds if the unit of length is not changed. -/
def Similarity.KeepsAxis (S : Similarity) (r : ℝ) : Prop := (S.scale * r < 1e-10 ↔ r < 1e-10) ∧ (S.scale * |r| < 1e-10 ↔ |r| < 1e-10)

/-- The same number, or the same function at the moved points. -/
def SameValueAt (move : V3 → V3) : ExcVal ℝ V3 → ExcVal ℝ V3 → Prop
  | .num v, .num v' => v' = v
  | .fn f, .fn f' => ∀ p, f' (move p) = f p
  | .other, .other => True
  | _, _ => False

/-- The four points of line number `i` of a mesh. -/
def lineAt (m : Mesh V3) (i : Nat) : Option Line4 := (m.lines[i]?).bind fun e => toLine4 (coords m.points e)

/-- The radially symmetric problem `x'` is the problem `x` moved by `S`. Lines can be numbered, named and directed differently: line `i` of `x` is line `σ i` of `x'`. Only lines with an excitation
of kind `s` matter. The direction of a line with a dielectric or magnetizable material (which tells the side of its normal) has to be the same, or the opposite for a reflection, and the centre of such a line must not get so close to the axis that it is
taken to be on the axis. -/
structure SameRadial (S : Similarity) (σ : Nat → Nat) (x x' : Excitation ℝ V3) (s : Statics) : Prop where
  into : ∀ i, i < x.mesh.lines.length → Excited x s i → σ i < x'.mesh.lines.length ∧ Excited x' s (σ i)
  inj : ∀ i j, i < x.mesh.lines.length → Excited x s i → j < x.mesh.lines.length → Excited x s j → σ i = σ j → i = j
  onto : ∀ j, j < x'.mesh.lines.length → Excited x' s j → ∃ i, i < x.mesh.lines.length ∧ Excited x s i ∧ σ i = j
  points : ∀ i l, i < x.mesh.lines.length → Excited x s i → lineAt x.mesh i = some l → lineAt x'.mesh (σ i) = some (S.line l) ∨ lineAt x'.mesh (σ i) = some ((S.line l).turned)
  materials : ∀ i n tv l, Decides x s n i → x.types.get n = some tv → tv.1 = .dielectric ∨ tv.1 = .magnetizable → lineAt x.mesh i = some l →
    (∃ l', lineAt x'.mesh (σ i) = some l' ∧ S.side l l') ∧ S.KeepsAxis (elemPoint l 0).x
  excitation : ∀ i n n' tv tv', Decides x s n i → x.types.get n = some tv → Decides x' s n' (σ i) → x'.types.get n' = some tv' →
    tv'.1 = tv.1 ∧ SameValueAt S.move tv.2 tv'.2

/-- A reflection changes the sign of the currents. (The magnetic field of a coil is reflected like an axial vector, that of magnetized material like a polar vector; with this sign the sum is
a polar vector.) -/
def Similarity.current (S : Similarity) : ExcVal ℝ V3 → ExcVal ℝ V3
  | .num v => .num (S.dir * v)
  | .fn f => .fn f
  | .other => .other

/-- The coils of `x'` are those of `x`, moved by `S`: the triangles are the moved triangles, the groups of triangles are the same and so are the currents (up to the sign in case of a
reflection), and no coil gets too close to the axis. -/
structure SameCoils (S : Similarity) (x x' : Excitation ℝ V3) : Prop where
  triangles : ∀ i : Nat, (x'.mesh.triangles[i]?).bind (triVerts x'.mesh.points) = ((x.mesh.triangles[i]?).bind (triVerts x.mesh.points)).map S.tri
  number : x'.mesh.triangles.length = x.mesh.triangles.length
  groups : x'.mesh.physTris = x.mesh.physTris
  currents : x'.types.filter (fun nt => nt.2.1 = .current) = (x.types.filter (fun nt => nt.2.1 = .current)).map fun nt => (nt.1, nt.2.1, S.current nt.2.2)
  axis : ∀ (i : Nat) t, (x.mesh.triangles[i]?).bind (triVerts x.mesh.points) = some t → ∀ q ∈ posRow t, S.KeepsAxis q.x

/-- A number stays the same, a function of the position moves along; `inv` is the inverse motion. -/
def Similarity.value (inv : V3 → V3) : ExcVal ℝ V3 → ExcVal ℝ V3
  | .num v => .num v
  | .fn f => .fn fun p => f (inv p)
  | .other => .other

/-- The inverse motion. -/
noncomputable def Similarity.back (S : Similarity) (p : V3) : V3 := ⟨p.x / S.scale, p.y / S.scale, S.dir * ((p.z - S.shift) / S.scale)⟩

/-- The problem `x` with all points moved by `S`. Functions of the position move along. For a reflection all lines are turned and the currents change their sign. -/
noncomputable def Similarity.excitation (S : Similarity) (x : Excitation ℝ V3) : Excitation ℝ V3 :=
  { x with
    mesh := { x.mesh with
      points := x.mesh.points.map S.move
      lines := if S.dir = 1 then x.mesh.lines else x.mesh.lines.map revLine }
    types := x.types.map fun nt => (nt.1, nt.2.1, if nt.2.1 = .current then S.current nt.2.2 else Similarity.value S.back nt.2.2) }

end Traceon.Spec
