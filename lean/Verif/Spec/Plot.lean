import Verif.Model.Plotting
import Verif.Spec.Shape
import Verif.Spec.Matrix3D
import Verif.Spec.Excitation

/-!
# What figures show
-/
namespace Traceon.Spec
open Plotting

/-- All triangles among some shapes, with their colour. -/
def paintedTriangles : List Shape → List (Tri3 × String)
  | [] => []
  | .triangles ts c _ :: ss => ts.map (fun t => (t, c)) ++ paintedTriangles ss
  | _ :: ss => paintedTriangles ss

/-- All lines among some shapes, with their colour. -/
def paintedLines : List Shape → List ((V3 × V3) × String)
  | [] => []
  | .lines ls c _ :: ss => ls.map (fun l => (l, c)) ++ paintedLines ss
  | _ :: ss => paintedLines ss

/-- All arrows among some shapes. -/
def arrowsIn : List Shape → List (V3 × V3)
  | [] => []
  | .arrows as :: ss => as ++ arrowsIn ss
  | _ :: ss => arrowsIn ss

/-- The name in the legend and the colour of a shape. -/
def legendEntry : Shape → Option (String × String)
  | .triangles _ c (some n) => some (n, c)
  | .lines _ c (some n) => some (n, c)
  | _ => none

/-- The order in which a set is iterated over: every element once, in any order. -/
def IsSetOrder (order : List String → List String) : Prop := ∀ l, (order l).Nodup ∧ ∀ c, c ∈ order l ↔ c ∈ l

/-- The point number `p` of the mesh is a point of some element (line or triangle) of the group `n`. -/
def PointInGroup (m : Mesh V3) (n : String) (p : Nat) : Prop :=
  (∃ g, (n, g) ∈ m.physLines ∧ ∃ i ∈ g, ∃ e, m.lines[i]? = some e ∧ p ∈ e) ∨ (∃ g, (n, g) ∈ m.physTris ∧ ∃ i ∈ g, ∃ e, m.triangles[i]? = some e ∧ p ∈ e)

/-- The colour `c` of an element with corners `e`: `default`, or a given colour (`cut` is what becomes of it). -/
structure ColourSpec (m : Mesh V3) (colours : Dict String) (default : String) (cut : String → String) (e : List Nat) (c : String) : Prop where
  /-- if all corners are in the group `n` and in no other group, it is the colour given for `n` -/
  own : ∀ n col, (∀ p ∈ e, ∀ n', PointInGroup m n' p ↔ n' = n) → colours.get n = some col → c = cut col
  /-- if some corner is in no group, it is the default -/
  free : (∃ p ∈ e, ∀ n, ¬PointInGroup m n p) → c = cut default
  /-- in any case, it is the default or a colour given for a group that all corners are in -/
  other : c = cut default ∨ ∃ n col, colours.get n = some col ∧ c = cut col ∧ ∀ p ∈ e, PointInGroup m n p

/-- The line number `i` of a mesh is drawn from its first to its second point. -/
def LineShown (m : Mesh V3) (i : Nat) (l : V3 × V3) : Prop := ∃ e a b, m.lines[i]? = some e ∧ e[0]? = some a ∧ e[1]? = some b ∧ m.points[a]? = some l.1 ∧ m.points[b]? = some l.2

/-- The triangle number `i` of a mesh is drawn with its three corners. -/
def TriangleShown (m : Mesh V3) (i : Nat) (t : Tri3) : Prop := ∃ a b c, m.triangles[i]? = some [a, b, c] ∧ m.points[a]? = some t.v0 ∧ m.points[b]? = some t.v1 ∧ m.points[c]? = some t.v2

/-- The arrow `a` (from `a.1` to `a.2`) is the normal of the triangle `t`: it starts in the middle of `t`, is perpendicular to `t`, on the side from which the corners are seen counterclockwise, and its length is
three quarters of the side `s` of an equilateral triangle of the same area. -/
structure IsTriangleNormal (t : Tri3) (a : V3 × V3) : Prop where
  start : a.1 = centroid t
  perp : V3.dot (a.2 - a.1) (t.v1 - t.v0) = 0 ∧ V3.dot (a.2 - a.1) (t.v2 - t.v0) = 0
  side : 0 < V3.dot (a.2 - a.1) (V3.cross (t.v1 - t.v0) (t.v2 - t.v0))
  length : ∃ s : ℝ, 0 ≤ s ∧ Real.sqrt 3 / 4 * s ^ 2 = V3.norm (V3.cross (t.v1 - t.v0) (t.v2 - t.v0)) / 2 ∧ V3.norm (a.2 - a.1) = 3 / 4 * s

/-- The arrow `a` is the normal of the line `l`: it starts in the middle of `l`, is perpendicular to it and to the y-axis, on the right side of `l` (seen against the y-axis), and has three times its length. -/
structure IsLineNormal (l a : V3 × V3) : Prop where
  start : a.1 + a.1 = l.1 + l.2
  perp : V3.dot (a.2 - a.1) (l.2 - l.1) = 0 ∧ (a.2 - a.1).y = 0
  side : 0 < (a.2 - a.1).x * (l.2.z - l.1.z) - (a.2 - a.1).z * (l.2.x - l.1.x)
  length : V3.norm (a.2 - a.1) = 3 * V3.norm (l.2 - l.1)

/-- The point `p` is within the limits that are given. -/
structure WithinLimits (b : Limits) (p : V3) : Prop where
  x : (∀ v, b.xmin = some v → v ≤ p.x) ∧ ∀ v, b.xmax = some v → p.x ≤ v
  y : (∀ v, b.ymin = some v → v ≤ p.y) ∧ ∀ v, b.ymax = some v → p.y ≤ v
  z : (∀ v, b.zmin = some v → v ≤ p.z) ∧ ∀ v, b.zmax = some v → p.z ≤ v

open Classical in
/-- The points of a trajectory that are within the limits, in order. -/
noncomputable def visiblePart (b : Limits) (t : List V3) : List V3 := t.filter fun p => WithinLimits b p

/-- The lines joining each point of a list to the next. -/
def joined (t : List V3) : List (V3 × V3) := t.zip t.tail

open Classical in
/-- The groups of elements (lines for radial symmetry, triangles in 3D) with an excitation of the given kind, in the order of the mesh. -/
noncomputable def excitedGroups (x : Excitation ℝ V3) (s : Excitation.Statics) : List (String × List Nat) := x.physicals.filter fun ni => HasKind x s ni.1

/-- The charge `q` of the element number `i`: the charges are given for the excited elements in order. -/
def ChargeOf (x : Excitation ℝ V3) (s : Excitation.Statics) (charges : List ℝ) (i : Nat) (q : ℝ) : Prop :=
  ∃ idx : List Nat, idx.Pairwise (· < ·) ∧ (∀ i, i ∈ idx ↔ i < x.elements.length ∧ Excited x s i) ∧ ∃ r : Nat, idx[r]? = some i ∧ charges[r]? = some q

/-- `lo` is the least and `hi` the greatest of some numbers. -/
structure IsRange (qs : List ℝ) (lo hi : ℝ) : Prop where
  mem : lo ∈ qs ∧ hi ∈ qs
  bound : ∀ q ∈ qs, lo ≤ q ∧ q ≤ hi

/-- The figure `f` after the given calls have been made on it; a call that raises changes nothing. -/
noncomputable def drawn (order : List String → List String) (f : Figure) (cs : List Cmd) : Figure := cs.foldl (fun f c => (f.run order c).getD f) f

/-- A figure as the user writes it: `new_figure(b)` followed by calls that draw. -/
def figureCalls (bc : Bool × List Cmd) : List Call := .newFigure bc.1 :: bc.2.map .plot

/-- All that the command `c` draws is two-dimensional (the meshes, that is; other things may be drawn in both). -/
def Cmd2d : Cmd → Prop
  | .mesh m _ _ => m.is2d realThirds = true
  | .chargeDensity x _ _ _ => x.mesh.is2d realThirds = true
  | _ => True

end Traceon.Spec
