import Verif.Model.Mesh

/-!
# Exact geometry on integer coordinates

Used for concrete witnesses (counter examples and non-vacuity examples) that can be evaluated by
the kernel.  All quantities are multiplied by a positive constant to avoid fractions.  Small
integers are represented exactly by doubles, and clearing their low 16 mantissa bits does not
change them (|n| < 2^36).
-/
namespace Traceon

/-- A point with integer coordinates. [a row of `points`, mesher.py:146-190] -/
structure IPoint where
  x : Int
  y : Int
  z : Int
deriving DecidableEq, Repr

namespace IPoint
/-- `a - b` of numpy, mesher.py:676-703 -/
def sub (a b : IPoint) : IPoint := ⟨a.x - b.x, a.y - b.y, a.z - b.z⟩
/-- utilities_3d.c:84-92 `cross_product_3d` -/
def cross (a b : IPoint) : IPoint :=
  ⟨a.y * b.z - a.z * b.y, a.z * b.x - a.x * b.z, a.x * b.y - a.y * b.x⟩
/-- utilities_3d.c:60-63 `dot_3d` -/
def dot (a b : IPoint) : Int := a.x * b.x + a.y * b.y + a.z * b.z
/-- lexicographic order, z first (mesher.py:237) -/
def le (a b : IPoint) : Bool :=
  a.z < b.z || (a.z == b.z && (a.y < b.y || (a.y == b.y && a.x ≤ b.x)))
end IPoint

/-- `points[i]` for an index known to be in range [mesher.py:676-703] -/
def ipt (pts : List IPoint) (i : Nat) : IPoint := (pts[i]?).getD ⟨0, 0, 0⟩

/-- mesher.py:676-690 times 6: `sum mid_x * normal_x * double_area/2 > 0`;
a degenerate triangle gives NaN, for which the comparison is false. -/
def intTriOutward (pts : List IPoint) (tris : List Elem) : Bool :=
  let ns := tris.map (fun t =>
    let v0 := ipt pts (t.getD 0 0); let v1 := ipt pts (t.getD 1 0); let v2 := ipt pts (t.getD 2 0)
    let n := (v1.sub v0).cross (v2.sub v0)
    (n.dot n, (v0.x + v1.x + v2.x) * n.x))
  ns.all (fun p => p.1 != 0) && decide ((ns.map (·.2)).sum > 0)

/-- mesher.py:692-700 and utilities_2d.c:19-29 times 2, for lines in a plane y = const (then the
two lengths cancel): `sum mid_x * (z1 - z0) > 0`; a zero length line gives NaN, hence false. -/
def intLineOutward (pts : List IPoint) (lines : List Elem) : Bool :=
  let ns := lines.map (fun t =>
    let v0 := ipt pts (t.getD 0 0); let v1 := ipt pts (t.getD 1 0)
    (decide (v0.x ≠ v1.x ∨ v0.z ≠ v1.z), (v0.x + v1.x) * (v1.z - v0.z)))
  ns.all (·.1) && decide ((ns.map (·.2)).sum > 0)

/-- The combinatorial content of backend/triangle.c:185-278 for triangles in general position:
common edge traversed in opposite directions = equal orientation (see C09). -/
def edgeTest (t n : Elem) : Option Bool :=
  let edges := fun (e : Elem) => match e with
    | [a, b, c] => [(a, b), (b, c), (c, a)]
    | _ => []
  let et := edges t
  let en := edges n
  if et.any (fun p => en.contains p) then some false
  else if et.any (fun p => en.contains (p.2, p.1)) then some true
  else none

/-- Exact integer geometry. [mesher.py:212-258, 676-703] -/
def intGeo : Geo IPoint where
  trunc p := p
  le := IPoint.le
  eq a b := a == b
  degenerate p q r := ((q.sub p).cross (r.sub p)) == ⟨0, 0, 0⟩
  triEqual _ := edgeTest
  triOutward := intTriOutward
  lineOutward := intLineOutward

end Traceon
