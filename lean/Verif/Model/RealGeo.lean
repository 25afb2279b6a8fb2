import Verif.Model.Mesh
import Verif.Model.Vec

/-!
# The geometric decisions of the mesh code, in exact real arithmetic
-/
namespace Traceon
open V3

/-- `points[i]` for an index known to be in range. [mesher.py:676-703] -/
def rpt (pts : List V3) (i : Nat) : V3 := (pts[i]?).getD 0

/-- backend/utilities_3d.c:104-118 `normal_3d` (NaN for a degenerate triangle, here 0; in both
cases the later tests `dot > 0` are false). -/
noncomputable def normal3d (v0 v1 v2 : V3) : V3 := unit (cross (v1 - v0) (v2 - v0))

/-- triangle.c:222-230: the last pair of positions with a common vertex. -/
def commonIndex (t1 t2 : Elem) : Option (Nat × Nat) :=
  (([(0, 0), (0, 1), (0, 2), (1, 0), (1, 1), (1, 2), (2, 0), (2, 1), (2, 2)] : List (Nat × Nat)).filter
    (fun p => t1[p.1]? == t2[p.2]?)).getLast?

/-- triangle.c:240-253: the other two vertices of a triangle, in order. -/
def otherVertices (t : Elem) (i : Nat) : List Nat := t.eraseIdx i

open Classical in
/-- triangle.c:259-266: the last pair of edges (one of each triangle) with the same direction; only
the first edge of the pair is kept. A zero edge gives NaN in the code and is never equal to
another one; here its unit vector is 0 and the dot product 0, with the same outcome. -/
noncomputable def commonEdge (es fs : List V3) : Option V3 :=
  ((es.flatMap (fun e => fs.map (fun f => (e, f)))).filter
    (fun p => decide (|dot p.1 p.2 - 1| < 1e-14))).getLast?.map (·.1)

open Classical in
/-- backend/triangle.c:185-278 `triangle_orientation_is_equal`. -/
noncomputable def triOrientationEqual (pts : List V3) (t1 t2 : Elem) : Option Bool :=
  match t1, t2 with
  | [a0, a1, a2], [b0, b1, b2] =>
    let P := rpt pts
    let mid1 := (1/3 : ℝ) * (P a0 + P a1 + P a2)
    let mid2 := (1/3 : ℝ) * (P b0 + P b1 + P b2)
    let normal1 := normal3d (P a0) (P a1) (P a2)
    let normal2 := normal3d (P b0) (P b1) (P b2)
    match commonIndex t1 t2 with
    | none => none
    | some (i, j) =>
      let c := P (t1.getD i 0)
      let es := (otherVertices t1 i).map (fun v => unit (P v - c))
      let fs := (otherVertices t2 j).map (fun v => unit (P v - c))
      match commonEdge es fs with
      | none => none
      | some e =>
        let dot1 := dot (cross (mid1 - c) e) normal1
        let dot2 := dot (cross e (mid2 - c)) normal2
        some (decide (dot1 > 0) == decide (dot2 > 0))
  | _, _ => none

/-- mesher.py:676-690, one term of the sum: `mid_x * normal_x * double_area/2`. -/
noncomputable def triFluxTerm (pts : List V3) (t : Elem) : ℝ :=
  let v0 := rpt pts (t.getD 0 0); let v1 := rpt pts (t.getD 1 0); let v2 := rpt pts (t.getD 2 0)
  let n := cross (v1 - v0) (v2 - v0)
  (v0.x + v1.x + v2.x) / 3 * (n.x / norm n) * norm n / 2

/-- mesher.py:676-690, the sum. -/
noncomputable def triFlux (pts : List V3) (tris : List Elem) : ℝ := (tris.map (triFluxTerm pts)).sum

open Classical in
/-- mesher.py:676-690. A degenerate triangle gives NaN, for which `> 0` is false. -/
noncomputable def realTriOutward (pts : List V3) (tris : List Elem) : Bool :=
  decide ((∀ t ∈ tris, cross (rpt pts (t.getD 1 0) - rpt pts (t.getD 0 0))
    (rpt pts (t.getD 2 0) - rpt pts (t.getD 0 0)) ≠ 0) ∧ triFlux pts tris > 0)

/-- mesher.py:692-700 and utilities_2d.c:19-29, one term of the sum:
`mid_x * normal_x * length` with `normal = normal_2d` of the (x, z) coordinates. -/
noncomputable def lineFluxTerm (pts : List V3) (l : Elem) : ℝ :=
  let v0 := rpt pts (l.getD 0 0); let v1 := rpt pts (l.getD 1 0)
  let tx := v1.x - v0.x; let ty := v1.z - v0.z
  let nx := ty / Real.sqrt (ty * ty + (-tx) * (-tx))
  (v0.x + v1.x) / 2 * nx * norm (v1 - v0)

/-- mesher.py:692-700, the sum. -/
noncomputable def lineFlux (pts : List V3) (lines : List Elem) : ℝ := (lines.map (lineFluxTerm pts)).sum

open Classical in
/-- mesher.py:692-700. A line with equal (x, z) coordinates gives NaN, for which `> 0` is false. -/
noncomputable def realLineOutward (pts : List V3) (lines : List Elem) : Bool :=
  decide ((∀ l ∈ lines, ¬ ((rpt pts (l.getD 0 0)).x = (rpt pts (l.getD 1 0)).x ∧
    (rpt pts (l.getD 0 0)).z = (rpt pts (l.getD 1 0)).z)) ∧ lineFlux pts lines > 0)

open Classical in
/-- Lexicographic order, z first (mesher.py:237). -/
noncomputable def V3.lexLe (a b : V3) : Bool :=
  decide (a.z < b.z ∨ (a.z = b.z ∧ (a.y < b.y ∨ (a.y = b.y ∧ a.x ≤ b.x))))

open Classical in
/-- The geometry in exact real arithmetic. Clearing low bits is an arbitrary function here;
the area test is utilities_3d.c `triangle_areas` with the threshold of mesher.py:214. -/
noncomputable def realGeo (trunc : V3 → V3) : Geo V3 where
  trunc := trunc
  le := V3.lexLe
  eq a b := decide (a = b)
  degenerate p q r := decide (norm (cross (q - p) (r - p)) / 2 < 1e-12)
  triEqual := triOrientationEqual
  triOutward := realTriOutward
  lineOutward := realLineOutward

end Traceon
