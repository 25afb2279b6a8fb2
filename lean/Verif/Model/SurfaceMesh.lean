import Verif.Model.Mesh

/-!
# Model of the surface mesher, mesher.py:820-1073

The mesher is modelled over an abstract type `P` of points, with the two things it asks of the geometry as
parameters: `pt depth i j`, the point `index_to_point(depth, i, j)` of a section (`none` if the surface function
raises), and `split`, the decision of `_subdivide_quads` from the four corners.  `Verif/Model/SurfaceMeshReal.lean`
instantiates both with real numbers.
-/
namespace Traceon
namespace SMesh

/-- the tuple `(depth, i0, i1, j0, j1)` of the mesher [mesher.py:820-880, 972-1009] -/
structure Quad where
  depth : Nat
  i0 : Nat
  i1 : Nat
  j0 : Nat
  j1 : Nat
deriving DecidableEq, Repr

/-- an index map: `none` is the value -1. The size (2^depth+1)² is not stored: `toPointIndex` checks bounds. [`indices`, mesher.py:883-920] -/
abbrev IndexMap := Nat → Nat → Option Nat

/-- the mutable part of a `PointStack` (mesher.py:883-892): the index maps, and the list of points (which is
shared by all the sections) -/
structure PState (P : Type) where
  levels : List IndexMap
  points : List P

/-- mesher.py:914-921, `index_map[::2, ::2] = self.indices[-1]` -/
def refineMap (m : IndexMap) : IndexMap := fun i j => if i % 2 = 0 ∧ j % 2 = 0 then m (i / 2) (j / 2) else none

/-- mesher.py:911-924 `add_level` -/
def addLevel (ls : List IndexMap) : List IndexMap :=
  ls ++ [ls.getLast?.elim (fun _ _ => none) refineMap]

/-- `while depth >= len(self.indices): self.add_level()` (mesher.py:930-931 and 948-949), `n` is the number of
missing levels. -/
def addLevels : Nat → List IndexMap → List IndexMap
  | 0, ls => ls
  | n + 1, ls => addLevels n (addLevel ls)

/-- `map_[i, j] = k` [mesher.py:932] -/
def setMap (m : IndexMap) (i j k : Nat) : IndexMap := fun a b => if a = i ∧ b = j then some k else m a b

/-- mesher.py:926-939 `to_point_index`. The assertion admits `i = 2**depth + 1`, for which the indexing raises. -/
def toPointIndex {P : Type} (pt : Nat → Nat → Nat → Option P) (st : PState P) (d i j : Nat) :
    Option (Nat × PState P) :=
  if i ≤ 2 ^ d ∧ j ≤ 2 ^ d then
    let ls := addLevels (d + 1 - st.levels.length) st.levels
    (ls[d]?).bind (fun m =>
      (m i j).elim
        ((pt d i j).map (fun p =>
          (st.points.length, { levels := ls.set d (setMap m i j st.points.length), points := st.points ++ [p] })))
        (fun k => some (k, { st with levels := ls })))
  else none

/-- mesher.py:941-943 `pstack[depth, i, j]` -/
def getPoint {P : Type} (pt : Nat → Nat → Nat → Option P) (st : PState P) (d i j : Nat) : Option (P × PState P) :=
  (toPointIndex pt st d i j).bind (fun r => (r.2.points[r.1]?).map (fun p => (p, r.2)))

/-- mesher.py:996-1009: what replaces a quad, in the order of the `append` calls; empty if it is not split -/
def children (q : Quad) (h v : Bool) : List Quad :=
  if h && v then
    [⟨q.depth + 1, 2 * q.i0, 2 * q.i0 + 1, 2 * q.j0, 2 * q.j0 + 1⟩,
     ⟨q.depth + 1, 2 * q.i0, 2 * q.i0 + 1, 2 * q.j0 + 1, 2 * q.j0 + 2⟩,
     ⟨q.depth + 1, 2 * q.i0 + 1, 2 * q.i0 + 2, 2 * q.j0, 2 * q.j0 + 1⟩,
     ⟨q.depth + 1, 2 * q.i0 + 1, 2 * q.i0 + 2, 2 * q.j0 + 1, 2 * q.j0 + 2⟩]
  else if h then
    [⟨q.depth + 1, 2 * q.i0, 2 * q.i1, 2 * q.j0, 2 * q.j0 + 1⟩,
     ⟨q.depth + 1, 2 * q.i0, 2 * q.i1, 2 * q.j0 + 1, 2 * q.j0 + 2⟩]
  else if v then
    [⟨q.depth + 1, 2 * q.i0, 2 * q.i0 + 1, 2 * q.j0, 2 * q.j1⟩,
     ⟨q.depth + 1, 2 * q.i0 + 1, 2 * q.i0 + 2, 2 * q.j0, 2 * q.j1⟩]
  else []

/-- mesher.py:980-988: the four corners, in the order in which they are looked up -/
def corners {P : Type} (pt : Nat → Nat → Nat → Option P) (st : PState P) (q : Quad) :
    Option ((P × P × P × P) × PState P) :=
  (getPoint pt st q.depth q.i0 q.j0).bind (fun r1 =>
  (getPoint pt r1.2 q.depth q.i0 q.j1).bind (fun r2 =>
  (getPoint pt r2.2 q.depth q.i1 q.j0).bind (fun r3 =>
  (getPoint pt r3.2 q.depth q.i1 q.j1).map (fun r4 =>
    ((r1.1, r2.1, r3.1, r4.1), r4.2)))))

/-- mesher.py:972-1009 `_subdivide_quads`. The stack is kept with its top first. The while loop is bounded by
`fuel`; `none` = an exception, or not finished. -/
def subdivide {P : Type} (pt : Nat → Nat → Nat → Option P) (split : P → P → P → P → Bool × Bool) :
    Nat → List Quad → List Quad → PState P → Option (List Quad × PState P)
  | _, [], quads, st => some (quads, st)
  | 0, _ :: _, _, _ => none
  | fuel + 1, q :: stack, quads, st =>
    (corners pt st q).bind (fun r =>
      let hv := split r.1.1 r.1.2.1 r.1.2.2.1 r.1.2.2.2
      if hv.1 || hv.2 then subdivide pt split fuel ((children q hv.1 hv.2).reverse ++ stack) quads r.2
      else subdivide pt split fuel stack (quads ++ [q]) r.2)

/-- the quads of the starting grid, in the order of the loops mesher.py:1020-1021 -/
def startQuads (start : Nat) : List Quad :=
  (List.range (2 ^ start)).flatMap (fun i => (List.range (2 ^ start)).map (fun j => ⟨start, i, i + 1, j, j + 1⟩))

/-- mesher.py:1020-1022: one section -/
def meshSection {P : Type} (pt : Nat → Nat → Nat → Option P) (split : P → P → P → P → Bool × Bool) (fuel start : Nat)
    (points : List P) : Option (List Quad × PState P) :=
  (startQuads start).foldlM (fun r q => subdivide pt split fuel [q] r.1 r.2) ([], ⟨[], points⟩)

/-- mesher.py:1011-1028 `_mesh_subsections_to_quads`: quads and index maps of every section, and the points -/
def meshSections {P : Type} (split : P → P → P → P → Bool × Bool) (fuel start : Nat) :
    List (Nat → Nat → Nat → Option P) → List P → Option (List (List Quad × List IndexMap) × List P)
  | [], points => some ([], points)
  | pt :: pts, points =>
    (meshSection pt split fuel start points).bind (fun r =>
      (meshSections split fuel start pts r.2.points).map (fun s => ((r.1, r.2.levels) :: s.1, s.2)))

/-- mesher.py:954-957: `self.indices[d+1][2*x, 2*y] = previous[x, y]` where `previous != -1` -/
def overlay (prev next : IndexMap) : IndexMap := fun i j =>
  if i % 2 = 0 ∧ j % 2 = 0 then (prev (i / 2) (j / 2)).or (next i j) else next i j

/-- mesher.py:945-957, the index map at the given depth -/
def normalizeMap (depth start : Nat) (ls : List IndexMap) : Option IndexMap :=
  let ls' := addLevels (depth + 1 - ls.length) ls
  if ls'.length = depth + 1 then
    match ls'.drop start with
    | [] => ls'.getLast?
    | m :: rest => some (rest.foldl overlay m)
  else none

/-- mesher.py:962-973 -/
def scaleQuad (depth : Nat) (q : Quad) : Quad :=
  ⟨depth, q.i0 * 2 ^ (depth - q.depth), q.i1 * 2 ^ (depth - q.depth), q.j0 * 2 ^ (depth - q.depth),
    q.j1 * 2 ^ (depth - q.depth)⟩

/-- mesher.py:1030-1036 `_copy_over_edge(m1[-1, :], m2[0, :])` for two index maps of size `n+1`: after the two
assignments both edges hold the entry of the second where it has one, and else that of the first. -/
def joinRows (n : Nat) (m1 m2 : IndexMap) : IndexMap × IndexMap :=
  (fun i j => if i = n then (m2 0 j).or (m1 n j) else m1 i j,
   fun i j => if i = 0 then (m2 0 j).or (m1 n j) else m2 i j)

/-- `_copy_over_edge(m1[:, -1], m2[:, 0])` [mesher.py:1030-1036] -/
def joinCols (n : Nat) (m1 m2 : IndexMap) : IndexMap × IndexMap :=
  (fun i j => if j = n then (m2 i 0).or (m1 i n) else m1 i j,
   fun i j => if j = 0 then (m2 i 0).or (m1 i n) else m2 i j)

/-- join the sections with list positions `a` and `b` [mesher.py:1051-1057] -/
def joinAt (f : IndexMap → IndexMap → IndexMap × IndexMap) (ms : List IndexMap) (ab : Nat × Nat) :
    Option (List IndexMap) :=
  (ms[ab.1]?).bind (fun m1 => (ms[ab.2]?).map (fun m2 => (ms.set ab.1 (f m1 m2).1).set ab.2 (f m1 m2).2))

/-- mesher.py:1051-1053, the pairs of list positions joined along the first parameter -/
def rowPairs (nx ny : Nat) : List (Nat × Nat) :=
  (List.range (nx - 1)).flatMap (fun i => (List.range ny).map (fun j => (j * nx + i, j * nx + i + 1)))

/-- mesher.py:1055-1057, the pairs of list positions joined along the second parameter -/
def colPairs (nx ny : Nat) : List (Nat × Nat) :=
  (List.range nx).flatMap (fun i => (List.range (ny - 1)).map (fun j => (j * nx + i, (j + 1) * nx + i)))

/-- mesher.py:1051-1057 -/
def joinSections (n nx ny : Nat) (ms : List IndexMap) : Option (List IndexMap) :=
  ((rowPairs nx ny).foldlM (joinAt (joinRows n)) ms).bind (fun ms => (colPairs nx ny).foldlM (joinAt (joinCols n)) ms)

/-- a grid position [mesher.py:893-902] -/
abbrev Pos := Nat × Nat

/-- `abs(a - b)` [used in mesher.py:856] -/
def absDiff (a b : Nat) : Nat := (a - b) + (b - a)

/-- mesher.py:850: the (rounded down) middle of an edge -/
def midPos (p q : Pos) : Pos := ((p.1 + q.1) / 2, (p.2 + q.2) / 2)

/-- mesher.py:852-853: is there a point in the middle of the edge? -/
def hasMid (m : IndexMap) (p q : Pos) : Bool :=
  (decide (absDiff p.1 q.1 > 1) || decide (absDiff p.2 q.2 > 1)) && (m (midPos p q).1 (midPos p q).2).isSome

/-- mesher.py:856-858 -/
def threeTriangles (p0 p1 p2 p3 : Pos) : List (List Pos) :=
  [[p0, midPos p0 p1, p3], [midPos p0 p1, p2, p3], [midPos p0 p1, p1, p2]]

/-- mesher.py:847-869, the triangles of a quad as grid positions -/
def quadTriangles (m : IndexMap) (q : Quad) : List (List Pos) :=
  let p0 := (q.i0, q.j0); let p1 := (q.i0, q.j1); let p2 := (q.i1, q.j1); let p3 := (q.i1, q.j0)
  if hasMid m p0 p1 then threeTriangles p0 p1 p2 p3
  else if hasMid m p1 p2 then threeTriangles p1 p2 p3 p0
  else if hasMid m p2 p3 then threeTriangles p2 p3 p0 p1
  else if hasMid m p3 p0 then threeTriangles p3 p0 p1 p2
  else [[p0, p1, p2], [p0, p2, p3]]

/-- mesher.py:833-872 `to_triangles` (`none`: the assertion that -1 does not occur fails). -/
def toTriangles (m : IndexMap) (quads : List Quad) : Option (List Elem) :=
  (quads.flatMap (quadTriangles m)).mapM (fun t => t.mapM (fun p => m p.1 p.2))

/-- mesher.py:1038-1071 `_mesh` before the call of the constructor. `nx`, `ny` are the numbers of sections. -/
def rawMesh {P : Type} (split : P → P → P → P → Bool × Bool) (fuel start : Nat) (sections : List (Nat → Nat → Nat → Option P))
    (nx ny : Nat) (name : Option String) : Option (Mesh P) :=
  (meshSections split fuel start sections []).bind (fun r =>
    let maxDepth := (r.1.map (fun s => s.2.length - 1)).foldl max 0
    (r.1.mapM (fun s => normalizeMap maxDepth start s.2)).bind (fun ms =>
    if ms.length = nx * ny then
      (joinSections (2 ^ maxDepth) nx ny ms).bind (fun ms =>
        ((ms.zip r.1).mapM (fun mq => toTriangles mq.1 (mq.2.1.map (scaleQuad maxDepth)))).map (fun ts =>
          { points := r.2, lines := [], triangles := ts.flatten, physLines := [],
            physTris := name.elim [] (fun n => [(n, List.range ts.flatten.length)]) }))
    else none))

end SMesh
end Traceon
