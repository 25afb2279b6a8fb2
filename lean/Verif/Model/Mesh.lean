import Verif.Model.Basic

/-!
# Model of `traceon.mesher.Mesh`

The model is polymorphic in the type `P` of points.  All floating point *decisions*
(comparison of points, area smaller than a threshold, orientation tests, sign of the flux)
are parameters collected in `Geo P`, so the structural theorems hold for whatever these
decisions return.  Concrete instances: `Verif.Model.Bits` (IEEE bit patterns),
`Verif.Model.RealGeo` (real coordinates).

Simplifications: triangles have exactly three columns (`triangle6` input is not
modelled); group indices are natural numbers (numpy would also accept negative ones).
-/
namespace Traceon

/-- A row of `mesh.lines` or `mesh.triangles`. [mesher.py:152-190] -/
abbrev Elem := List Nat

/-- The floating point decisions used by the mesh code. [mesher.py:212-258, 676-703] -/
structure Geo (P : Type) where
  /-- mesher.py:234, clearing the low 16 bits of each coordinate -/
  trunc : P → P
  /-- the order used by `np.lexsort(points.T)` (mesher.py:237): z, then y, then x -/
  le : P → P → Bool
  /-- row equality `points_sorted[1:] == points_sorted[:-1]` (mesher.py:241) -/
  eq : P → P → Bool
  /-- `triangle_areas(...) < 1e-12` (mesher.py:213-214) -/
  degenerate : P → P → P → Bool
  /-- backend/triangle.c:185-278; -1 is `none`, 0/1 is `some false/true` -/
  triEqual : List P → Elem → Elem → Option Bool
  /-- mesher.py:676-690 -/
  triOutward : List P → List Elem → Bool
  /-- mesher.py:692-700 -/
  lineOutward : List P → List Elem → Bool

/-- What the structural theorems need to know about the comparison of points:
`le` is a total preorder and `eq` the equivalence it induces (true for non-NaN doubles). -/
structure Geo.Lawful {P : Type} (G : Geo P) : Prop where
  le_total : ∀ a b, G.le a b = true ∨ G.le b a = true
  le_trans : ∀ a b c, G.le a b = true → G.le b c = true → G.le a c = true
  eq_iff : ∀ a b, G.eq a b = true ↔ (G.le a b = true ∧ G.le b a = true)

/-- mesher.py:146-183, the attributes of a `Mesh`. `lineCols` is `self.lines.shape[1]`. -/
structure Mesh (P : Type) where
  points : List P := []
  lineCols : Nat := 2
  lines : List Elem := []
  triangles : List Elem := []
  physLines : Dict (List Nat) := []
  physTris : Dict (List Nat) := []

namespace Mesh
variable {P : Type}

/-! ## Degenerate triangles, mesher.py:212-224 -/

/-- mesher.py:213-214, one entry of `degenerate` (`none`: index error or wrong shape). -/
def triDegenerate (G : Geo P) (pts : List P) : Elem → Option Bool
  | [a, b, c] => do
      let p ← pts[a]?
      let q ← pts[b]?
      let r ← pts[c]?
      return G.degenerate p q r
  | _ => none

/-- mesher.py:213-214 -/
def degenerateMask (G : Geo P) (pts : List P) (tris : List Elem) : Option (List Bool) :=
  tris.mapM (triDegenerate G pts)

/-- mesher.py:215 `np.arange(n) - np.cumsum(degenerate)`. Natural number subtraction
differs from numpy only at removed entries, which are filtered out in `remapGroup`. -/
def mapIndex (mask : List Bool) : List Nat :=
  (List.range mask.length).zipWith (· - ·) (cumsum mask)

/-- mesher.py:220-221 `map_index[v[~degenerate[v]]]` -/
def remapGroup (mask : List Bool) (v : List Nat) : Option (List Nat) := do
  let flags ← gather mask v
  gather (mapIndex mask) (compress (flags.map (!·)) v)

/-- mesher.py:219-221 -/
def remapGroups (mask : List Bool) (d : Dict (List Nat)) : Option (Dict (List Nat)) :=
  d.mapM (fun kv => do return (kv.1, ← remapGroup mask kv.2))

/-- mesher.py:212-224 -/
def removeDegenerate (G : Geo P) (m : Mesh P) : Option (Mesh P) := do
  let mask ← degenerateMask G m.points m.triangles
  let groups ← remapGroups mask m.physTris
  return { m with triangles := compress (mask.map (!·)) m.triangles, physTris := groups }

/-! ## De-duplication of points, mesher.py:226-258 -/

/-- mesher.py:231-238: the truncated points with their old index, sorted.
(A stable sort, see `stableSort`.) -/
def sortedPoints (G : Geo P) (pts : List P) : List (P × Nat) :=
  stableSort (fun a b => G.le a.1 b.1) ((pts.map G.trunc).zipIdx)

/-- mesher.py:241-242: first point, and every point that differs from the previous one. -/
def keepMask (G : Geo P) (sorted : List P) : List Bool :=
  true :: (sorted.zip sorted.tail).map (fun p => !(G.eq p.2 p.1))

/-- mesher.py:245 -/
def newIndices (keep : List Bool) : List Nat := (cumsum keep).map (· - 1)

/-- mesher.py:248-249: `old_to_new[sorted_indices] = new_indices` read back at `i`. -/
def oldToNew (sorted : List Nat) (new : List Nat) (i : Nat) : Option Nat :=
  ((sorted.zip new).find? (fun p => p.1 == i)).map (·.2)

/-- mesher.py:255-258 on one array of elements -/
def mapElems (f : Nat → Option Nat) (els : List Elem) : Option (List Elem) :=
  els.mapM (fun e => e.mapM f)

/-- mesher.py:226-258 -/
def dedup (G : Geo P) (m : Mesh P) : Option (Mesh P) :=
  if m.points.isEmpty then some m else do
    let s := sortedPoints G m.points
    let keep := keepMask G (s.map (·.1))
    let f := oldToNew (s.map (·.2)) (newIndices keep)
    let tris ← mapElems f m.triangles
    let lines ← mapElems f m.lines
    return { m with points := compress keep (s.map (·.1)), triangles := tris, lines := lines }

end Mesh

/-! ## Connected pieces, mesher.py:615-671 -/

/-- mesher.py:615-627. The dictionary is represented as a function; an absent key is the
empty list. An element that mentions a vertex twice is listed twice, as in the code. -/
def vertexToIndices (els : List Elem) (v : Nat) : List Nat :=
  els.zipIdx.flatMap (fun p => (p.1.filter (· == v)).map (fun _ => p.2))

/-- mesher.py:629-637 and 655-656: all elements sharing a vertex with `e`, with repetitions. -/
def neighbours (els : List Elem) (e : Elem) : List Nat :=
  e.flatMap (vertexToIndices els)

/-- mesher.py:657-659: label an unlabelled neighbour and push it on the queue
(the queue holds element indices instead of the elements; top of the stack first). -/
def labelStep (cid : Nat) (st : List (Option Nat) × List Nat) (n : Nat) :
    List (Option Nat) × List Nat :=
  if st.1[n]? = some none then (st.1.set n (some cid), n :: st.2) else st

/-- mesher.py:653-659, the `while queue` loop. `none`: out of fuel. -/
def labelLoop (els : List Elem) (cid : Nat) :
    Nat → List (Option Nat) → List Nat → Option (List (Option Nat))
  | _, labels, [] => some labels
  | 0, _, _ :: _ => none
  | fuel + 1, labels, i :: queue =>
      let st := (neighbours els (els.getD i [])).foldl (labelStep cid) (labels, queue)
      labelLoop els cid fuel st.1 st.2

/-- mesher.py:648-660, one iteration of `for i in range(N)`.
The state is (labels, component_id). -/
def componentStep (els : List Elem) (st : List (Option Nat) × Nat) (i : Nat) :
    Option (List (Option Nat) × Nat) :=
  if st.1[i]? = some none then do
    let labels ← labelLoop els st.2 els.length (st.1.set i (some st.2)) [i]
    return (labels, st.2 + 1)
  else some st

/-- mesher.py:663-669: indices with a given label, ascending. -/
def withLabel (labels : List (Option Nat)) (c : Nat) : List Nat :=
  (List.range labels.length).filter (fun i => labels[i]? == some (some c))

/-- mesher.py:639-671 -/
def connectedElements (els : List Elem) : Option (List (List Nat)) := do
  let st ← (List.range els.length).foldlM (componentStep els)
    (List.replicate els.length none, 0)
  return (List.range st.2).map (withLabel st.1)

/-! ## Making orientations agree, mesher.py:705-818 -/

/-- mesher.py:465-466, 785-791, 812-818. (Lines with another number of columns raise;
the constructor refuses them in any case, mesher.py:190.) -/
def flipLine : Elem → Elem
  | [a, b] => [b, a]
  | [a, b, c, d] => [b, a, d, c]
  | e => e

/-- mesher.py:473-474, 734-735, 749-750 -/
def flipTri : Elem → Elem
  | [a, b, c] => [a, c, b]
  | e => e

/-- mesher.py:752-763 -/
def lineOrientationEqual (l n : Elem) : Bool :=
  if l[1]? == n[0]? then true
  else if n[1]? == l[0]? then true
  else false

/-- State of the re-orientation loops: elements, `oriented`, `active` (top first). [mesher.py:705-737, 765-797] -/
structure OState where
  els : List Elem
  oriented : List Bool
  active : List Nat

/-- Body of the inner loop, mesher.py:725-738 and 780-797. `test t n` is the orientation
test, `none` for "no common edge". Indices come from `vertexToIndices`, hence are in range. -/
def reorientVisit (test : Elem → Elem → Option Bool) (flip : Elem → Elem) (ti : Nat)
    (st : OState) (n : Nat) : OState :=
  if st.oriented[n]? = some true then st
  else match test (st.els.getD ti []) (st.els.getD n []) with
    | none => st
    | some eq =>
      { els := if eq then st.els else st.els.set n (flip (st.els.getD n []))
        oriented := st.oriented.set n true
        active := n :: st.active }

/-- mesher.py:720-738 and 777-797, the `while active` loop; `v2i` is computed once, before
the loop (mesher.py:709, 773). `none`: out of fuel. -/
def reorientLoop (v2i : Nat → List Nat) (test : Elem → Elem → Option Bool)
    (flip : Elem → Elem) : Nat → OState → Option (List Elem)
  | _, ⟨els, _, []⟩ => some els
  | 0, ⟨_, _, _ :: _⟩ => none
  | fuel + 1, ⟨els, ori, ti :: active⟩ =>
      let st := ((els.getD ti []).flatMap v2i).foldl (reorientVisit test flip ti)
        ⟨els, ori, active⟩
      reorientLoop v2i test flip fuel st

/-- mesher.py:705-738 (triangles) -/
def reorientTriangles (test : Elem → Elem → Option Bool) (tris : List Elem) :
    Option (List Elem) :=
  if tris.isEmpty then some tris else
  reorientLoop (vertexToIndices tris) test flipTri (tris.length + 1)
    ⟨tris, List.replicate tris.length false, [0]⟩

/-- mesher.py:765-797 (lines); only the first two columns are used for `vertex_to_indices`.
An empty array raises an IndexError (never reached, callers pass non-empty arrays). -/
def reorientLines (lines : List Elem) : Option (List Elem) :=
  if lines.isEmpty then none else
  reorientLoop (vertexToIndices (lines.map (·.take 2)))
    (fun l n => some (lineOrientationEqual l n)) flipLine (lines.length + 1)
    ⟨lines, List.replicate lines.length false, [0]⟩

/-- mesher.py:740-750 -/
def ensureTriangleOrientation {P : Type} (G : Geo P) (pts : List P) (outwards : Bool)
    (tris : List Elem) : Option (List Elem) := do
  let t ← reorientTriangles (G.triEqual pts) tris
  return if G.triOutward pts t != outwards then t.map flipTri else t

/-- mesher.py:799-818 -/
def ensureLineOrientation {P : Type} (G : Geo P) (pts : List P) (outwards : Bool)
    (lines : List Elem) : Option (List Elem) := do
  let t ← reorientLines lines
  return if G.lineOutward pts t != outwards then t.map flipLine else t

/-- mesher.py:567-577 and 585-595: orient the group `idx` of the array `els`,
connected piece by connected piece. -/
def orientGroup (orient : List Elem → Option (List Elem)) (els : List Elem)
    (idx : List Nat) : Option (List Elem) := do
  let sub ← gather els idx
  if sub.isEmpty then return els
  let comps ← connectedElements sub
  let sub' ← comps.foldlM (fun s c => do
    let piece ← gather s c
    let piece' ← orient piece
    return scatter s c piece') sub
  return scatter els idx sub'

namespace Mesh
variable {P : Type}

/-- mesher.py:561-577, guarded by 598/605 -/
def orientTris (G : Geo P) (outwards : Bool) (name : String) (m : Mesh P) : Option (Mesh P) :=
  match m.physTris.get name with
  | none => some m
  | some idx => do
      return { m with triangles := ← orientGroup (ensureTriangleOrientation G m.points outwards) m.triangles idx }

/-- mesher.py:579-595, guarded by 601/608 -/
def orientLines (G : Geo P) (outwards : Bool) (name : String) (m : Mesh P) : Option (Mesh P) :=
  match m.physLines.get name with
  | none => some m
  | some idx => do
      return { m with lines := ← orientGroup (ensureLineOrientation G m.points outwards) m.lines idx }

/-- mesher.py:597-609 `ensure_outward_normals` / `ensure_inward_normals` -/
def ensureNormals (G : Geo P) (outwards : Bool) (name : String) (m : Mesh P) :
    Option (Mesh P) := do
  orientLines G outwards name (← orientTris G outwards name m)

/-- mesher.py:496-505 -/
def electrodes (m : Mesh P) : List String := m.physLines.keys ++ m.physTris.keys

/-- mesher.py:186-191, the assertions at the end of the constructor. -/
def assertions (m : Mesh P) : Bool :=
  m.lines.all (fun e => e.all (· < m.points.length)) &&
  m.triangles.all (fun e => e.all (· < m.points.length)) &&
  m.physLines.all (fun kv => kv.2.all (· < m.lines.length)) &&
  m.physTris.all (fun kv => kv.2.all (· < m.triangles.length)) &&
  (m.lines.isEmpty || m.lineCols == 2 || m.lineCols == 4)

/-- mesher.py:152-191, the constructor applied to raw arrays `m`. -/
def build (G : Geo P) (m : Mesh P) (ensureOutward : Bool := true) : Option (Mesh P) := do
  let m ← removeDegenerate G m
  let m ← dedup G m
  let m ← if ensureOutward then m.electrodes.foldlM (fun m el => ensureNormals G true el m) m
          else some m
  if assertions m then some m else none

/-- mesher.py:201-210 -/
def mapPoints (G : Geo P) (f : P → P) (m : Mesh P) : Option (Mesh P) :=
  build G { m with points := m.points.map f }

/-- mesher.py:261-270 -/
def mergeDicts (d1 d2 : Dict (List Nat)) : Dict (List Nat) :=
  (d1 ++ d2).foldl (fun d kv => match d.get kv.1 with
    | some v => d.set kv.1 (v ++ kv.2)
    | none => d.set kv.1 kv.2) []

/-- mesher.py:136-144 on line arrays (with their number of columns) -/
def concatLines (c1 : Nat) (l1 : List Elem) (c2 : Nat) (l2 : List Elem) :
    Option (Nat × List Elem) :=
  if l1.isEmpty then some (c2, l2)
  else if l2.isEmpty then some (c1, l1)
  else if c1 = c2 then some (c1, l1 ++ l2) else none

/-- mesher.py:282-296: the arguments passed to the constructor by `__add__` -/
def addRaw (m1 m2 : Mesh P) : Option (Mesh P) := do
  let n := m1.points.length
  let shift := List.map (fun e : Elem => e.map (· + n))
  let (cols, lines) ← concatLines m1.lineCols m1.lines m2.lineCols (shift m2.lines)
  return {
    points := m1.points ++ m2.points
    lineCols := cols
    lines := lines
    triangles := m1.triangles ++ shift m2.triangles
    physLines := mergeDicts m1.physLines (m2.physLines.map fun kv => (kv.1, kv.2.map (· + m1.lines.length)))
    physTris := mergeDicts m1.physTris (m2.physTris.map fun kv => (kv.1, kv.2.map (· + m1.triangles.length))) }

/-- mesher.py:272-301 `mesh1 + mesh2` -/
def add (G : Geo P) (m1 m2 : Mesh P) : Option (Mesh P) := do
  build G (← addRaw m1 m2)

/-- mesher.py:451-478: arguments passed to the constructor by `flip_normals` -/
def flipRaw (m : Mesh P) : Mesh P :=
  { m with lines := m.lines.map flipLine, triangles := m.triangles.map flipTri }

/-- mesher.py:451-478 -/
def flipNormals (G : Geo P) (m : Mesh P) : Option (Mesh P) := build G m.flipRaw

/-- mesher.py:480-486 (the constructor receives no lines: shape (0,2)) -/
def removeLines (G : Geo P) (m : Mesh P) : Option (Mesh P) :=
  build G { m with lines := [], lineCols := 2, physLines := [] }

/-- mesher.py:488-494 -/
def removeTriangles (G : Geo P) (m : Mesh P) : Option (Mesh P) :=
  build G { m with triangles := [], physTris := [] }

/-- `np.unique` of an index array (mesher.py:325): ascending, without repetitions. -/
def unique (v : List Nat) : List Nat :=
  (List.range (v.foldr max 0 + 1)).filter (fun i => v.contains i)

/-- mesher.py:325-333: the selected elements, renumbered, and the points they use. -/
def extractElems (pts : List P) (els : List Elem) (group : List Nat) :
    Option (List P × List Elem) := do
  let sel ← gather els (unique group)
  let mask := (List.range pts.length).map (fun i => sel.any (fun e => e.contains i))
  if sel.all (fun e => e.all (· < pts.length)) then
    let newIdx := (cumsum mask).map (· - 1)
    let sel' ← sel.mapM (fun e => gather newIdx e)
    return (compress mask pts, sel')
  else none

/-- mesher.py:303-339 -/
def extract (G : Geo P) (name : String) (m : Mesh P) : Option (Mesh P) :=
  match m.physLines.get name with
  | some g => do
      let (pts, els) ← extractElems m.points m.lines g
      build G { points := pts, lineCols := m.lineCols, lines := els,
                physLines := [(name, List.range els.length)] }
  | none =>
    match m.physTris.get name with
    | some g => do
        let (pts, els) ← extractElems m.points m.triangles g
        build G { points := pts, triangles := els, physTris := [(name, List.range els.length)] }
    | none => none

end Mesh
end Traceon

/-! ## meshio, mesher.py:341-429 -/
namespace Traceon

/-- The parts of `meshio.Mesh` used by Traceon: points, cell blocks `(type, array)`, and
`cell_sets_dict` (name ↦ type ↦ indices). External library; in `cells_dict` blocks of the same
type are concatenated. [mesher.py:379-429] -/
structure MeshioMesh (P : Type) where
  points : List P := []
  cells : List (String × List Elem) := []
  cellSets : Dict (Dict (List Nat)) := []

/-- `meshio.Mesh.cells_dict[type]` if present [used in mesher.py:410-424] -/
def MeshioMesh.cellsDict {P : Type} (m : MeshioMesh P) (ty : String) : Option (List Elem) :=
  if m.cells.any (·.1 == ty) then some ((m.cells.filter (·.1 == ty)).flatMap (·.2)) else none

namespace Mesh
variable {P : Type}

/-- mesher.py:379-395 -/
def toMeshio (m : Mesh P) : MeshioMesh P :=
  { points := m.points
    cells :=
      (if m.lines.isEmpty then [] else [(if m.lineCols = 2 then "line" else "line4", m.lines)]) ++
      (if m.triangles.isEmpty then [] else [("triangle", m.triangles)]) }

/-- mesher.py:409-412, the physical groups of one cell type -/
def extractSets (mm : MeshioMesh P) (ty : String) : Dict (List Nat) :=
  mm.cellSets.filterMap (fun kv => (kv.2.get ty).map (fun v => (kv.1, v)))

/-- mesher.py:398-429 (`triangle6` is not modelled). -/
def fromMeshio (G : Geo P) (mm : MeshioMesh P) : Option (Mesh P) :=
  let (cols, lines, physLines) := match mm.cellsDict "line" with
    | some l => (2, l, extractSets mm "line")
    | none => match mm.cellsDict "line4" with
      | some l => (4, l, extractSets mm "line4")
      | none => (2, [], [])
  let (tris, physTris) := match mm.cellsDict "triangle" with
    | some t => (t, extractSets mm "triangle")
    | none => ([], [])
  build G { points := mm.points, lineCols := cols, lines := lines, triangles := tris,
            physLines := physLines, physTris := physTris }

/-- mesher.py:341-362 `read_file(name=...)`, after `meshio.read` -/
def fromMeshioNamed (G : Geo P) (mm : MeshioMesh P) (name : String) : Option (Mesh P) := do
  let m ← fromMeshio G mm
  return { m with
    physLines := m.physLines.set name (List.range m.lines.length)
    physTris := m.physTris.set name (List.range m.triangles.length) }

end Mesh
end Traceon
