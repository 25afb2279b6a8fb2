import Verif.Model.Mesh
import Verif.Spec.Shape

/-! # What a mesh file contains (C92)

A `meshio.Mesh` as read from disk: points, blocks of cells of one type each, and named sets of
cells. Nothing here refers to Traceon's code. -/
namespace Traceon.Spec
variable {P : Type}

/-- All cells of one type, block after block, each as the list of its corner points. -/
def fileCells (mm : MeshioMesh P) (ty : String) : List (List P) :=
  mm.cells.flatMap (fun b => if b.1 = ty then b.2.map (coords mm.points) else [])

/-- The cells of one type in a named set, `none` when the set has no cells of this type. -/
def fileSet (mm : MeshioMesh P) (ty name : String) : Option (List (List P)) :=
  ((mm.cellSets.get name).bind (fun d => d.get ty)).map (fun g => g.filterMap (fun i => (fileCells mm ty)[i]?))

/-- A file meshio can produce, with first order triangles and with lines of one kind only:
all corner indices are in range, all set indices are in range, set names are distinct, and a set
speaks only of cell types that are in the file. -/
structure FileOk (mm : MeshioMesh P) : Prop where
  inRange : ∀ b ∈ mm.cells, ∀ e ∈ b.2, ∀ i ∈ e, i < mm.points.length
  line : ∀ b ∈ mm.cells, b.1 = "line" → ∀ e ∈ b.2, e.length = 2
  line4 : ∀ b ∈ mm.cells, b.1 = "line4" → ∀ e ∈ b.2, e.length = 4
  triangle : ∀ b ∈ mm.cells, b.1 = "triangle" → ∀ e ∈ b.2, e.length = 3
  firstOrder : ∀ b ∈ mm.cells, b.1 ≠ "triangle6"
  oneKind : ∀ b ∈ mm.cells, ∀ b' ∈ mm.cells, ¬ (b.1 = "line" ∧ b'.1 = "line4")
  names : (mm.cellSets.map (·.1)).Nodup
  sets : ∀ s ∈ mm.cellSets, ∀ tg ∈ s.2, (∃ b ∈ mm.cells, b.1 = tg.1) ∧ ∀ i ∈ tg.2, i < (fileCells mm tg.1).length

end Traceon.Spec
