import Verif.Model.SurfaceMeshReal
import Verif.Spec.Ruled

/-!
# Sizes of the triangles of a mesh (specification of C108)
-/
namespace Traceon.Spec

/-- The three points `p`, `p'`, `p''` are met in this order, and going on leads farther away: the middle one is not farther from the first and from the last than these are from each other. -/
def Amid (p p' p'' : V3) : Prop := Spec.dist p p' ≤ Spec.dist p p'' ∧ Spec.dist p' p'' ≤ Spec.dist p p''

/-- A surface does not turn back within a quarter of its length along each parameter. -/
structure Onward (s : Surface) : Prop where
  first : ∀ u u' u'' v p p' p'', 0 ≤ u → u ≤ u' → u' ≤ u'' → u'' ≤ s.length1 → u'' - u ≤ s.length1 / 4 → 0 ≤ v → v ≤ s.length2 →
    s.func u v = some p → s.func u' v = some p' → s.func u'' v = some p'' → Amid p p' p''
  second : ∀ u v v' v'' p p' p'', 0 ≤ v → v ≤ v' → v' ≤ v'' → v'' ≤ s.length2 → v'' - v ≤ s.length2 / 4 → 0 ≤ u → u ≤ s.length1 →
    s.func u v = some p → s.func u v' = some p' → s.func u v'' = some p'' → Amid p p' p''

/-- A path does not turn back within a quarter of the length of each of its stretches between breakpoints. -/
def OnwardPath (p : Path) : Prop :=
  ∀ uu ∈ pieces p, ∀ u u' u'' q q' q'', uu.1 ≤ u → u ≤ u' → u' ≤ u'' → u'' ≤ uu.2 → u'' - u ≤ (uu.2 - uu.1) / 4 →
    p.func u = some q → p.func u' = some q' → p.func u'' = some q'' → Amid q q' q''

/-- No side of a triangle of the mesh is longer than `d`. -/
def SidesAtMost (m : Mesh V3) (d : ℝ) : Prop :=
  ∀ t ∈ m.triangles, ∀ i ∈ t, ∀ j ∈ t, ∀ p q, m.points[i]? = some p → m.points[j]? = some q → Spec.dist p q ≤ d

/-- For every mesh size, also one that varies in space: for each triangle there is a point within twice the mesh size at that point of its corners, such that no side of
the triangle is longer than twice the mesh size at that point. -/
def SizedBy (s : Surface) : Prop :=
  ∀ size fuel name mesh, s.rawMesh size fuel name = some mesh → ∀ t ∈ mesh.triangles, ∃ c, ∀ i ∈ t, ∀ p, mesh.points[i]? = some p →
    Spec.dist c p ≤ 2 * size c ∧ ∀ j ∈ t, ∀ q, mesh.points[j]? = some q → Spec.dist p q ≤ 2 * size c

/-- For every constant mesh size, no side of a triangle is longer than twice the mesh size. -/
def Sized (s : Surface) : Prop := ∀ ms fuel name mesh, s.rawMesh (fun _ => ms) fuel name = some mesh → SidesAtMost mesh (2 * ms)

end Traceon.Spec
