import Verif.Model.Mesh

/-!
# Specification vocabulary for meshes
-/
namespace Traceon.Spec
variable {P : Type}

/-- A mesh (or raw constructor input) whose arrays have the right shape, whose indices are in
range and whose dictionaries have distinct keys. -/
structure Valid (m : Mesh P) : Prop where
  cols : m.lineCols = 2 ∨ m.lineCols = 4
  lines : ∀ e ∈ m.lines, e.length = m.lineCols ∧ ∀ i ∈ e, i < m.points.length
  tris : ∀ e ∈ m.triangles, e.length = 3 ∧ ∀ i ∈ e, i < m.points.length
  groupLines : ∀ kv ∈ m.physLines, ∀ i ∈ kv.2, i < m.lines.length
  groupTris : ∀ kv ∈ m.physTris, ∀ i ∈ kv.2, i < m.triangles.length
  keysLines : (m.physLines.map (·.1)).Nodup
  keysTris : (m.physTris.map (·.1)).Nodup

/-- Element `e'` of the point table `pts'` has, corner by corner, the (truncated) coordinates of
element `e` of the point table `pts`. -/
def SameCorners (G : Geo P) (pts : List P) (e : List Nat) (pts' : List P) (e' : List Nat) : Prop :=
  e.length = e'.length ∧ ∀ (c i : Nat), e[c]? = some i →
    ∃ j p q, e'[c]? = some j ∧ pts[i]? = some p ∧ pts'[j]? = some q ∧ G.eq q (G.trunc p) = true

/-- A 2- or 4-point line traversed in the opposite direction. -/
def reverseLine (e e' : List Nat) : Prop :=
  (∃ a b, e = [a, b] ∧ e' = [b, a]) ∨ (∃ a b c d, e = [a, b, c, d] ∧ e' = [b, a, d, c])

/-- A triangle with the opposite orientation. -/
def reverseTri (e e' : List Nat) : Prop := ∃ a b c, e = [a, b, c] ∧ e' = [a, c, b]

/-- The corners of triangle `e` form a triangle that is not degenerate. -/
def NonDegenerate (G : Geo P) (pts : List P) (e : List Nat) : Prop :=
  ∃ a b c p q r, e = [a, b, c] ∧ pts[a]? = some p ∧ pts[b]? = some q ∧ pts[c]? = some r ∧
    G.degenerate p q r = false

/-- `k` belongs to some named group. -/
def InGroup (d : List (String × List Nat)) (k : Nat) : Prop := ∃ kv ∈ d, k ∈ kv.2

end Traceon.Spec
