import Verif.Spec.Graph

/-!
# Specification: consistent orientation of lines and of triangles
-/
namespace Traceon.Spec

/-- The end points of a line are its first two entries. -/
def endPoints (l : List Nat) : List Nat := l.take 2

/-- `a` ends where `b` starts. -/
def EndsAtStart (a b : List Nat) : Prop := ∃ v, a[1]? = some v ∧ b[0]? = some v

/-- Whenever two lines have an end point in common, one of them ends where the other starts. -/
def HeadToTail (ls : List (List Nat)) : Prop :=
  ∀ (i j : Nat) a b v, i ≠ j → ls[i]? = some a → ls[j]? = some b → v ∈ endPoints a → v ∈ endPoints b →
    EndsAtStart a b ∨ EndsAtStart b a

/-- A line traversed in the other direction: end points swapped, inner points swapped. -/
def Reversed (a b : List Nat) : Prop :=
  (∃ p q, a = [p, q] ∧ b = [q, p]) ∨ (∃ p q r s, a = [p, q, r, s] ∧ b = [q, p, s, r])

/-- `bs` consists of the lines of `as`, some of them reversed. -/
def SomeReversed (as bs : List (List Nat)) : Prop :=
  as.length = bs.length ∧
    ∀ (k : Nat) a b, as[k]? = some a → bs[k]? = some b → a = b ∨ Reversed a b

/-- Ordinary lines: two end points that differ, possibly two inner points, which are on no other
line and are not end points. -/
structure Lines (ls : List (List Nat)) : Prop where
  shape : ∀ l ∈ ls, l.length = 2 ∨ l.length = 4
  ends : ∀ l ∈ ls, l[0]? ≠ l[1]?
  inner : ∀ (i j : Nat) a b v, ls[i]? = some a → ls[j]? = some b → v ∈ a.drop 2 →
    v ∉ endPoints b ∧ (i ≠ j → v ∉ b)

/-- All elements hang together. -/
def Connected (els : List (List Nat)) : Prop :=
  ∀ i j, i < els.length → j < els.length → Linked els i j

/-- A directed edge of a triangle. -/
def Edge (t : List Nat) (v w : Nat) : Prop :=
  (t[0]? = some v ∧ t[1]? = some w) ∨ (t[1]? = some v ∧ t[2]? = some w) ∨
    (t[2]? = some v ∧ t[0]? = some w)

/-- Two triangles have an edge in common (whatever its direction). -/
def ShareEdge (a b : List Nat) : Prop :=
  ∃ v w, (Edge a v w ∨ Edge a w v) ∧ (Edge b v w ∨ Edge b w v)

/-- Whenever two triangles have an edge in common, they traverse it in opposite directions. -/
def EdgesOpposite (ts : List (List Nat)) : Prop :=
  ∀ (i j : Nat) a b v w, i ≠ j → ts[i]? = some a → ts[j]? = some b → Edge a v w → ¬ Edge b v w

/-- `j` can be reached from `i` by repeatedly going to a triangle with a common edge. -/
inductive EdgeLinked (ts : List (List Nat)) (i : Nat) : Nat → Prop
  | refl : i < ts.length → EdgeLinked ts i i
  | step {j k : Nat} {a b : List Nat} : EdgeLinked ts i j → ts[j]? = some a → ts[k]? = some b →
      ShareEdge a b → EdgeLinked ts i k

/-- The elements at the given positions. -/
def elemsAt (els : List (List Nat)) (g : List Nat) : List (List Nat) := g.filterMap (fun i => els[i]?)

/-- `c` lists, in ascending order, the positions of one connected piece of `els`. -/
structure IsPiece (els : List (List Nat)) (c : List Nat) : Prop where
  nonempty : c ≠ []
  ascending : c.Pairwise (· < ·)
  component : ∀ i ∈ c, ∀ j, j ∈ c ↔ Linked els i j

/-- `bs` consists of the triangles of `as`, some of them with the other orientation. -/
def SomeTurned (as bs : List (List Nat)) : Prop :=
  as.length = bs.length ∧
    ∀ (k : Nat) a b, as[k]? = some a → bs[k]? = some b → a = b ∨ (∃ p q r, a = [p, q, r] ∧ b = [p, r, q])

end Traceon.Spec
