import Verif.Model.Mesh

/-!
# Specification: a mesh seen as lists of corner coordinates

Independent of how points are numbered: a mesh is a list of lines and a list of triangles, each
given by the coordinates of its corners, plus for each name the list of its elements.
-/
namespace Traceon.Spec
variable {P : Type}

/-- Two lists correspond entry by entry. -/
def Matches {α β : Type _} (R : α → β → Prop) (as : List α) (bs : List β) : Prop :=
  as.length = bs.length ∧ ∀ (k : Nat) a b, as[k]? = some a → bs[k]? = some b → R a b

/-- Corner coordinates of an element. -/
def coords (pts : List P) (e : List Nat) : List P := e.filterMap (fun i => pts[i]?)

def lineShapes (m : Mesh P) : List (List P) := m.lines.map (coords m.points)
def triShapes (m : Mesh P) : List (List P) := m.triangles.map (coords m.points)

/-- The lines carrying a name (`none` if the name is not used for lines). -/
def lineGroup (m : Mesh P) (name : String) : Option (List (List P)) :=
  (m.physLines.get name).map (fun g => g.filterMap (fun i => (lineShapes m)[i]?))

/-- The triangles carrying a name. -/
def triGroup (m : Mesh P) (name : String) : Option (List (List P)) :=
  (m.physTris.get name).map (fun g => g.filterMap (fun i => (triShapes m)[i]?))

/-- A line with its direction reversed (end points first, then the two inner points). -/
def revLine {α : Type _} : List α → List α
  | [a, b] => [b, a]
  | [a, b, c, d] => [b, a, d, c]
  | l => l

/-- A triangle with its orientation reversed. -/
def revTri {α : Type _} : List α → List α
  | [a, b, c] => [a, c, b]
  | l => l

/-- `b` is `a` with the low bits of each coordinate cleared. -/
def SameShape (G : Geo P) (a b : List P) : Prop :=
  Matches (fun p q => G.eq q (G.trunc p) = true) a b

/-- Same line, possibly traversed in the other direction. -/
def SameLine (G : Geo P) (a b : List P) : Prop := SameShape G a b ∨ SameShape G (revLine a) b

/-- Same triangle, possibly with the other orientation. -/
def SameTri (G : Geo P) (a b : List P) : Prop := SameShape G a b ∨ SameShape G (revTri a) b

/-- The triangle is not degenerate. -/
def nonDegShape (G : Geo P) : List P → Bool
  | [p, q, r] => !G.degenerate p q r
  | _ => false

/-- Correspondence of optional groups: the same names exist, with corresponding elements. -/
def MatchesGroup {α β : Type _} (R : α → β → Prop) : Option (List α) → Option (List β) → Prop
  | some a, some b => Matches R a b
  | none, none => True
  | _, _ => False

/-- Concatenation of two optional groups. -/
def catOpt {α : Type _} : Option (List α) → Option (List α) → Option (List α)
  | none, none => none
  | a, b => some (a.getD [] ++ b.getD [])

/-- The entries of `l` at the positions listed in `g`, in order of position, each once. -/
def selection {α : Type _} (l : List α) (g : List Nat) : List α :=
  ((List.range l.length).filter (fun i => g.contains i)).filterMap (fun i => l[i]?)

/-- A mesh as the constructor leaves it: points strictly ordered and with cleared low bits, no
degenerate triangles. -/
structure Settled (G : Geo P) (m : Mesh P) : Prop where
  sorted : m.points.Pairwise (fun a b => G.le a b = true ∧ G.eq b a = false)
  trunc : ∀ p ∈ m.points, G.trunc p = p
  nonDeg : ∀ s ∈ triShapes m, nonDegShape G s = true

end Traceon.Spec
