import Verif.Model.Collections

/-!
# Specification: collections are lists

What a user expects from `+`, `.name =` and `map_points`: every variable denotes the list of path (or
surface) objects it is made of. Objects are numbered in order of creation.
-/
namespace Traceon.Spec

/-- `objects`: shape and name of every object created so far. `vars x`: the list of objects `x` is
made of (`none`: not defined). -/
structure ListState (α : Type) where
  objects : List (α × Option String) := []
  vars : String → Option (List Nat) := fun _ => none

def ListState.assign {α : Type} (s : ListState α) (x : String) (l : List Nat) : ListState α :=
  { s with vars := fun v => if v = x then some l else s.vars v }

/-- The intended meaning of a statement. `+=` is treated separately. -/
def ListState.exec {α : Type} (s : ListState α) : CollCmd α → Option (ListState α)
  | .new x a n => some ({ s with objects := s.objects ++ [(a, n)] }.assign x [s.objects.length])
  | .add x y z => do return s.assign x ((← s.vars y) ++ (← s.vars z))
  | .iadd _ _ => none
  | .setName x n => do
      let l ← s.vars x
      return { s with objects := s.objects.mapIdx (fun i o => if i ∈ l then (o.1, n) else o) }
  | .mapPoints x y f => do
      let l ← s.vars y
      let copies := l.filterMap (fun i => (s.objects[i]?).map (fun o => (f o.1, o.2)))
      return { s with objects := s.objects ++ copies }.assign x
        ((List.range l.length).map (fun k => s.objects.length + k))

def ListState.run {α : Type} (s : ListState α) (cs : List (CollCmd α)) : Option (ListState α) :=
  cs.foldlM ListState.exec s

/-- A statement other than `+=`. -/
def NotIadd {α : Type} : CollCmd α → Prop
  | .iadd _ _ => False
  | _ => True

/-- The list of objects a reference stands for. -/
def contents {α : Type} (h : Heap α) : Ref → Option (List Nat)
  | .member i => if i < h.members.length then some [i] else none
  | .coll c => (h.colls[c]?).map (·.items)

/-- All collections consist of existing objects. -/
def HeapOk {α : Type} (h : Heap α) : Prop := ∀ d ∈ h.colls, ∀ i ∈ d.items, i < h.members.length

end Traceon.Spec
