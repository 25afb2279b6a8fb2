import Verif.Model.Mesh

/-!
# Model of `PathCollection` and `SurfaceCollection`

Python objects are references into a heap, because `+=` and `.name = ` change objects that may be
reachable through several variables.  The same code is written twice in geometry.py, once for paths
and once for surfaces; `Kind` tells which copy is meant. `α` is the type of member objects without
their name attribute (a path or a surface). A collection refers to its members by position in the heap.

Not modelled: calling the constructor with a list that the user keeps and changes later; operands of
other types (`NotImplemented`). `_map_to_surfaces` (geometry.py:783-789) is modelled in Verif.Model.Surface, as a map over a list.
-/
namespace Traceon

/-- paths (geometry.py:674-689, 748-822) or surfaces (geometry.py:1276-1284, 1321-1375) -/
inductive Kind where
  | path
  | surface
deriving DecidableEq

/-- A reference to a `Path`/`Surface` object or to a collection object. [geometry.py:71, 748, 825, 1321] -/
inductive Ref where
  | member (i : Nat)
  | coll (c : Nat)
deriving DecidableEq

/-- geometry.py:752-755, 1325-1328: the attributes `paths`/`surfaces` and `_name`. -/
structure Coll where
  items : List Nat
  name : Option String := none

/-- All `Path` (or `Surface`) objects with their name, and all collections. [geometry.py:71, 748, 825, 1321] -/
structure Heap (α : Type) where
  members : List (α × Option String) := []
  colls : List Coll := []

namespace Heap
variable {α : Type}

/-- geometry.py:752-755, 1325-1328, the constructor. The argument is a list whose entries are member
objects (`inl`) or lists (`inr`); the assertion refuses the latter. -/
def mkColl (h : Heap α) (vals : List (Nat ⊕ List Nat)) : Option (Ref × Heap α) := do
  let items ← vals.mapM (fun v => v.elim some (fun _ => none))
  return (.coll h.colls.length, { h with colls := h.colls ++ [{ items := items }] })

/-- `Path.__add__` geometry.py:674-689, `PathCollection.__add__` 792-800, `Surface.__add__`
1276-1284, `SurfaceCollection.__add__` 1356-1364. `none`: raises. -/
def add (k : Kind) (h : Heap α) : Ref → Ref → Option (Ref × Heap α)
  | .member i, .member j => h.mkColl [.inl i, .inl j]
  | .member i, .coll c => do
      let d ← h.colls[c]?
      match k with
      | .path => h.mkColl ([.inl i] ++ [.inr d.items])
      | .surface => h.mkColl ([.inl i] ++ d.items.map .inl)
  | .coll c, .member j => do
      let d ← h.colls[c]?
      h.mkColl (d.items.map .inl ++ [.inl j])
  | .coll c, .coll c' => do
      let d ← h.colls[c]?
      let d' ← h.colls[c']?
      h.mkColl (d.items.map .inl ++ d'.items.map .inl)

/-- The member list of an operand: `[other]` or `other.paths`. [geometry.py:674-689, 791-808, 1276-1293, 1355-1372] -/
def operandItems (h : Heap α) : Ref → Option (List Nat)
  | .member i => some [i]
  | .coll c => (h.colls[c]?).map (·.items)

/-- `__iadd__` of a collection, geometry.py:802-809, 1366-1373: changes the list of the collection
and returns `None` (first component). -/
def iaddColl (h : Heap α) (c : Nat) (b : Ref) : Option (Option Ref × Heap α) := do
  let d ← h.colls[c]?
  let extra ← h.operandItems b
  return (none, { h with colls := h.colls.set c { d with items := d.items ++ extra } })

/-- `a += b`: members have no `__iadd__`, so Python falls back to `a = a + b`. The first component is
what the variable is bound to afterwards (`none`: the value `None`). [geometry.py:801, 1365] -/
def iadd (k : Kind) (h : Heap α) (a b : Ref) : Option (Option Ref × Heap α) :=
  match a with
  | .coll c => h.iaddColl c b
  | .member i => (h.add k (.member i) b).map (fun r => (some r.1, r.2))

/-- assignment of the attribute `name` of one member (geometry.py:81) -/
def nameMember (n : Option String) (h : Heap α) (i : Nat) : Heap α :=
  { h with members := h.members.modify i (fun m => (m.1, n)) }

/-- geometry.py:761-766, 1334-1339 (the setter of the property), and plain attributes for members -/
def setName (h : Heap α) (r : Ref) (n : Option String) : Option (Heap α) :=
  match r with
  | .member i => some (h.nameMember n i)
  | .coll c => do
      let d ← h.colls[c]?
      let h' := { h with colls := h.colls.set c { d with name := n } }
      return d.items.foldl (nameMember n) h'

/-- geometry.py:148-161, 862-865: `map_points` of a member, a new object with the same name. -/
def mapMember (f : α → α) (h : Heap α) (i : Nat) : Option (Nat × Heap α) := do
  let m ← h.members[i]?
  return (h.members.length, { h with members := h.members ++ [(f m.1, m.2)] })

/-- the list comprehension of geometry.py:769, 1342 -/
def mapMembers (f : α → α) : List Nat → Heap α → Option (List Nat × Heap α)
  | [], h => some ([], h)
  | i :: is, h => do
      let (j, h) ← h.mapMember f i
      let (js, h) ← mapMembers f is h
      return (j :: js, h)

/-- geometry.py:768-769, 1341-1342 `map_points` (`f` is the effect on the shape of a member). The
new collection has no name of its own. -/
def mapPoints (f : α → α) (h : Heap α) : Ref → Option (Ref × Heap α)
  | .member i => (h.mapMember f i).map (fun r => (.member r.1, r.2))
  | .coll c => do
      let d ← h.colls[c]?
      let (js, h) ← mapMembers f d.items h
      h.mkColl (js.map .inl)

/-- geometry.py:771-781, 1344-1353. `meshMember a own name` is `p.mesh(..., name=name)` for a member
with shape `a` and attribute `p.name = own`. -/
def mesh {P : Type} (G : Geo P) (meshMember : α → Option String → Option String → Option (Mesh P))
    (h : Heap α) (c : Nat) (name : Option String) : Option (Mesh P) := do
  let d ← h.colls[c]?
  d.items.foldlM (fun m i => do
    let p ← h.members[i]?
    Mesh.add G m (← meshMember p.1 p.2 (name.or d.name))) ({} : Mesh P)

end Heap

/-! ## Programs using collections -/

/-- One statement of a user program. [user code, calling geometry.py:674-689, 791-808, 1276-1293, 1355-1372] -/
inductive CollCmd (α : Type) where
  /-- `x = <a new path or surface>` -/
  | new (x : String) (a : α) (name : Option String)
  /-- `x = y + z` -/
  | add (x y z : String)
  /-- `x += y` -/
  | iadd (x y : String)
  /-- `x.name = n` -/
  | setName (x : String) (n : Option String)
  /-- `x = y.map_points(f)` -/
  | mapPoints (x y : String) (f : α → α)

/-- Variables and heap; `none` in the environment stands for an unbound variable or `None`. [user code, calling geometry.py:674-689, 791-808, 1276-1293, 1355-1372] -/
structure CollState (α : Type) where
  env : String → Option Ref := fun _ => none
  heap : Heap α := {}

/-- Execution of one statement by the Python interpreter (`none`: an exception). [user code, calling geometry.py:674-689, 791-808, 1276-1293, 1355-1372] -/
def CollState.exec {α : Type} (k : Kind) (s : CollState α) : CollCmd α → Option (CollState α)
  | .new x a n => some
      ⟨fun v => if v = x then some (.member s.heap.members.length) else s.env v,
        { s.heap with members := s.heap.members ++ [(a, n)] }⟩
  | .add x y z => do
      let (r, h) ← s.heap.add k (← s.env y) (← s.env z)
      return ⟨fun v => if v = x then some r else s.env v, h⟩
  | .iadd x y => do
      let (r, h) ← s.heap.iadd k (← s.env x) (← s.env y)
      return ⟨fun v => if v = x then r else s.env v, h⟩
  | .setName x n => do
      let h ← s.heap.setName (← s.env x) n
      return { s with heap := h }
  | .mapPoints x y f => do
      let (r, h) ← s.heap.mapPoints f (← s.env y)
      return ⟨fun v => if v = x then some r else s.env v, h⟩

/-- Execution of a program. [user code, calling geometry.py:674-689, 791-808, 1276-1293, 1355-1372] -/
def CollState.run {α : Type} (k : Kind) (s : CollState α) (cs : List (CollCmd α)) : Option (CollState α) :=
  cs.foldlM (CollState.exec k) s

end Traceon
