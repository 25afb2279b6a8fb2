/-!
# Conventions of the model

Python exceptions are values: a function that may raise returns `Option`, `none` = raises.
numpy boolean masks, cumulative sums and dictionaries are modelled by the list functions
below.  Every later definition cites the file and lines in /repo that it models.
-/
namespace Traceon

/-- numpy boolean-mask indexing `arr[mask]` (used e.g. in
/repo/traceon/mesher.py:217, 252, 330; excitation.py:_get_active_elements). -/
def compress {α : Type _} : List Bool → List α → List α
  | true :: m, x :: xs => x :: compress m xs
  | false :: m, _ :: xs => compress m xs
  | _, _ => []

/-- `np.cumsum(mask)` with a starting value (mesher.py:215, 245, 332). -/
def cumsumFrom (acc : Nat) : List Bool → List Nat
  | [] => []
  | b :: bs => (acc + b.toNat) :: cumsumFrom (acc + b.toNat) bs

/-- `np.cumsum(mask)`. [used in mesher.py:215, 245, 332 and excitation.py:285] -/
def cumsum (m : List Bool) : List Nat := cumsumFrom 0 m

/-- numpy integer-array indexing `arr[idx]` (raises IndexError when out of range). [used in mesher.py:220, 255-258, 326, 333] -/
def gather {α : Type _} (arr : List α) (idx : List Nat) : Option (List α) :=
  idx.mapM (fun i => arr[i]?)

/-- numpy integer-array assignment `arr[idx] = vals`, later entries win
(indices are in range in all uses, since `gather` was called on them before). [used in mesher.py:574-577, 592-595 and excitation.py:281-287, solver.py:226-235] -/
def scatter {α : Type _} (arr : List α) (idx : List Nat) (vals : List α) : List α :=
  (idx.zip vals).foldl (fun a p => a.set p.1 p.2) arr

/-- Insert in a sorted list, before the first entry that is not smaller. [the sorting of mesher.py:237 and geometry.py:204] -/
def insertSorted {α : Type _} (le : α → α → Bool) (x : α) : List α → List α
  | [] => [x]
  | y :: ys => if le x y then x :: y :: ys else y :: insertSorted le x ys

/-- A stable sort (`np.lexsort`, mesher.py:237, is stable; all stable sorts return the same
list, so the algorithm does not matter). -/
def stableSort {α : Type _} (le : α → α → Bool) (l : List α) : List α :=
  l.foldr (insertSorted le) []

/-- A Python dictionary: association list in insertion order. [the physical groups of mesher.py:146-190 and `excitation_types` of excitation.py:82-90] -/
abbrev Dict (α : Type _) := List (String × α)

namespace Dict
variable {α : Type _}

/-- `k in d` [used in mesher.py:262-269, excitation.py:97-230] -/
def has (d : Dict α) (k : String) : Bool := d.any (fun p => p.1 == k)

/-- `d.get(k)` [used in mesher.py:262-269, excitation.py:97-230] -/
def get (d : Dict α) (k : String) : Option α := (d.find? (fun p => p.1 == k)).map (·.2)

/-- `d[k] = v`: an existing key keeps its position, a new key is appended. [used in mesher.py:262-269, excitation.py:97-230] -/
def set (d : Dict α) (k : String) (v : α) : Dict α :=
  if d.has k then d.map (fun p => if p.1 == k then (k, v) else p) else d ++ [(k, v)]

/-- `d.keys()` [used in mesher.py:496-506] -/
def keys (d : Dict α) : List String := d.map (·.1)

end Dict
end Traceon
