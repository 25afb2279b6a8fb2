/-!
# Specification: connectivity of elements (independent of the model)
-/
namespace Traceon.Spec

/-- Elements `i` and `j` have a vertex in common. -/
def SharesVertex (els : List (List Nat)) (i j : Nat) : Prop :=
  ∃ a b v, els[i]? = some a ∧ els[j]? = some b ∧ v ∈ a ∧ v ∈ b

/-- `j` can be reached from `i` by repeatedly going to an element with a common vertex. -/
inductive Linked (els : List (List Nat)) (i : Nat) : Nat → Prop
  | refl : i < els.length → Linked els i i
  | step {j k : Nat} : Linked els i j → SharesVertex els j k → Linked els i k

end Traceon.Spec
