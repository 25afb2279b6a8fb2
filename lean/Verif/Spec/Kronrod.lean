import Verif.Model.Kronrod

namespace Traceon.Spec

/-- `xs` are the end points of adjacent intervals that together are the interval from `a` to `b`. -/
structure IsPartition (a b : ℝ) (xs : List ℝ) : Prop where
  head : xs.head? = some a
  last : xs.getLast? = some b
  increasing : xs.Pairwise (· < ·)

/-- The intervals between consecutive points. -/
def intervals (xs : List ℝ) : List (ℝ × ℝ) := xs.zip xs.tail

end Traceon.Spec
