import Verif.Model.Saveable

/-!
# What is assumed about pickle
-/
namespace Traceon.Spec
open Saving

/-- What is assumed about pickle: `load` gives back what was dumped (it reads up to the STOP opcode that ends a pickle), and raises if the end is missing. -/
structure GoodPickle {α : Type} (P : Pickle α) : Prop where
  back : ∀ a, P.load (P.dump a) = some a
  cut : ∀ a n, n < (P.dump a).length → P.load ((P.dump a).take n) = none

/-- The file that a step writes. -/
def fileOf {α : Type} : Step α → String
  | .write f _ => f
  | .stopped f _ _ => f

end Traceon.Spec
