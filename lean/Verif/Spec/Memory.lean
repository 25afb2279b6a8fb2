import Mathlib.Algebra.BigOperators.Group.List.Basic

/-!
# Accesses to memory (specification)
-/
namespace Traceon.Mem

/-- The arrays that a function of the back end uses: those it is given, its tables and its local ones. -/
inductive Arr
  | point | result | charges | jac | pos | z | coeffs | derivs | lines | tris | matrix | types | values | positions | times | bounds | fieldBounds | p0 | normal
  | cosB | sinB | v1 | v2 | v3 | v4 | areas
  | eCharges | eJac | ePos | mCharges | mJac | mPos | cCharges | cJac | cPos | eCoeffs | mCoeffs
  | gaussPoints | gaussWeights | quadB1 | quadB2 | quadWeights | factorial | outputBase | localD | localA | localB | localAdiff | localBdiff | localPos | localTarget | localNormal
  | localField | localY | localYs | localKs | rk (row : Nat) | ct | ch
  deriving DecidableEq

/-- One use (reading or writing) of the number at an offset from the start of an array. -/
abbrev Use := Arr × Int

/-- A call of the back end: the number of numbers in memory from the start of each array on, and all uses. -/
structure Call where
  room : Arr → Nat
  uses : List Use

/-- Nothing outside of the arrays is read or written. -/
def Safe (c : Call) : Prop := ∀ u ∈ c.uses, 0 ≤ u.2 ∧ u.2 < c.room u.1

end Traceon.Mem
