import Verif.Model.Mesh

/-!
# Points as IEEE bit patterns

`_deduplicate_points` views the coordinates as 64 bit integers (mesher.py:234), so for this part
coordinates are bit patterns.  NaNs are not modelled.
-/
namespace Traceon

/-- The bit pattern of a double. [mesher.py:234] -/
abbrev Dbl := BitVec 64

/-- Order key of a non-NaN double (IEEE 754: sign and magnitude): doubles compare like these
integers, and `+0 == -0`. [the comparisons of the coordinates in mesher.py:236-245] -/
def Dbl.key (b : Dbl) : Int :=
  if b.msb then -((b.toNat % 2 ^ 63 : Nat) : Int) else ((b.toNat % 2 ^ 63 : Nat) : Int)

/-- mesher.py:234 `view(np.uint64) &= 0xFFFFFFFFFFFF0000` -/
def Dbl.trunc (b : Dbl) : Dbl := b &&& 0xFFFFFFFFFFFF0000#64

/-- A point as three doubles. [a row of `points`, mesher.py:226-258] -/
structure BPoint where
  x : Dbl
  y : Dbl
  z : Dbl
deriving DecidableEq, Repr

/-- mesher.py:237 `np.lexsort(points.T)`: the last row (z) is the primary key. -/
def BPoint.le (a b : BPoint) : Bool :=
  a.z.key < b.z.key || (a.z.key == b.z.key &&
    (a.y.key < b.y.key || (a.y.key == b.y.key && a.x.key ≤ b.x.key)))

/-- mesher.py:241 `np.all(a == b)` -/
def BPoint.eq (a b : BPoint) : Bool :=
  a.x.key == b.x.key && a.y.key == b.y.key && a.z.key == b.z.key

/-- The geometry on bit patterns; the results of floating point arithmetic (areas,
orientation tests, flux signs) are arbitrary parameters. [mesher.py:212-258, 676-703] -/
def bitsGeo (degenerate : BPoint → BPoint → BPoint → Bool)
    (triEqual : List BPoint → Elem → Elem → Option Bool)
    (triOutward lineOutward : List BPoint → List Elem → Bool) : Geo BPoint where
  trunc p := ⟨p.x.trunc, p.y.trunc, p.z.trunc⟩
  le := BPoint.le
  eq := BPoint.eq
  degenerate := degenerate
  triEqual := triEqual
  triOutward := triOutward
  lineOutward := lineOutward

end Traceon
