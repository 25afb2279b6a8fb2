import Mathlib.Analysis.SpecialFunctions.Sqrt
import Mathlib.Analysis.SpecialFunctions.Log.Basic
import Mathlib.Data.List.Forall2

/-!
# Floating point arithmetic (specification)

The standard model: the result of every operation differs from the exact one by at most the fraction `u` of it (`u = 2^-53` for doubles, as long as nothing overflows or underflows).
Every single operation may err differently; nothing else is assumed about the errors.
-/
namespace Traceon.Fp

/-- `y` is a rounded value of `x`. -/
def Rnd (u x y : ℝ) : Prop := |y - x| ≤ u * |x|

/-- Arithmetic expressions. `input` is a number that is given as a double, `const` a real constant such as π, that has to be rounded to a double. -/
inductive Expr
  | input (x : ℝ)
  | const (x : ℝ)
  | neg (a : Expr)
  | add (a b : Expr)
  | sub (a b : Expr)
  | mul (a b : Expr)
  | div (a b : Expr)
  | sqrt (a : Expr)
  | pow (a : Expr) (n : Nat)
  | log (a : Expr)

/-- The exact value. -/
noncomputable def Expr.value : Expr → ℝ
  | .input x => x
  | .const x => x
  | .neg a => -a.value
  | .add a b => a.value + b.value
  | .sub a b => a.value - b.value
  | .mul a b => a.value * b.value
  | .div a b => a.value / b.value
  | .sqrt a => Real.sqrt a.value
  | .pow a n => a.value ^ n
  | .log a => Real.log a.value

/-- The values that a machine may compute. A division by zero and the logarithm of a number that is not positive give none. Powers and logarithms may err twice
as much (one unit in the last place), whether they are computed by a library or, for third powers, by two products. Since
`Rnd u x x` holds, operations may also be exact, as within a fused multiply-add. -/
inductive Rounded (u : ℝ) : Expr → ℝ → Prop
  | input (x : ℝ) : Rounded u (.input x) x
  | const {x y : ℝ} (h : Rnd u x y) : Rounded u (.const x) y
  | neg {a : Expr} {x : ℝ} (ha : Rounded u a x) : Rounded u (.neg a) (-x)
  | add {a b : Expr} {x y z : ℝ} (ha : Rounded u a x) (hb : Rounded u b y) (h : Rnd u (x + y) z) : Rounded u (.add a b) z
  | sub {a b : Expr} {x y z : ℝ} (ha : Rounded u a x) (hb : Rounded u b y) (h : Rnd u (x - y) z) : Rounded u (.sub a b) z
  | mul {a b : Expr} {x y z : ℝ} (ha : Rounded u a x) (hb : Rounded u b y) (h : Rnd u (x * y) z) : Rounded u (.mul a b) z
  | div {a b : Expr} {x y z : ℝ} (ha : Rounded u a x) (hb : Rounded u b y) (hy : y ≠ 0) (h : Rnd u (x / y) z) : Rounded u (.div a b) z
  | sqrt {a : Expr} {x z : ℝ} (ha : Rounded u a x) (h : Rnd u (Real.sqrt x) z) : Rounded u (.sqrt a) z
  | pow {a : Expr} {n : Nat} {x w z : ℝ} (ha : Rounded u a x) (h : Rnd u (x ^ n) w) (h' : Rnd u w z) : Rounded u (.pow a n) z
  | log {a : Expr} {x w z : ℝ} (ha : Rounded u a x) (hx : 0 < x) (h : Rnd u (Real.log x) w) (h' : Rnd u w z) : Rounded u (.log a) z

/-- The values that may be computed for the sum of a list, adding in any order, where no number goes through more than `d` additions. For a loop that adds one number after the other to a variable that is zero in the
beginning, `d` is the length of the list; for sums that are formed separately and added in the end, as with vector instructions, it is less. -/
inductive AnySum (u : ℝ) : Nat → List ℝ → ℝ → Prop
  | zero : AnySum u 0 [] 0
  | one (x : ℝ) : AnySum u 0 [x] x
  | add {d e : Nat} {l m : List ℝ} {a b c : ℝ} (hl : AnySum u d l a) (hm : AnySum u e m b) (h : Rnd u (a + b) c) : AnySum u (max d e + 1) (l ++ m) c
  | perm {d : Nat} {l m : List ℝ} {a : ℝ} (h : AnySum u d l a) (hp : l.Perm m) : AnySum u d m a

/-- Sums of `m` rounding errors, as they are usually estimated. -/
noncomputable def gamma (u : ℝ) (m : Nat) : ℝ := m * u / (1 - m * u)

end Traceon.Fp
