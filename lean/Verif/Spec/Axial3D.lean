import Verif.Model.Vec
import Mathlib.Analysis.SpecialFunctions.Trigonometric.Basic
import Mathlib.Analysis.Calculus.IteratedDeriv.Defs

/-!
# Expansions around the axis (specification)
-/
namespace Traceon.Spec

/-- The point with the cylindrical coordinates `r`, `φ`, `z`. -/
noncomputable def cyl (r φ z : ℝ) : V3 := ⟨r * Real.cos φ, r * Real.sin φ, z⟩

/-- The potential of a unit charge at `cyl ρ μ zq`, near the axis, is to lowest order in the distance `r` to the axis the sum over `m` of
`r^m cos (m (φ - μ))` times this function of the position `z` on the axis. -/
noncomputable def axialMoment (m : ℕ) (ρ zq z : ℝ) : ℝ :=
  (if m = 0 then 1 else 2) * ((2 * m).factorial : ℝ) / (4 ^ m * (m.factorial : ℝ) ^ 2) * ρ ^ m / (4 * Real.pi * Real.sqrt (ρ ^ 2 + (zq - z) ^ 2) ^ (2 * m + 1))

/-- The factor of `r^(m + 2ν) cos (m φ)` in the solution of the equation of Laplace that is `f(z) r^m cos (m φ)` to lowest order. -/
noncomputable def harmonicTerm (m ν : ℕ) (f : ℝ → ℝ) (z : ℝ) : ℝ :=
  (-1) ^ ν * (m.factorial : ℝ) / (4 ^ ν * (ν.factorial : ℝ) * ((ν + m).factorial : ℝ)) * iteratedDeriv (2 * ν) f z

end Traceon.Spec
