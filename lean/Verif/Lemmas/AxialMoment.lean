import Verif.Spec.Axial3D
import Verif.Lemmas.AxialTable
import Mathlib.Analysis.Calculus.IteratedDeriv.Lemmas
import Mathlib.Analysis.SpecialFunctions.Sqrt
import Mathlib.Analysis.Calculus.Deriv.Inv
import Mathlib.Analysis.Calculus.Deriv.Pow

/-!
# Derivatives of the powers of the distance to a point of the axis
-/
namespace Traceon
open Real Spec

/-- The distance of the charge to a point of the axis. -/
noncomputable def axR (ρ zq z : ℝ) : ℝ := √(ρ ^ 2 + (zq - z) ^ 2)

section
variable {ρ : ℝ} (hρ : 0 < ρ) (zq : ℝ)
include hρ

theorem axR_pos (z : ℝ) : 0 < axR ρ zq z := Real.sqrt_pos.2 (by positivity)

omit hρ in
theorem axR_sq (z : ℝ) : axR ρ zq z ^ 2 = ρ ^ 2 + (zq - z) ^ 2 := Real.sq_sqrt (by positivity)

theorem hasDerivAt_axR (z : ℝ) : HasDerivAt (axR ρ zq) (-(zq - z) / axR ρ zq z) z := by
  have h1 : HasDerivAt (fun z => ρ ^ 2 + (zq - z) ^ 2) (-(2 * (zq - z))) z := by
    have := (((hasDerivAt_id z).const_sub zq).pow 2).const_add (ρ ^ 2)
    refine this.congr_deriv ?_
    simp
  have := h1.sqrt (by positivity)
  refine this.congr_deriv ?_
  have hp := axR_pos hρ zq z
  unfold axR at hp ⊢
  field_simp

theorem hasDerivAt_axPow (j : ℕ) (z : ℝ) : HasDerivAt (fun z => 1 / axR ρ zq z ^ j) (j * (zq - z) / axR ρ zq z ^ (j + 2)) z := by
  have hp := (axR_pos hρ zq z).ne'
  have := ((hasDerivAt_axR hρ zq z).pow j).inv (pow_ne_zero j hp)
  simp only [one_div]
  refine this.congr_deriv ?_
  cases j with
  | zero => simp
  | succ j => simp only [Nat.add_sub_cancel, Pi.pow_apply]; field_simp; ring

theorem hasDerivAt_axPow' (j : ℕ) (z : ℝ) : HasDerivAt (fun z => j * (zq - z) / axR ρ zq z ^ (j + 2))
    (j * (j + 1) / axR ρ zq z ^ (j + 2) - j * (j + 2) * ρ ^ 2 / axR ρ zq z ^ (j + 4)) z := by
  have hp := (axR_pos hρ zq z).ne'
  have h1 : HasDerivAt (fun z => (j : ℝ) * (zq - z)) (-(j : ℝ)) z := by
    refine (((hasDerivAt_id z).const_sub zq).const_mul (j : ℝ)).congr_deriv ?_
    ring
  have := h1.mul (hasDerivAt_axPow hρ zq (j + 2) z)
  have e : (fun z => j * (zq - z) / axR ρ zq z ^ (j + 2)) = fun z => (j : ℝ) * (zq - z) * (1 / axR ρ zq z ^ (j + 2)) := by funext z; ring
  rw [e]
  refine this.congr_deriv ?_
  have h2 := axR_sq (ρ := ρ) zq z
  have h3 : (zq - z) * (zq - z) = axR ρ zq z ^ 2 - ρ ^ 2 := by rw [h2]; ring
  push_cast
  have e1 : axR ρ zq z ^ (j + 2 + 2) = axR ρ zq z ^ (j + 2) * axR ρ zq z ^ 2 := by ring
  have e3 : (j : ℝ) * (zq - z) * ((↑j + 2) * (zq - z) / axR ρ zq z ^ (j + 2 + 2)) = j * (j + 2) * ((zq - z) * (zq - z)) / axR ρ zq z ^ (j + 2 + 2) := by ring
  rw [e3, h3, e1]
  field_simp
  ring

end

/-- A sum of powers of the distance. -/
noncomputable def axComb (ρ zq : ℝ) (cs : List (ℝ × ℕ)) (z : ℝ) : ℝ := (cs.map fun c => c.1 * (1 / axR ρ zq z ^ c.2)).sum

/-- Its second derivative. -/
noncomputable def axStep (ρ : ℝ) (cs : List (ℝ × ℕ)) : List (ℝ × ℕ) :=
  cs.flatMap fun c => [(c.1 * (c.2 * (c.2 + 1)), c.2 + 2), (-(c.1 * (c.2 * (c.2 + 2) * ρ ^ 2)), c.2 + 4)]

section
variable {ρ : ℝ} (hρ : 0 < ρ) (zq : ℝ)
include hρ

theorem hasDerivAt_axComb (cs : List (ℝ × ℕ)) (z : ℝ) :
    HasDerivAt (axComb ρ zq cs) ((cs.map fun c => c.1 * (c.2 * (zq - z) / axR ρ zq z ^ (c.2 + 2))).sum) z := by
  induction cs with
  | nil => exact hasDerivAt_const z (0 : ℝ)
  | cons c cs ih =>
    have := ((hasDerivAt_axPow hρ zq c.2 z).const_mul c.1).add ih
    exact this

theorem hasDerivAt_axComb' (cs : List (ℝ × ℕ)) (z : ℝ) :
    HasDerivAt (fun z => (cs.map fun c => c.1 * (c.2 * (zq - z) / axR ρ zq z ^ (c.2 + 2))).sum) (axComb ρ zq (axStep ρ cs) z) z := by
  induction cs with
  | nil => exact hasDerivAt_const z (0 : ℝ)
  | cons c cs ih =>
    have := ((hasDerivAt_axPow' hρ zq c.2 z).const_mul c.1).add ih
    simp only [List.map_cons, List.sum_cons]
    refine this.congr_deriv ?_
    simp only [axComb, axStep, List.flatMap_cons, List.map_append, List.sum_append, List.map_cons, List.map_nil, List.sum_cons, List.sum_nil]
    ring

theorem iteratedDeriv_axComb (cs : List (ℝ × ℕ)) (ν : ℕ) : iteratedDeriv (2 * ν) (axComb ρ zq cs) = axComb ρ zq ((axStep ρ)^[ν] cs) := by
  induction ν with
  | zero => simp
  | succ ν ih =>
    rw [show 2 * (ν + 1) = 2 * ν + 1 + 1 by ring, iteratedDeriv_succ, iteratedDeriv_succ, ih, Function.iterate_succ_apply']
    have e1 : deriv (axComb ρ zq ((axStep ρ)^[ν] cs)) = fun z => (((axStep ρ)^[ν] cs).map fun c => c.1 * (c.2 * (zq - z) / axR ρ zq z ^ (c.2 + 2))).sum :=
      funext fun z => (hasDerivAt_axComb hρ zq _ z).deriv
    rw [e1]
    exact funext fun z => (hasDerivAt_axComb' hρ zq _ z).deriv

/-- The terms of the expansion. -/
theorem harmonicTerm_moment {ν m : ℕ} (hn : ν < 4) (hm : m < 8) (z : ℝ) :
    harmonicTerm m ν (axialMoment m ρ zq) z = axisPoly ν m (ρ / axR ρ zq z) / (4 * π * axR ρ zq z ^ (2 * ν + 1 + m)) := by
  have hR := axR_pos hρ zq z
  have hpi := Real.pi_pos
  have e : axialMoment m ρ zq = axComb ρ zq [((if m = 0 then 1 else 2) * ((2 * m).factorial : ℝ) / (4 ^ m * (m.factorial : ℝ) ^ 2) * ρ ^ m / (4 * π), 2 * m + 1)] := by
    funext z
    have : √(ρ ^ 2 + (zq - z) ^ 2) = axR ρ zq z := rfl
    simp only [axialMoment, axComb, List.map_cons, List.map_nil, List.sum_cons, List.sum_nil, add_zero, this]
    rw [div_mul_div_comm, mul_one]
  unfold harmonicTerm
  rw [e, iteratedDeriv_axComb hρ]
  interval_cases ν <;> interval_cases m <;>
    simp only [axStep, axComb, axisPoly, Function.iterate_succ, Function.iterate_zero, Function.comp, id, List.flatMap_cons, List.flatMap_nil, List.cons_append, List.nil_append,
      List.map_cons, List.map_nil, List.sum_cons, List.sum_nil, Nat.factorial, if_true, one_ne_zero, OfNat.ofNat_ne_zero, if_false] <;>
    generalize axR ρ zq z = R at hR <;> push_cast <;> field_simp <;> ring

end
end Traceon
