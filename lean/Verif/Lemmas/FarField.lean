import Verif.Lemmas.Quadrature
import Verif.Lemmas.Legendre
import Mathlib.MeasureTheory.Integral.DominatedConvergence

/-!
# The error of the 12-point rule for functions close to a polynomial of degree 6
-/
namespace Traceon
open MeasureTheory intervalIntegral

theorem cont_inner {f : ℝ → ℝ → ℝ} (hf : Continuous (Function.uncurry f)) : Continuous fun v => ∫ u in (0 : ℝ)..(1 - v), f u v := by
  have := intervalIntegral.continuous_parametric_intervalIntegral_of_continuous (μ := volume) (a₀ := 0) (f := fun v u => f u v) (s := fun v : ℝ => 1 - v)
    (by exact hf.comp continuous_swap) (by fun_prop)
  exact this

theorem cont_slice {f : ℝ → ℝ → ℝ} (hf : Continuous (Function.uncurry f)) (v : ℝ) : Continuous fun u => f u v :=
  hf.comp (Continuous.prodMk continuous_id continuous_const)

theorem triInt_add {f g : ℝ → ℝ → ℝ} (hf : Continuous (Function.uncurry f)) (hg : Continuous (Function.uncurry g)) :
    triInt (fun u v => f u v + g u v) = triInt f + triInt g := by
  unfold triInt
  rw [← intervalIntegral.integral_add ((cont_inner hf).intervalIntegrable _ _) ((cont_inner hg).intervalIntegrable _ _)]
  congr 1
  funext v
  exact intervalIntegral.integral_add ((cont_slice hf v).intervalIntegrable _ _) ((cont_slice hg v).intervalIntegrable _ _)

theorem triInt_smul (a : ℝ) (f : ℝ → ℝ → ℝ) : triInt (fun u v => a * f u v) = a * triInt f := by
  unfold triInt
  rw [← intervalIntegral.integral_const_mul]
  congr 1
  funext v
  exact intervalIntegral.integral_const_mul _ _

theorem triInt_congr {f g : ℝ → ℝ → ℝ} (h : ∀ u v, 0 ≤ u → 0 ≤ v → u + v ≤ 1 → f u v = g u v) : triInt f = triInt g := by
  unfold triInt
  refine intervalIntegral.integral_congr fun v hv => ?_
  rw [Set.uIcc_of_le zero_le_one] at hv
  refine intervalIntegral.integral_congr fun u hu => ?_
  rw [Set.uIcc_of_le (by linarith [hv.2])] at hu
  exact h u v hu.1 hv.1 (by linarith [hu.2])

theorem triSum_congr {f g : ℝ → ℝ → ℝ} (h : ∀ u v, 0 ≤ u → 0 ≤ v → u + v ≤ 1 → f u v = g u v) : triSum f = triSum g := by
  unfold triSum
  congr 1
  refine List.map_congr_left fun q hq => ?_
  obtain ⟨_, h1, h2, h3⟩ := quad_nodes.1 q hq
  rw [h _ _ h1.le h2.le h3.le]

theorem abs_triInt_le {f : ℝ → ℝ → ℝ} {ε : ℝ} (h : ∀ u v, 0 ≤ u → 0 ≤ v → u + v ≤ 1 → |f u v| ≤ ε) : |triInt f| ≤ ε / 2 := by
  unfold triInt
  have h1 : ∀ v ∈ Set.Ioc (0 : ℝ) 1, ‖∫ u in (0 : ℝ)..(1 - v), f u v‖ ≤ ε * (1 - v) := by
    intro v hv
    have := intervalIntegral.norm_integral_le_of_norm_le_const (a := 0) (b := 1 - v) (f := fun u => f u v) (C := ε) (by
      intro u hu
      rw [Set.uIoc_of_le (by linarith [hv.2])] at hu
      exact h u v hu.1.le hv.1.le (by linarith [hu.2]))
    rwa [sub_zero, abs_of_nonneg (by linarith [hv.2])] at this
  have h2 := intervalIntegral.norm_integral_le_of_norm_le (μ := volume) zero_le_one (Filter.Eventually.of_forall h1)
    (Continuous.intervalIntegrable (by fun_prop) _ _)
  have h3 : ∫ v in (0 : ℝ)..1, ε * (1 - v) = ε / 2 := by
    rw [intervalIntegral.integral_const_mul, intervalIntegral.integral_sub (by simp) (by simp)]
    simp; ring
  rw [h3] at h2
  exact h2

/-- the error of the rule -/
noncomputable def triErr (f : ℝ → ℝ → ℝ) : ℝ := triSum f - triInt f

theorem triErr_add {f g : ℝ → ℝ → ℝ} (hf : Continuous (Function.uncurry f)) (hg : Continuous (Function.uncurry g)) :
    triErr (fun u v => f u v + g u v) = triErr f + triErr g := by
  unfold triErr; rw [triSum_add, triInt_add hf hg]; ring

theorem triErr_smul (a : ℝ) (f : ℝ → ℝ → ℝ) : triErr (fun u v => a * f u v) = a * triErr f := by
  unfold triErr; rw [triSum_smul, triInt_smul]; ring

/-- `f` is a polynomial of degree at most `m` whose coefficients, written out, are bounded by `B` in total. -/
inductive PolyBound : (ℝ → ℝ → ℝ) → ℕ → ℝ → Prop
  | const (a : ℝ) : PolyBound (fun _ _ => a) 0 |a|
  | lin {f : ℝ → ℝ → ℝ} {m : ℕ} {B : ℝ} (α β γ : ℝ) (h : PolyBound f m B) :
      PolyBound (fun u v => (α + β * u + γ * v) * f u v) (m + 1) ((|α| + |β| + |γ|) * B)
  | add {f g : ℝ → ℝ → ℝ} {m : ℕ} {B C : ℝ} (h : PolyBound f m B) (h' : PolyBound g m C) :
      PolyBound (fun u v => f u v + g u v) m (B + C)
  | mono {f : ℝ → ℝ → ℝ} {m n : ℕ} {B C : ℝ} (h : PolyBound f m B) (hm : m ≤ n) (hB : B ≤ C) : PolyBound f n C

namespace PolyBound

theorem congr {f g : ℝ → ℝ → ℝ} {m : ℕ} {B : ℝ} (h : PolyBound f m B) (e : ∀ u v, f u v = g u v) : PolyBound g m B := by
  have : f = g := by funext u v; exact e u v
  exact this ▸ h

theorem nonneg {f : ℝ → ℝ → ℝ} {m : ℕ} {B : ℝ} (h : PolyBound f m B) : 0 ≤ B := by
  induction h with
  | const a => exact abs_nonneg a
  | lin α β γ _ ih => positivity
  | add _ _ ih ih' => linarith
  | mono _ _ hB ih => linarith

theorem smul {f : ℝ → ℝ → ℝ} {m : ℕ} {B : ℝ} (a : ℝ) (h : PolyBound f m B) : PolyBound (fun u v => a * f u v) m (|a| * B) := by
  induction h with
  | const b => have := const (a * b); rwa [abs_mul] at this
  | lin α β γ _ ih => exact ((ih.lin α β γ).mono le_rfl (by apply le_of_eq; ring)).congr fun u v => by ring
  | add _ _ ih ih' => exact ((ih.add ih').mono le_rfl (by apply le_of_eq; ring)).congr fun u v => by ring
  | mono _ hm hB ih => exact ih.mono hm (mul_le_mul_of_nonneg_left hB (abs_nonneg a))

theorem mul {f g : ℝ → ℝ → ℝ} {m n : ℕ} {B C : ℝ} (h : PolyBound f m B) (h' : PolyBound g n C) :
    PolyBound (fun u v => f u v * g u v) (m + n) (B * C) := by
  induction h with
  | const a => exact (h'.smul a).mono (by omega) le_rfl
  | lin α β γ _ ih => exact ((ih.lin α β γ).mono (by omega) (by apply le_of_eq; ring)).congr fun u v => by ring
  | add _ _ ih ih' => exact ((ih.add ih').mono le_rfl (by apply le_of_eq; ring)).congr fun u v => by ring
  | mono _ hm hB ih => exact ih.mono (by omega) (mul_le_mul_of_nonneg_right hB h'.nonneg)

theorem pow {f : ℝ → ℝ → ℝ} {m : ℕ} {B : ℝ} (h : PolyBound f m B) (k : ℕ) : PolyBound (fun u v => f u v ^ k) (m * k) (B ^ k) := by
  induction k with
  | zero => exact ((const 1).mono (by omega) (by simp)).congr fun u v => by simp
  | succ k ih => exact ((ih.mul h).mono (by rw [Nat.mul_succ]) (by rw [pow_succ])).congr fun u v => by rw [pow_succ]

theorem linear (α β γ : ℝ) : PolyBound (fun u v => α + β * u + γ * v) 1 (|α| + |β| + |γ|) :=
  (((const 1).lin α β γ).mono (by omega) (by simp)).congr fun u v => by simp

theorem continuous {f : ℝ → ℝ → ℝ} {m : ℕ} {B : ℝ} (h : PolyBound f m B) : Continuous (Function.uncurry f) := by
  induction h with
  | const a => exact continuous_const
  | lin α β γ _ ih => exact Continuous.mul (f := fun z : ℝ × ℝ => α + β * z.1 + γ * z.2) (by fun_prop) ih
  | add _ _ ih ih' => exact ih.add ih'
  | mono _ _ _ ih => exact ih

theorem err_aux {f : ℝ → ℝ → ℝ} {m : ℕ} {B : ℝ} (h : PolyBound f m B) :
    ∀ i j, m + i + j ≤ 6 → |triErr (fun u v => f u v * (u ^ i * v ^ j))| ≤ B * (1 / 10 ^ 15) := by
  induction h with
  | const a =>
    intro i j hij
    rw [triErr_smul, abs_mul]
    exact mul_le_mul_of_nonneg_left (tri_moment i j (by omega)) (abs_nonneg a)
  | @lin f m B α β γ h ih =>
    intro i j hij
    have c : ∀ i j : ℕ, Continuous (Function.uncurry fun u v : ℝ => f u v * (u ^ i * v ^ j)) := fun i j =>
      Continuous.mul h.continuous (by exact (continuous_fst.pow i).mul (continuous_snd.pow j))
    have c' : ∀ (a : ℝ) (i j : ℕ), Continuous (Function.uncurry fun u v : ℝ => a * (f u v * (u ^ i * v ^ j))) := fun a i j =>
      continuous_const.mul (c i j)
    have e : (fun u v : ℝ => (α + β * u + γ * v) * f u v * (u ^ i * v ^ j)) = fun u v =>
        (α * (f u v * (u ^ i * v ^ j)) + β * (f u v * (u ^ (i + 1) * v ^ j))) + γ * (f u v * (u ^ i * v ^ (j + 1))) := by
      funext u v; ring
    rw [e, triErr_add (f := fun u v => α * (f u v * (u ^ i * v ^ j)) + β * (f u v * (u ^ (i + 1) * v ^ j))) ((c' α i j).add (c' β (i + 1) j)) (c' γ i (j + 1)),
      triErr_add (c' α i j) (c' β (i + 1) j), triErr_smul, triErr_smul, triErr_smul]
    have h1 := ih i j (by omega)
    have h2 := ih (i + 1) j (by omega)
    have h3 := ih i (j + 1) (by omega)
    calc _ ≤ |α * _| + |β * _| + |γ * _| := abs_add_three _ _ _
      _ = |α| * _ + |β| * _ + |γ| * _ := by rw [abs_mul, abs_mul, abs_mul]
      _ ≤ |α| * (B * (1 / 10 ^ 15)) + |β| * (B * (1 / 10 ^ 15)) + |γ| * (B * (1 / 10 ^ 15)) := by gcongr
      _ = _ := by ring
  | @add f g m B C h h' ih ih' =>
    intro i j hij
    have c : Continuous (Function.uncurry fun u v : ℝ => (u ^ i * v ^ j)) := (continuous_fst.pow i).mul (continuous_snd.pow j)
    have e : (fun u v : ℝ => (f u v + g u v) * (u ^ i * v ^ j)) = fun u v => f u v * (u ^ i * v ^ j) + g u v * (u ^ i * v ^ j) := by
      funext u v; ring
    rw [e, triErr_add (f := fun u v => f u v * (u ^ i * v ^ j)) (g := fun u v => g u v * (u ^ i * v ^ j)) (h.continuous.mul c) (h'.continuous.mul c)]
    refine (abs_add_le _ _).trans ?_
    have := ih i j hij; have := ih' i j hij
    linarith
  | mono _ hm hB ih =>
    intro i j hij
    refine (ih i j (by omega)).trans ?_
    gcongr

/-- The rule integrates polynomials up to degree 6, up to the rounding of the tables. -/
theorem err {f : ℝ → ℝ → ℝ} {B : ℝ} (h : PolyBound f 6 B) : |triErr f| ≤ B * (1 / 10 ^ 15) := by
  have := h.err_aux 0 0 (by omega)
  simpa using this

end PolyBound

/-- A function within `δ` of such a polynomial on the triangle. -/
theorem triErr_near {f P : ℝ → ℝ → ℝ} {B δ : ℝ} (hf : Continuous (Function.uncurry f)) (hP : PolyBound P 6 B)
    (h : ∀ u v, 0 ≤ u → 0 ≤ v → u + v ≤ 1 → |f u v - P u v| ≤ δ) : |triErr f| ≤ B * (1 / 10 ^ 15) + 1.000000000000001 * δ := by
  have c : Continuous (Function.uncurry fun u v => f u v - P u v) := hf.sub hP.continuous
  have e : f = fun u v => P u v + (f u v - P u v) := by funext u v; ring
  have h1 : triErr f = triErr P + triErr (fun u v => f u v - P u v) := by
    conv_lhs => rw [e]
    exact triErr_add hP.continuous c
  rw [h1]
  have h2 := hP.err
  have h3 := abs_triSum_le h
  have h4 := abs_triInt_le h
  have h5 : |triErr (fun u v => f u v - P u v)| ≤ 1.000000000000002 / 2 * δ + δ / 2 := by
    unfold triErr; exact (abs_sub _ _).trans (add_le_add h3 h4)
  refine (abs_add_le _ _).trans ?_
  norm_num at h5 ⊢
  linarith

end Traceon
