import Verif.Props.Focus
import Mathlib.Analysis.InnerProductSpace.PiL2
import Mathlib.Topology.Algebra.Module.FiniteDimension
import Mathlib.Topology.MetricSpace.HausdorffDistance

/-! The specification of `np.linalg.lstsq` can be met. -/
namespace Traceon
open Spec

/-- The residuals as a linear function plus a constant. -/
noncomputable def lsMap (rows : List LinRow) : EuclideanSpace ℝ (Fin 3) →ₗ[ℝ] EuclideanSpace ℝ (Fin rows.length) where
  toFun u := WithLp.toLp 2 fun i => rows[i].c0 * u 0 + rows[i].c1 * u 1 + rows[i].c2 * u 2
  map_add' u v := by ext i; simp; ring
  map_smul' c u := by ext i; simp; ring

noncomputable def lsRhs (rows : List LinRow) : EuclideanSpace ℝ (Fin rows.length) := WithLp.toLp 2 fun i => rows[i].rhs

theorem sumSqResidual_eq (rows : List LinRow) (u : EuclideanSpace ℝ (Fin 3)) :
    sumSqResidual rows (u 0, u 1, u 2) = ‖lsMap rows u - lsRhs rows‖ ^ 2 := by
  rw [EuclideanSpace.norm_sq_eq]
  simp only [lsMap, lsRhs, sumSqResidual, LinearMap.coe_mk, AddHom.coe_mk, PiLp.sub_apply, Real.norm_eq_abs, sq_abs]
  rw [← List.sum_ofFn]
  congr 1
  apply List.ext_getElem
  · simp
  · intro i h1 h2
    simp

/-- For every system there is a vector with the least sum of squares of residuals, and one of least norm among these. -/
theorem exists_lstsq : ∃ lstsq : List LinRow → ℝ × ℝ × ℝ, IsLstsq lstsq := by
  have key : ∀ rows : List LinRow, ∃ w : ℝ × ℝ × ℝ, (∀ u, sumSqResidual rows w ≤ sumSqResidual rows u) ∧
      ∀ u : ℝ × ℝ × ℝ, (∀ v, sumSqResidual rows u ≤ sumSqResidual rows v) →
        w.1 ^ 2 + w.2.1 ^ 2 + w.2.2 ^ 2 ≤ u.1 ^ 2 + u.2.1 ^ 2 + u.2.2 ^ 2 := by
    intro rows
    have back : ∀ u : ℝ × ℝ × ℝ, ∃ e : EuclideanSpace ℝ (Fin 3), (e 0, e 1, e 2) = u :=
      fun u => ⟨WithLp.toLp 2 ![u.1, u.2.1, u.2.2], by simp⟩
    let R := LinearMap.range (lsMap rows)
    have hclosed : IsClosed (R : Set (EuclideanSpace ℝ (Fin rows.length))) := Submodule.closed_of_finiteDimensional R
    obtain ⟨y, ⟨m, rfl⟩, hy⟩ := hclosed.exists_infDist_eq_dist ⟨0, R.zero_mem⟩ (lsRhs rows)
    have hm : ∀ e, ‖lsMap rows m - lsRhs rows‖ ≤ ‖lsMap rows e - lsRhs rows‖ := by
      intro e
      have := Metric.infDist_le_dist_of_mem (x := lsRhs rows) (show lsMap rows e ∈ (R : Set _) from ⟨e, rfl⟩)
      rw [hy, dist_comm, dist_eq_norm, dist_comm, dist_eq_norm] at this
      exact this
    let S : Set (EuclideanSpace ℝ (Fin 3)) := {e | ‖lsMap rows e - lsRhs rows‖ ≤ ‖lsMap rows m - lsRhs rows‖}
    have hS : IsClosed S := by
      have hc : Continuous (lsMap rows) := LinearMap.continuous_of_finiteDimensional _
      exact isClosed_le ((hc.sub continuous_const).norm) continuous_const
    obtain ⟨w, hw, hw'⟩ := hS.exists_infDist_eq_dist ⟨m, show ‖lsMap rows m - lsRhs rows‖ ≤ ‖lsMap rows m - lsRhs rows‖ from le_refl _⟩ 0
    refine ⟨(w 0, w 1, w 2), ?_, ?_⟩
    · intro u
      obtain ⟨e, rfl⟩ := back u
      rw [sumSqResidual_eq, sumSqResidual_eq]
      have := le_trans hw (hm e)
      gcongr
    · intro u hu
      obtain ⟨e, rfl⟩ := back u
      have heS : e ∈ S := by
        have := hu (m 0, m 1, m 2)
        rw [sumSqResidual_eq, sumSqResidual_eq] at this
        exact (sq_le_sq₀ (norm_nonneg _) (norm_nonneg _)).1 this
      have := Metric.infDist_le_dist_of_mem (x := (0 : EuclideanSpace ℝ (Fin 3))) heS
      rw [hw', dist_zero_left, dist_zero_left] at this
      have := (sq_le_sq₀ (norm_nonneg _) (norm_nonneg _)).2 this
      rw [EuclideanSpace.norm_sq_eq, EuclideanSpace.norm_sq_eq] at this
      simp only [Fin.sum_univ_three, Real.norm_eq_abs, sq_abs] at this
      exact this
  choose f hf using key
  exact ⟨f, fun rows u => (hf rows).1 u, fun rows u => (hf rows).2 u⟩

end Traceon
