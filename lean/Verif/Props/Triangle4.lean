import Verif.Props.Triangle3
import Mathlib.MeasureTheory.Measure.Lebesgue.EqHaar
import Mathlib.MeasureTheory.Integral.Prod
import Mathlib.LinearAlgebra.Matrix.ToLin

/-!
# A triangle cut into three triangles around an interior point
-/
namespace Traceon
open Spec V3 MeasureTheory
open scoped ENNReal

/-- The parameters of the points of a triangle (up to its boundary). -/
def paramSet : Set (ℝ × ℝ) := {z | 0 ≤ z.1 ∧ 0 < z.2 ∧ z.1 + z.2 < 1}

/-- The interior. -/
def paramInt : Set (ℝ × ℝ) := {z | 0 < z.1 ∧ 0 < z.2 ∧ z.1 + z.2 < 1}

theorem measurableSet_paramSet : MeasurableSet paramSet := by
  refine (measurableSet_le measurable_const measurable_fst).inter
    ((measurableSet_lt measurable_const measurable_snd).inter
      (measurableSet_lt (measurable_fst.add measurable_snd) measurable_const))

/-- Integrals over a triangle as integrals over the plane of the parameters. -/
theorem iterated_eq_lintegral {H : ℝ → ℝ → ℝ} (hm : Measurable fun z : ℝ × ℝ => H z.1 z.2) (hpos : ∀ u v, 0 ≤ H u v)
    {bad : ℝ} (hint : ∀ v, 0 < v → v < 1 → v ≠ bad → IntervalIntegrable (fun u => H u v) volume 0 (1 - v)) :
    ∫ v in (0 : ℝ)..1, ∫ u in (0 : ℝ)..(1 - v), H u v =
      (∫⁻ z : ℝ × ℝ, paramSet.indicator (fun z => ENNReal.ofReal (H z.1 z.2)) z).toReal := by
  have hm' : Measurable fun z : ℝ × ℝ => paramSet.indicator (fun z => ENNReal.ofReal (H z.1 z.2)) z :=
    (ENNReal.measurable_ofReal.comp hm).indicator measurableSet_paramSet
  have sections : ∀ v, v ≠ bad → v ≠ 1 → (∫⁻ u, paramSet.indicator (fun z => ENNReal.ofReal (H z.1 z.2)) (u, v)) =
      (Set.Ioc (0 : ℝ) 1).indicator (fun v => ENNReal.ofReal (∫ u in (0 : ℝ)..(1 - v), H u v)) v := by
    intro v hbad hone
    by_cases hv : v ∈ Set.Ioc (0 : ℝ) 1
    · rw [Set.indicator_of_mem hv]
      have hv1 : v < 1 := lt_of_le_of_ne hv.2 hone
      have hi := hint v hv.1 hv1 hbad
      rw [intervalIntegral.integral_of_le (by linarith), ofReal_integral_eq_lintegral_ofReal
        ((intervalIntegrable_iff_integrableOn_Ioc_of_le (by linarith)).1 hi) (Filter.Eventually.of_forall fun u => hpos u v)]
      have e1 : (fun u => paramSet.indicator (fun z : ℝ × ℝ => ENNReal.ofReal (H z.1 z.2)) (u, v)) =
          (Set.Ico 0 (1 - v)).indicator fun u => ENNReal.ofReal (H u v) := by
        funext u
        by_cases hu : u ∈ Set.Ico 0 (1 - v)
        · rw [Set.indicator_of_mem hu, Set.indicator_of_mem]
          exact ⟨hu.1, hv.1, by have := hu.2; simp only; linarith⟩
        · rw [Set.indicator_of_notMem hu, Set.indicator_of_notMem]
          intro h
          exact hu ⟨h.1, by have := h.2.2; simp only at this; linarith⟩
      rw [e1, lintegral_indicator measurableSet_Ico]
      exact setLIntegral_congr Ico_ae_eq_Ioc
    · rw [Set.indicator_of_notMem hv]
      have e1 : (fun u => paramSet.indicator (fun z : ℝ × ℝ => ENNReal.ofReal (H z.1 z.2)) (u, v)) = fun _ => 0 := by
        funext u
        apply Set.indicator_of_notMem
        intro h
        exact hv ⟨h.2.1, by have h1 := h.1; have h2 := h.2.2; simp only at h1 h2; linarith⟩
      rw [e1, lintegral_zero]
  have hae : (fun v => ∫⁻ u, paramSet.indicator (fun z => ENNReal.ofReal (H z.1 z.2)) (u, v)) =ᵐ[volume]
      (Set.Ioc (0 : ℝ) 1).indicator (fun v => ENNReal.ofReal (∫ u in (0 : ℝ)..(1 - v), H u v)) := by
    have n1 : ∀ᵐ v : ℝ, v ≠ bad := by
      rw [ae_iff]; simp
    have n2 : ∀ᵐ v : ℝ, v ≠ 1 := by
      rw [ae_iff]; simp
    filter_upwards [n1, n2] with v h1 h2 using sections v h1 h2
  have meas : Measurable fun v => ∫⁻ u, paramSet.indicator (fun z => ENNReal.ofReal (H z.1 z.2)) (u, v) :=
    hm'.lintegral_prod_left'
  have gnn : ∀ v ∈ Set.Ioc (0 : ℝ) 1, 0 ≤ ∫ u in (0 : ℝ)..(1 - v), H u v := fun v hv =>
    intervalIntegral.integral_nonneg (by linarith [hv.2]) fun u _ => hpos u v
  have gae : (fun v => ∫ u in (0 : ℝ)..(1 - v), H u v) =ᵐ[volume.restrict (Set.Ioc 0 1)]
      fun v => (∫⁻ u, paramSet.indicator (fun z => ENNReal.ofReal (H z.1 z.2)) (u, v)).toReal := by
    filter_upwards [ae_restrict_of_ae hae, ae_restrict_mem measurableSet_Ioc] with v h1 h2
    rw [h1, Set.indicator_of_mem h2, ENNReal.toReal_ofReal (gnn v h2)]
  rw [intervalIntegral.integral_of_le zero_le_one, integral_eq_lintegral_of_nonneg_ae]
  · congr 1
    change _ = ∫⁻ z, _ ∂((volume : Measure ℝ).prod volume)
    rw [lintegral_prod_symm' _ hm', lintegral_congr_ae hae, lintegral_indicator measurableSet_Ioc]
  · filter_upwards [ae_restrict_mem measurableSet_Ioc] with v hv using gnn v hv
  · exact (meas.ennreal_toReal.aestronglyMeasurable).congr gae.symm

theorem plane_haar : Measure.IsAddHaarMeasure (volume : Measure (ℝ × ℝ)) := Measure.prod.instIsAddHaarMeasure _ _

/-- Affine substitution in the plane. -/
theorem lintegral_affine (p q r : ℝ × ℝ) {d : ℝ}
    (hd : d = (q.1 - p.1) * (r.2 - p.2) - (q.2 - p.2) * (r.1 - p.1)) (hpos : 0 < d) {f : ℝ × ℝ → ℝ≥0∞} (hf : Measurable f) :
    ∫⁻ z, f z = ENNReal.ofReal d *
      ∫⁻ z : ℝ × ℝ, f (p.1 + z.1 * (q.1 - p.1) + z.2 * (r.1 - p.1), p.2 + z.1 * (q.2 - p.2) + z.2 * (r.2 - p.2)) := by
  let A : (ℝ × ℝ) →ₗ[ℝ] ℝ × ℝ := Matrix.toLin (Module.Basis.finTwoProd ℝ) (Module.Basis.finTwoProd ℝ)
    !![q.1 - p.1, r.1 - p.1; q.2 - p.2, r.2 - p.2]
  have hdet : LinearMap.det A = d := by
    rw [LinearMap.det_toLin, Matrix.det_fin_two_of, hd]; ring
  have hA : ∀ z, A z = ((q.1 - p.1) * z.1 + (r.1 - p.1) * z.2, (q.2 - p.2) * z.1 + (r.2 - p.2) * z.2) := by
    intro z
    simp only [A]
    exact Matrix.toLin_finTwoProd_apply _ _ _ _ _
  have hmapm : Measurable A := (LinearMap.continuous_of_finiteDimensional A).measurable
  have h1 : ∫⁻ z : ℝ × ℝ, f (p.1 + z.1 * (q.1 - p.1) + z.2 * (r.1 - p.1), p.2 + z.1 * (q.2 - p.2) + z.2 * (r.2 - p.2)) =
      ∫⁻ z, f (A z + p) := by
    congr 1
    funext z
    rw [hA]
    congr 1
    ext <;> simp <;> ring
  have h2 : ∫⁻ z, f (A z + p) = ∫⁻ y, f (y + p) ∂(Measure.map A volume) := by
    rw [lintegral_map (by fun_prop) hmapm]
  haveI := plane_haar
  have hne : LinearMap.det A ≠ 0 := by rw [hdet]; exact hpos.ne'
  rw [h1, h2, Measure.map_linearMap_addHaar_eq_smul_addHaar volume hne, lintegral_smul_measure,
    lintegral_add_right_eq_self (fun y => f y) p, hdet, smul_eq_mul, ← mul_assoc, abs_of_pos (by positivity),
    ← ENNReal.ofReal_mul hpos.le, mul_inv_cancel₀ hpos.ne', ENNReal.ofReal_one, one_mul]

/-- The interior of the parameter triangle, cut around an interior point `(l, m)`. -/
theorem param_cut {l m : ℝ} (hl : 0 < l) (hm : 0 < m) (hlm : l + m < 1) {G : ℝ × ℝ → ℝ≥0∞} (hG : Measurable G) :
    ∫⁻ z, paramInt.indicator G z =
      ENNReal.ofReal m * (∫⁻ z : ℝ × ℝ, paramSet.indicator (fun z => G (l + z.1 * (0 - l) + z.2 * (1 - l), m + z.1 * (0 - m) + z.2 * (0 - m))) z) +
      ENNReal.ofReal (1 - l - m) * (∫⁻ z : ℝ × ℝ, paramSet.indicator (fun z => G (l + z.1 * (1 - l) + z.2 * (0 - l), m + z.1 * (0 - m) + z.2 * (1 - m))) z) +
      ENNReal.ofReal l * (∫⁻ z : ℝ × ℝ, paramSet.indicator (fun z => G (l + z.1 * (0 - l) + z.2 * (0 - l), m + z.1 * (1 - m) + z.2 * (0 - m))) z) := by
  have hn : 0 < 1 - l - m := by linarith
  -- the three parts
  let t01 : Set (ℝ × ℝ) := paramInt ∩ {z | z.2 / m ≤ (1 - z.1 - z.2) / (1 - l - m) ∧ z.2 / m < z.1 / l}
  let t12 : Set (ℝ × ℝ) := paramInt ∩ {z | (1 - z.1 - z.2) / (1 - l - m) ≤ z.1 / l ∧ (1 - z.1 - z.2) / (1 - l - m) < z.2 / m}
  let t20 : Set (ℝ × ℝ) := paramInt ∩ {z | z.1 / l ≤ z.2 / m ∧ z.1 / l < (1 - z.1 - z.2) / (1 - l - m)}
  have mInt : MeasurableSet paramInt := (measurableSet_lt measurable_const measurable_fst).inter
    ((measurableSet_lt measurable_const measurable_snd).inter
      (measurableSet_lt (measurable_fst.add measurable_snd) measurable_const))
  have f0 : Measurable fun z : ℝ × ℝ => (1 - z.1 - z.2) / (1 - l - m) := by fun_prop
  have f1 : Measurable fun z : ℝ × ℝ => z.1 / l := by fun_prop
  have f2 : Measurable fun z : ℝ × ℝ => z.2 / m := by fun_prop
  have m01 : MeasurableSet t01 := mInt.inter ((measurableSet_le f2 f0).inter (measurableSet_lt f2 f1))
  have m12 : MeasurableSet t12 := mInt.inter ((measurableSet_le f0 f1).inter (measurableSet_lt f0 f2))
  have m20 : MeasurableSet t20 := mInt.inter ((measurableSet_le f1 f2).inter (measurableSet_lt f1 f0))
  have split : ∀ z : ℝ × ℝ, z ≠ (l, m) → paramInt.indicator G z = t01.indicator G z + t12.indicator G z + t20.indicator G z := by
    intro z hz
    by_cases hi : z ∈ paramInt
    · rw [Set.indicator_of_mem hi]
      have hne : ¬ (z.1 / l = z.2 / m ∧ z.2 / m = (1 - z.1 - z.2) / (1 - l - m)) := by
        rintro ⟨h1, h2⟩
        apply hz
        rw [div_eq_div_iff hl.ne' hm.ne'] at h1
        rw [div_eq_div_iff hm.ne' hn.ne'] at h2
        have e2 : z.2 = m := by linarith
        have e1 : z.1 = l := by
          rw [e2] at h1
          have : z.1 * m = l * m := by linarith
          exact mul_right_cancel₀ hm.ne' this
        exact Prod.ext e1 e2
      set α0 := (1 - z.1 - z.2) / (1 - l - m) with hα0
      set α1 := z.1 / l with hα1
      set α2 := z.2 / m with hα2
      have i01 : z ∈ t01 ↔ α2 ≤ α0 ∧ α2 < α1 := ⟨fun h => h.2, fun h => ⟨hi, h⟩⟩
      have i12 : z ∈ t12 ↔ α0 ≤ α1 ∧ α0 < α2 := ⟨fun h => h.2, fun h => ⟨hi, h⟩⟩
      have i20 : z ∈ t20 ↔ α1 ≤ α2 ∧ α1 < α0 := ⟨fun h => h.2, fun h => ⟨hi, h⟩⟩
      by_cases c01 : α2 ≤ α0 ∧ α2 < α1
      · rw [Set.indicator_of_mem (i01.2 c01), Set.indicator_of_notMem, Set.indicator_of_notMem]
        · simp
        · rw [i20]; rintro ⟨h1, h2⟩; linarith [c01.2]
        · rw [i12]; rintro ⟨h1, h2⟩; linarith [c01.1]
      by_cases c12 : α0 ≤ α1 ∧ α0 < α2
      · rw [Set.indicator_of_notMem (fun h => c01 (i01.1 h)), Set.indicator_of_mem (i12.2 c12), Set.indicator_of_notMem]
        · simp
        · rw [i20]; rintro ⟨h1, h2⟩; linarith [c12.1]
      · have c20 : α1 ≤ α2 ∧ α1 < α0 := by
          by_contra c20
          rw [not_and_or, not_le, not_lt] at c01 c12 c20
          apply hne
          rcases c01 with c01 | c01 <;> rcases c12 with c12 | c12 <;> rcases c20 with c20 | c20 <;>
            first
            | (exfalso; linarith)
            | exact ⟨by linarith, by linarith⟩
        rw [Set.indicator_of_notMem (fun h => c01 (i01.1 h)), Set.indicator_of_notMem (fun h => c12 (i12.1 h)),
          Set.indicator_of_mem (i20.2 c20)]
        simp
    · rw [Set.indicator_of_notMem hi, Set.indicator_of_notMem (fun h => hi h.1), Set.indicator_of_notMem (fun h => hi h.1),
        Set.indicator_of_notMem (fun h => hi h.1)]
      simp
  have hae : (fun z => paramInt.indicator G z) =ᵐ[volume] fun z => t01.indicator G z + t12.indicator G z + t20.indicator G z := by
    haveI := plane_haar
    have : ∀ᵐ z : ℝ × ℝ, z ≠ (l, m) := by
      rw [ae_iff]; simp
    filter_upwards [this] with z hz using split z hz
  rw [lintegral_congr_ae hae, lintegral_add_right _ (hG.indicator m20), lintegral_add_right _ (hG.indicator m12)]
  congr 1
  · congr 1
    · rw [lintegral_affine (l, m) (0, 0) (1, 0) (d := m) (by simp; ring) hm (hG.indicator m01)]
      congr 1
      refine lintegral_congr fun z => ?_
      have e : ((l + z.1 * (0 - l) + z.2 * (1 - l), m + z.1 * (0 - m) + z.2 * (0 - m)) : ℝ × ℝ) ∈ t01 ↔ z ∈ paramSet := by
        have k2 : (m + z.1 * (0 - m) + z.2 * (0 - m)) / m = 1 - z.1 - z.2 := by field_simp; ring
        have k1 : (l + z.1 * (0 - l) + z.2 * (1 - l)) / l = 1 - z.1 - z.2 + z.2 / l := by field_simp; ring
        have k0 : (1 - (l + z.1 * (0 - l) + z.2 * (1 - l)) - (m + z.1 * (0 - m) + z.2 * (0 - m))) / (1 - l - m) =
            1 - z.1 - z.2 + z.1 / (1 - l - m) := by field_simp; ring
        simp only [t01, paramInt, paramSet, Set.mem_inter_iff, Set.mem_ofPred_eq, k0, k1, k2]
        constructor
        · rintro ⟨⟨h1, h2, h3⟩, h4, h5⟩
          have h2' : 0 < m * (1 - z.1 - z.2) := by linarith
          have h2'' := pos_of_mul_pos_right h2' hm.le
          have h4' : 0 ≤ z.1 / (1 - l - m) := by linarith
          have h5' : 0 < z.2 / l := by linarith
          rw [le_div_iff₀ hn] at h4'
          rw [lt_div_iff₀ hl] at h5'
          exact ⟨by linarith, by linarith, by linarith⟩
        · rintro ⟨h1, h2, h3⟩
          have r0 : 0 < 1 - z.1 - z.2 := by linarith
          have r1 := mul_pos hl r0
          have r2 := mul_pos hm r0
          have r3 := mul_pos hn r0
          refine ⟨⟨by linarith, by linarith, by linarith⟩, ?_, ?_⟩
          · have : 0 ≤ z.1 / (1 - l - m) := by positivity
            linarith
          · have : 0 < z.2 / l := by positivity
            linarith
      by_cases hz : z ∈ paramSet
      · rw [Set.indicator_of_mem hz, Set.indicator_of_mem (e.2 hz)]
      · rw [Set.indicator_of_notMem hz, Set.indicator_of_notMem (fun h => hz (e.1 h))]
    · rw [lintegral_affine (l, m) (1, 0) (0, 1) (d := 1 - l - m) (by simp; ring) hn (hG.indicator m12)]
      congr 1
      refine lintegral_congr fun z => ?_
      have e : ((l + z.1 * (1 - l) + z.2 * (0 - l), m + z.1 * (0 - m) + z.2 * (1 - m)) : ℝ × ℝ) ∈ t12 ↔ z ∈ paramSet := by
        have k2 : (m + z.1 * (0 - m) + z.2 * (1 - m)) / m = 1 - z.1 - z.2 + z.2 / m := by field_simp; ring
        have k1 : (l + z.1 * (1 - l) + z.2 * (0 - l)) / l = 1 - z.1 - z.2 + z.1 / l := by field_simp; ring
        have k0 : (1 - (l + z.1 * (1 - l) + z.2 * (0 - l)) - (m + z.1 * (0 - m) + z.2 * (1 - m))) / (1 - l - m) =
            1 - z.1 - z.2 := by field_simp; ring
        simp only [t12, paramInt, paramSet, Set.mem_inter_iff, Set.mem_ofPred_eq, k0, k1, k2]
        constructor
        · rintro ⟨⟨h1, h2, h3⟩, h4, h5⟩
          have h2' : 0 < (1 - l - m) * (1 - z.1 - z.2) := by linarith
          have h2'' := pos_of_mul_pos_right h2' hn.le
          have h4' : 0 ≤ z.1 / l := by linarith
          have h5' : 0 < z.2 / m := by linarith
          rw [le_div_iff₀ hl] at h4'
          rw [lt_div_iff₀ hm] at h5'
          exact ⟨by linarith, by linarith, by linarith⟩
        · rintro ⟨h1, h2, h3⟩
          have r0 : 0 < 1 - z.1 - z.2 := by linarith
          have r1 := mul_pos hl r0
          have r2 := mul_pos hm r0
          have r3 := mul_pos hn r0
          refine ⟨⟨by linarith, by linarith, by linarith⟩, ?_, ?_⟩
          · have : 0 ≤ z.1 / l := by positivity
            linarith
          · have : 0 < z.2 / m := by positivity
            linarith
      by_cases hz : z ∈ paramSet
      · rw [Set.indicator_of_mem hz, Set.indicator_of_mem (e.2 hz)]
      · rw [Set.indicator_of_notMem hz, Set.indicator_of_notMem (fun h => hz (e.1 h))]
  · rw [lintegral_affine (l, m) (0, 1) (0, 0) (d := l) (by simp; ring) hl (hG.indicator m20)]
    congr 1
    refine lintegral_congr fun z => ?_
    have e : ((l + z.1 * (0 - l) + z.2 * (0 - l), m + z.1 * (1 - m) + z.2 * (0 - m)) : ℝ × ℝ) ∈ t20 ↔ z ∈ paramSet := by
      have k2 : (m + z.1 * (1 - m) + z.2 * (0 - m)) / m = 1 - z.1 - z.2 + z.1 / m := by field_simp; ring
      have k1 : (l + z.1 * (0 - l) + z.2 * (0 - l)) / l = 1 - z.1 - z.2 := by field_simp; ring
      have k0 : (1 - (l + z.1 * (0 - l) + z.2 * (0 - l)) - (m + z.1 * (1 - m) + z.2 * (0 - m))) / (1 - l - m) =
          1 - z.1 - z.2 + z.2 / (1 - l - m) := by field_simp; ring
      simp only [t20, paramInt, paramSet, Set.mem_inter_iff, Set.mem_ofPred_eq, k0, k1, k2]
      constructor
      · rintro ⟨⟨h1, h2, h3⟩, h4, h5⟩
        have h2' : 0 < l * (1 - z.1 - z.2) := by linarith
        have h2'' := pos_of_mul_pos_right h2' hl.le
        have h4' : 0 ≤ z.1 / m := by linarith
        have h5' : 0 < z.2 / (1 - l - m) := by linarith
        rw [le_div_iff₀ hm] at h4'
        rw [lt_div_iff₀ hn] at h5'
        exact ⟨by linarith, by linarith, by linarith⟩
      · rintro ⟨h1, h2, h3⟩
        have r0 : 0 < 1 - z.1 - z.2 := by linarith
        have r1 := mul_pos hl r0
        have r2 := mul_pos hm r0
        have r3 := mul_pos hn r0
        refine ⟨⟨by linarith, by linarith, by linarith⟩, ?_, ?_⟩
        · have : 0 ≤ z.1 / m := by positivity
          linarith
        · have : 0 < z.2 / (1 - l - m) := by positivity
          linarith
    by_cases hz : z ∈ paramSet
    · rw [Set.indicator_of_mem hz, Set.indicator_of_mem (e.2 hz)]
    · rw [Set.indicator_of_notMem hz, Set.indicator_of_notMem (fun h => hz (e.1 h))]

/-- The integral of a function without negative values over a triangle is the sum of its integrals over the three
triangles around an interior point, if the function may be infinite at this point only. -/
theorem triIntegral_cut {v0 v1 v2 : V3} (h : cross (v1 - v0) (v2 - v0) ≠ 0) {l m : ℝ} (hl : 0 < l) (hm : 0 < m)
    (hlm : l + m < 1) {F : V3 → ℝ} (hpos : ∀ s, 0 ≤ F s)
    (hF : ∀ a b c : V3, Measurable fun z : ℝ × ℝ => F (triPoint a b c z.1 z.2))
    (hcont : ∀ a b c : V3, ∀ v : ℝ, (∀ u, triPoint a b c u v ≠ triPoint v0 v1 v2 l m) →
      Continuous fun u => F (triPoint a b c u v))
    (hfin : triIntegral (triPoint v0 v1 v2 l m) v0 v1 F ≠ 0 ∧ triIntegral (triPoint v0 v1 v2 l m) v1 v2 F ≠ 0 ∧
      triIntegral (triPoint v0 v1 v2 l m) v2 v0 F ≠ 0) :
    triIntegral v0 v1 v2 F =
      triIntegral (triPoint v0 v1 v2 l m) v0 v1 F + triIntegral (triPoint v0 v1 v2 l m) v1 v2 F +
        triIntegral (triPoint v0 v1 v2 l m) v2 v0 F := by
  have hn : 0 < 1 - l - m := by linarith
  set p := triPoint v0 v1 v2 l m with hp
  set J := norm (cross (v1 - v0) (v2 - v0)) with hJ
  have hJ0 : 0 < J := norm_pos h
  have inj : ∀ u v u' v' : ℝ, triPoint v0 v1 v2 u v = triPoint v0 v1 v2 u' v' → v = v' := by
    intro u v u' v' he
    have h1 := tri_components h v0 0 u v
    have h2 := tri_components h v0 0 u' v'
    rw [he] at h1
    have h3 := h1.2.1.symm.trans h2.2.1
    have hc := (tri_c_pos h v0 0).ne'
    have : v * (normalizeTri v0 v1 v2 v0 0).c = v' * (normalizeTri v0 v1 v2 v0 0).c := by linarith
    exact mul_right_cancel₀ hc this
  -- each integral as a Lebesgue integral
  have asL : ∀ a b c : V3, ∀ bad : ℝ, (∀ v, 0 < v → v < 1 → v ≠ bad → ∀ u, triPoint a b c u v ≠ p) →
      triIntegral a b c F = (∫⁻ z : ℝ × ℝ, paramSet.indicator
        (fun z => ENNReal.ofReal (norm (cross (b - a) (c - a)) * F (triPoint a b c z.1 z.2))) z).toReal := by
    intro a b c bad hbad
    unfold triIntegral
    refine iterated_eq_lintegral (H := fun u v => norm (cross (b - a) (c - a)) * F (triPoint a b c u v))
      ((hF a b c).const_mul _) (fun u v => mul_nonneg (Real.sqrt_nonneg _) (hpos _)) (bad := bad) ?_
    intro v h0 h1 hb
    apply Continuous.intervalIntegrable
    exact continuous_const.mul (hcont a b c v (hbad v h0 h1 hb))
  -- the whole triangle
  let G : ℝ × ℝ → ℝ≥0∞ := fun z => ENNReal.ofReal (J * F (triPoint v0 v1 v2 z.1 z.2))
  have hG : Measurable G := ENNReal.measurable_ofReal.comp ((hF v0 v1 v2).const_mul _)
  have whole : triIntegral v0 v1 v2 F = (∫⁻ z, paramInt.indicator G z).toReal := by
    rw [asL v0 v1 v2 m (fun v _ _ hv u he => hv (inj _ _ _ _ he))]
    congr 1
    have hae : (fun z => paramSet.indicator G z) =ᵐ[volume] fun z => paramInt.indicator G z := by
      have null : ∀ᵐ z : ℝ × ℝ, z.1 ≠ 0 := by
        have : ∀ᵐ x : ℝ, x ≠ 0 := by rw [ae_iff]; simp
        exact Measure.quasiMeasurePreserving_fst.ae this
      filter_upwards [null] with z hz
      by_cases hi : z ∈ paramSet
      · rw [Set.indicator_of_mem hi, Set.indicator_of_mem]
        exact ⟨lt_of_le_of_ne hi.1 (Ne.symm hz), hi.2.1, hi.2.2⟩
      · rw [Set.indicator_of_notMem hi, Set.indicator_of_notMem]
        intro h'
        exact hi ⟨h'.1.le, h'.2.1, h'.2.2⟩
    exact lintegral_congr_ae hae
  -- the parts
  have part : ∀ (b c : V3) (d : ℝ) (q : ℝ × ℝ → ℝ × ℝ), 0 < d → norm (cross (b - p) (c - p)) = d * J →
      (∀ z : ℝ × ℝ, triPoint p b c z.1 z.2 = triPoint v0 v1 v2 (q z).1 (q z).2) →
      triIntegral p b c F ≠ 0 →
      ∃ L : ℝ≥0∞, L ≠ ⊤ ∧ ENNReal.ofReal d * (∫⁻ z : ℝ × ℝ, paramSet.indicator (fun z => G (q z)) z) = L ∧
        triIntegral p b c F = L.toReal := by
    intro b c d q hd hcr hq hne
    have hcr' : cross (b - p) (c - p) ≠ 0 := by
      intro h0
      rw [h0] at hcr
      have : norm (0 : V3) = 0 := by simp [V3.norm, dot]
      rw [this] at hcr
      have := mul_pos hd hJ0
      linarith
    have inj' : ∀ u v : ℝ, triPoint p b c u v = p → v = 0 := by
      intro u v he
      have h1 := tri_components hcr' p 0 u v
      have h2 := tri_components hcr' p 0 0 0
      have e0 : triPoint p b c 0 0 = p := by simp only [triPoint]; ext <;> simp
      rw [he] at h1
      rw [e0] at h2
      have h3 := h1.2.1.symm.trans h2.2.1
      have hc := (tri_c_pos hcr' p 0).ne'
      have : v * (normalizeTri p b c p 0).c = 0 := by linarith
      exact (mul_eq_zero.1 this).resolve_right hc
    have e1 := asL p b c 0 (fun v h0 _ _ u he => h0.ne' (inj' u v he))
    have hmq : ∀ z : ℝ × ℝ, G (q z) = ENNReal.ofReal (J * F (triPoint p b c z.1 z.2)) := by
      intro z; simp only [G, hq z]
    have e2 : (∫⁻ z : ℝ × ℝ, paramSet.indicator
        (fun z => ENNReal.ofReal (norm (cross (b - p) (c - p)) * F (triPoint p b c z.1 z.2))) z) =
        ENNReal.ofReal d * (∫⁻ z : ℝ × ℝ, paramSet.indicator (fun z => G (q z)) z) := by
      rw [← lintegral_const_mul]
      · refine lintegral_congr fun z => ?_
        by_cases hz : z ∈ paramSet
        · rw [Set.indicator_of_mem hz, Set.indicator_of_mem hz, hmq, hcr, ← ENNReal.ofReal_mul hd.le, mul_assoc]
        · rw [Set.indicator_of_notMem hz, Set.indicator_of_notMem hz, mul_zero]
      · refine Measurable.indicator ?_ measurableSet_paramSet
        have : (fun z => G (q z)) = fun z : ℝ × ℝ => ENNReal.ofReal (J * F (triPoint p b c z.1 z.2)) := funext hmq
        rw [this]
        exact ENNReal.measurable_ofReal.comp ((hF p b c).const_mul _)
    rw [e2] at e1
    refine ⟨_, ?_, rfl, e1⟩
    intro htop
    rw [htop] at e1
    exact hne (by simpa using e1)
  have cr : ∀ b c : V3, ∀ d : ℝ, 0 < d → cross (b - p) (c - p) = d * cross (v1 - v0) (v2 - v0) →
      norm (cross (b - p) (c - p)) = d * J := by
    intro b c d hd he
    rw [he]
    apply norm_eq_of_sq (by positivity)
    rw [show dot (d * cross (v1 - v0) (v2 - v0)) (d * cross (v1 - v0) (v2 - v0)) =
      d * d * dot (cross (v1 - v0) (v2 - v0)) (cross (v1 - v0) (v2 - v0)) by
        simp only [dot, smul_x, smul_y, smul_z]; ring, ← norm_sq, ← hJ]
    ring
  obtain ⟨L1, t1, c1, i1⟩ := part v0 v1 m (fun z => (l + z.1 * (0 - l) + z.2 * (1 - l), m + z.1 * (0 - m) + z.2 * (0 - m))) hm
    (cr v0 v1 m hm (by simp only [hp, triPoint]; ext <;> simp [cross] <;> ring))
    (fun z => by simp only [hp, triPoint]; ext <;> simp <;> ring) hfin.1
  obtain ⟨L2, t2, c2, i2⟩ := part v1 v2 (1 - l - m) (fun z => (l + z.1 * (1 - l) + z.2 * (0 - l), m + z.1 * (0 - m) + z.2 * (1 - m))) hn
    (cr v1 v2 (1 - l - m) hn (by simp only [hp, triPoint]; ext <;> simp [cross] <;> ring))
    (fun z => by simp only [hp, triPoint]; ext <;> simp <;> ring) hfin.2.1
  obtain ⟨L3, t3, c3, i3⟩ := part v2 v0 l (fun z => (l + z.1 * (0 - l) + z.2 * (0 - l), m + z.1 * (1 - m) + z.2 * (0 - m))) hl
    (cr v2 v0 l hl (by simp only [hp, triPoint]; ext <;> simp [cross] <;> ring))
    (fun z => by simp only [hp, triPoint]; ext <;> simp <;> ring) hfin.2.2
  rw [whole, param_cut hl hm hlm hG, c1, c2, c3, i1, i2, i3, ENNReal.toReal_add (ENNReal.add_ne_top.2 ⟨t1, t2⟩) t3,
    ENNReal.toReal_add t1 t2]

theorem selfPotential_pos {v0 v1 v2 : V3} (h : cross (v1 - v0) (v2 - v0) ≠ 0) : 0 < selfPotentialTriangleV0 v0 v1 v2 := by
  have ha := tri_a_pos h v0 0
  have hc := tri_c_pos h v0 0
  unfold selfPotentialTriangleV0
  simp only
  generalize (normalizeTri v0 v1 v2 v0 0).a = a at *
  generalize (normalizeTri v0 v1 v2 v0 0).b = b at *
  generalize (normalizeTri v0 v1 v2 v0 0).c = c at *
  have e3 : ((b - a) / c * c + a) / c = b / c := by field_simp; ring
  rw [e3]
  generalize (b - a) / c = β
  have hs : 0 < Real.sqrt (β * β + 1) := Real.sqrt_pos.2 (by nlinarith [mul_self_nonneg β])
  apply div_pos _ hs
  have : β < (β * β * c + c + β * a) / a := by
    rw [lt_div_iff₀ ha]
    nlinarith [mul_nonneg (mul_self_nonneg β) hc.le]
  have := Real.arsinh_lt_arsinh.2 this
  nlinarith

/-- **C55.** `self_potential_triangle` is the potential of a triangle at a point in its interior (`l` and `m` are the
coordinates of the point; the centre has `l = m = 1/3`). -/
theorem C55_self {v0 v1 v2 : V3} (h : cross (v1 - v0) (v2 - v0) ≠ 0) {l m : ℝ} (hl : 0 < l) (hm : 0 < m)
    (hlm : l + m < 1) :
    selfPotentialTriangle v0 v1 v2 (triPoint v0 v1 v2 l m) = triPotential v0 v1 v2 (triPoint v0 v1 v2 l m) := by
  set p := triPoint v0 v1 v2 l m with hp
  have scale : ∀ d : ℝ, d ≠ 0 → d * cross (v1 - v0) (v2 - v0) ≠ 0 := by
    intro d hd h0
    apply h
    have hx := congrArg V3.x h0
    have hy := congrArg V3.y h0
    have hz := congrArg V3.z h0
    simp only [smul_x, smul_y, smul_z, zero_x, zero_y, zero_z, mul_eq_zero, hd, false_or] at hx hy hz
    ext <;> simp [hx, hy, hz]
  have n1 : cross (v0 - p) (v1 - p) ≠ 0 := by
    have : cross (v0 - p) (v1 - p) = m * cross (v1 - v0) (v2 - v0) := by
      simp only [hp, triPoint]; ext <;> simp [cross] <;> ring
    rw [this]; exact scale m hm.ne'
  have n2 : cross (v1 - p) (v2 - p) ≠ 0 := by
    have : cross (v1 - p) (v2 - p) = (1 - l - m) * cross (v1 - v0) (v2 - v0) := by
      simp only [hp, triPoint]; ext <;> simp [cross] <;> ring
    rw [this]; exact scale (1 - l - m) (by linarith)
  have n3 : cross (v2 - p) (v0 - p) ≠ 0 := by
    have : cross (v2 - p) (v0 - p) = l * cross (v1 - v0) (v2 - v0) := by
      simp only [hp, triPoint]; ext <;> simp [cross] <;> ring
    rw [this]; exact scale l hl.ne'
  have s1 := C55_self_v0 n1
  have s2 := C55_self_v0 n2
  have s3 := C55_self_v0 n3
  have p1 := selfPotential_pos n1
  have p2 := selfPotential_pos n2
  have p3 := selfPotential_pos n3
  unfold selfPotentialTriangle
  rw [s1] at p1
  rw [s2] at p2
  rw [s3] at p3
  rw [s1, s2, s3]
  unfold triPotential at *
  refine (triIntegral_cut h hl hm hlm (F := fun s => 1 / norm (p - s)) (fun _ => div_nonneg zero_le_one (Real.sqrt_nonneg _)) ?_ ?_
    ⟨p1.ne', p2.ne', p3.ne'⟩).symm
  · intro a b c
    unfold V3.norm
    simp only [dot, triPoint, sub_x, sub_y, sub_z, add_x, add_y, add_z, smul_x, smul_y, smul_z]
    fun_prop
  · intro a b c v hne
    apply Continuous.div continuous_const
    · unfold V3.norm
      simp only [dot, triPoint, sub_x, sub_y, sub_z, add_x, add_y, add_z, smul_x, smul_y, smul_z]
      fun_prop
    · intro u
      have : p - triPoint a b c u v ≠ 0 := fun h0 => hne u (V3.sub_eq_zero.1 h0).symm
      exact (norm_pos this).ne'

/-- The centre of a triangle. -/
example (v0 v1 v2 : V3) (h : cross (v1 - v0) (v2 - v0) ≠ 0) :
    selfPotentialTriangle v0 v1 v2 (triPoint v0 v1 v2 (1 / 3) (1 / 3)) =
      triPotential v0 v1 v2 (triPoint v0 v1 v2 (1 / 3) (1 / 3)) :=
  C55_self h (by norm_num) (by norm_num) (by norm_num)

end Traceon
