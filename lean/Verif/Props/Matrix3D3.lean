import Verif.Props.Matrix3D2

/-!
# C59: the test for elements far away looks at one side of the triangle only
-/
namespace Traceon
open V3 Spec MeasureTheory
open scoped ENNReal

/-- A point of a triangle is where its potential is largest, compared with the points above it. -/
theorem triPotential_above {v0 v1 v2 : V3} (h : cross (v1 - v0) (v2 - v0) ≠ 0) {l m : ℝ} (hl : 0 < l) (hm : 0 < m)
    (hlm : l + m < 1) {p : V3} (habove : ∀ u v, V3.norm (triPoint v0 v1 v2 l m - triPoint v0 v1 v2 u v) ≤ V3.norm (p - triPoint v0 v1 v2 u v))
    (hp : ∀ u v, p ≠ triPoint v0 v1 v2 u v) :
    triPotential v0 v1 v2 p ≤ triPotential v0 v1 v2 (triPoint v0 v1 v2 l m) := by
  set p0 := triPoint v0 v1 v2 l m with hp0
  have hN := V3.norm_pos h
  have hpos : 0 < triPotential v0 v1 v2 p0 := by
    rw [hp0, ← C55_self h hl hm hlm]
    have scale : ∀ d : ℝ, d ≠ 0 → d * cross (v1 - v0) (v2 - v0) ≠ 0 := by
      intro d hd h0
      apply h
      have hx := congrArg V3.x h0
      have hy := congrArg V3.y h0
      have hz := congrArg V3.z h0
      simp only [smul_x, smul_y, smul_z, zero_x, zero_y, zero_z, mul_eq_zero, hd, false_or] at hx hy hz
      ext <;> simp [hx, hy, hz]
    have n1 : cross (v0 - p0) (v1 - p0) ≠ 0 := by
      have : cross (v0 - p0) (v1 - p0) = m * cross (v1 - v0) (v2 - v0) := by
        simp only [hp0, triPoint]; ext <;> simp [cross] <;> ring
      rw [this]; exact scale m hm.ne'
    have n2 : cross (v1 - p0) (v2 - p0) ≠ 0 := by
      have : cross (v1 - p0) (v2 - p0) = (1 - l - m) * cross (v1 - v0) (v2 - v0) := by
        simp only [hp0, triPoint]; ext <;> simp [cross] <;> ring
      rw [this]; exact scale (1 - l - m) (by linarith)
    have n3 : cross (v2 - p0) (v0 - p0) ≠ 0 := by
      have : cross (v2 - p0) (v0 - p0) = l * cross (v1 - v0) (v2 - v0) := by
        simp only [hp0, triPoint]; ext <;> simp [cross] <;> ring
      rw [this]; exact scale l hl.ne'
    unfold selfPotentialTriangle
    have p1 := selfPotential_pos n1
    have p2 := selfPotential_pos n2
    have p3 := selfPotential_pos n3
    linarith
  have meas : ∀ q : V3, Measurable fun z : ℝ × ℝ => V3.norm (cross (v1 - v0) (v2 - v0)) * (1 / V3.norm (q - triPoint v0 v1 v2 z.1 z.2)) := by
    intro q
    generalize V3.norm (cross (v1 - v0) (v2 - v0)) = N
    unfold V3.norm
    simp only [dot, triPoint, sub_x, sub_y, sub_z, add_x, add_y, add_z, smul_x, smul_y, smul_z]
    fun_prop
  have nonneg : ∀ (q : V3) (u v : ℝ), 0 ≤ V3.norm (cross (v1 - v0) (v2 - v0)) * (1 / V3.norm (q - triPoint v0 v1 v2 u v)) := by
    intro q u v
    have : 0 ≤ V3.norm (q - triPoint v0 v1 v2 u v) := Real.sqrt_nonneg _
    positivity
  have cont : ∀ (q : V3) (v : ℝ), (∀ u, q ≠ triPoint v0 v1 v2 u v) →
      Continuous fun u => V3.norm (cross (v1 - v0) (v2 - v0)) * (1 / V3.norm (q - triPoint v0 v1 v2 u v)) := by
    intro q v hne
    apply Continuous.mul continuous_const
    apply Continuous.div continuous_const
    · unfold V3.norm
      simp only [dot, triPoint, sub_x, sub_y, sub_z, add_x, add_y, add_z, smul_x, smul_y, smul_z]
      fun_prop
    · intro u
      have : q - triPoint v0 v1 v2 u v ≠ 0 := fun h0 => hne u (V3.sub_eq_zero.1 h0)
      exact (V3.norm_pos this).ne'
  have e0 := iterated_eq_lintegral (meas p0) (nonneg p0) (bad := m) (by
    intro v _ _ hv
    apply (cont p0 v ?_).intervalIntegrable
    intro u hu
    have hne := tri_c_pos h p0 0
    obtain ⟨_, c2, _⟩ := tri_components h p0 0 u v
    obtain ⟨_, c2', _⟩ := tri_components h p0 0 l m
    rw [← hu] at c2
    rw [← hp0] at c2'
    have : (v - m) * (normalizeTri v0 v1 v2 p0 0).c = 0 := by linarith
    rcases mul_eq_zero.1 this with h' | h'
    · exact hv (by linarith)
    · exact hne.ne' h')
  have e1 := iterated_eq_lintegral (meas p) (nonneg p) (bad := 0) (by
    intro v _ _ _
    exact (cont p v fun u => hp u v).intervalIntegrable _ _)
  unfold triPotential triIntegral at hpos ⊢
  rw [e0] at hpos
  rw [e0, e1]
  refine ENNReal.toReal_mono (fun htop => by rw [htop] at hpos; simp at hpos) ?_
  have hae : ∀ᵐ z : ℝ × ℝ, z ≠ (l, m) := by
    haveI := plane_haar
    have := (measure_singleton (μ := (volume : Measure (ℝ × ℝ))) (l, m))
    rw [ae_iff]
    simpa using this
  refine lintegral_mono_ae (hae.mono fun z hz => ?_)
  by_cases hzs : z ∈ paramSet
  · rw [Set.indicator_of_mem hzs, Set.indicator_of_mem hzs]
    apply ENNReal.ofReal_le_ofReal
    have hlt : 0 < V3.norm (p0 - triPoint v0 v1 v2 z.1 z.2) := by
      apply V3.norm_pos
      intro h0
      have hu := V3.sub_eq_zero.1 h0
      have hne := tri_c_pos h p0 0
      have hna := tri_a_pos h p0 0
      obtain ⟨c1, c2, _⟩ := tri_components h p0 0 z.1 z.2
      obtain ⟨c1', c2', _⟩ := tri_components h p0 0 l m
      rw [← hu] at c1 c2
      rw [← hp0] at c1' c2'
      have hv : (z.2 - m) * (normalizeTri v0 v1 v2 p0 0).c = 0 := by linarith
      have hv' : z.2 = m := by
        rcases mul_eq_zero.1 hv with h' | h'
        · linarith
        · exact absurd h' hne.ne'
      have hu' : (z.1 - l) * (normalizeTri v0 v1 v2 p0 0).a = 0 := by rw [hv'] at c1; linarith
      have hl' : z.1 = l := by
        rcases mul_eq_zero.1 hu' with h' | h'
        · linarith
        · exact absurd h' hna.ne'
      exact hz (Prod.ext hl' hv')
    exact mul_le_mul_of_nonneg_left (one_div_le_one_div_of_le hlt (habove _ _)) hN.le
  · rw [Set.indicator_of_notMem hzs, Set.indicator_of_notMem hzs]

/-- A long triangle. -/
noncomputable def longTri : Tri3 := ⟨⟨0, 0, 0⟩, ⟨1, 0, 0⟩, ⟨0, 100, 0⟩⟩

/-- A triangle above one of its quadrature points, at height `ε`. -/
noncomputable def hoverTri (ε : ℝ) : Tri3 :=
  ⟨⟨0.063089014491502 - 1, 87.3821971016996 - 1, ε⟩, ⟨0.063089014491502 + 1, 87.3821971016996, ε⟩, ⟨0.063089014491502, 87.3821971016996 + 1, ε⟩⟩

theorem hoverTri_centroid (ε : ℝ) : Spec.centroid (hoverTri ε) = ⟨0.063089014491502, 87.3821971016996, ε⟩ := by
  unfold Spec.centroid hoverTri
  ext <;> simp <;> ring

/-- **C59, refuted for long triangles.** Whether an element is far away is decided by the length of the side between its first two points alone. There are triangles, one hovering above the other, whose entry in the matrix,
computed with twelve points, exceeds every bound, although the potential at the centre that it stands for does not. -/
theorem C59_far_refuted : ∃ C : ℝ, ∀ B : ℝ, ∃ s t : Tri3,
    cross (s.v1 - s.v0) (s.v2 - s.v0) ≠ 0 ∧ cross (t.v1 - t.v0) (t.v2 - t.v0) ≠ 0 ∧
    (∀ a b u v, triPoint s.v0 s.v1 s.v2 a b ≠ triPoint t.v0 t.v1 t.v2 u v) ∧
    triPotential t.v0 t.v1 t.v2 (Spec.centroid s) / (4 * Real.pi) ≤ C ∧
    ∀ (o : TriRoutines) (values : Nat → ℝ),
      B < (fillOps3d o (fun i => if i = 0 then s else t) (fun _ => some .voltageFixed) values 0 1).foldl EntryOp.apply 0 := by
  have hpi := Real.pi_pos
  have hlong : cross (longTri.v1 - longTri.v0) (longTri.v2 - longTri.v0) = ⟨0, 0, 100⟩ := by
    ext <;> simp [longTri, cross]
  have hlong' : cross (longTri.v1 - longTri.v0) (longTri.v2 - longTri.v0) ≠ 0 := by
    rw [hlong]; intro h; have := congrArg V3.z h; simp at this
  refine ⟨triPotential longTri.v0 longTri.v1 longTri.v2 (triPoint longTri.v0 longTri.v1 longTri.v2 0.063089014491502 0.873821971016996) / (4 * Real.pi), fun B => ?_⟩
  set ε : ℝ := 1 / (2 * Real.pi * (|B| + 1)) with hε
  have hε0 : 0 < ε := by positivity
  have hplane : ∀ u v, (triPoint longTri.v0 longTri.v1 longTri.v2 u v).z = 0 := by intro u v; simp [triPoint, longTri]
  refine ⟨hoverTri ε, longTri, ?_, hlong', ?_, ?_, ?_⟩
  · intro h
    have := congrArg V3.z h
    simp [hoverTri, cross] at this
    norm_num at this
  · intro a b u v h
    have := congrArg V3.z h
    rw [hplane] at this
    simp [triPoint, hoverTri] at this
    exact hε0.ne' this
  · refine div_le_div_of_nonneg_right (triPotential_above hlong' (by norm_num) (by norm_num) (by norm_num) ?_ ?_) (by positivity)
    · intro u v
      unfold V3.norm
      apply Real.sqrt_le_sqrt
      rw [hoverTri_centroid]
      simp only [dot, triPoint, longTri, sub_x, sub_y, sub_z, add_x, add_y, add_z, smul_x, smul_y, smul_z]
      nlinarith [sq_nonneg ε]
    · intro u v h
      have := congrArg V3.z h
      rw [hplane, hoverTri_centroid] at this
      exact hε0.ne' this
  · intro o values
    rw [entry_voltage (Or.inl rfl)]
    have hs : (if (0 : Nat) = 0 then hoverTri ε else longTri) = hoverTri ε := if_pos rfl
    have ht : (if (1 : Nat) = 0 then hoverTri ε else longTri) = longTri := if_neg (by norm_num)
    rw [hs, ht, if_pos]
    · rw [triTarget_eq, hoverTri_centroid]
      have harea : triArea longTri = 50 := by
        have : triArea longTri = 0.5 * Real.sqrt (100 ^ 2) := by
          unfold triArea
          congr 2
          simp [longTri]
        rw [this, Real.sqrt_sq (by norm_num)]
        norm_num
      have hterm : (2 * 0.0254224531851035 * 50 * potential3dPoint ⟨0.063089014491502, 87.3821971016996, ε⟩ ⟨0.063089014491502, 87.3821971016996, 0⟩ : ℝ) ∈
          ((jacRow longTri).zip (posRow longTri)).map fun k => k.1 * potential3dPoint ⟨0.063089014491502, 87.3821971016996, ε⟩ k.2 := by
        rw [List.mem_map]
        refine ⟨(2 * 0.0254224531851035 * 50, ⟨0.063089014491502, 87.3821971016996, 0⟩), ?_, rfl⟩
        unfold jacRow posRow
        rw [List.zip_map']
        rw [List.mem_map]
        refine ⟨(0.0254224531851035, 0.063089014491502, 0.873821971016996), by simp [quadRule], ?_⟩
        rw [harea]
        refine Prod.ext rfl ?_
        ext <;> simp [longTri]
        norm_num
      have hnn : ∀ x ∈ ((jacRow longTri).zip (posRow longTri)).map fun k => k.1 * potential3dPoint ⟨0.063089014491502, 87.3821971016996, ε⟩ k.2, 0 ≤ x := by
        intro x hx
        rw [List.mem_map] at hx
        obtain ⟨k, hk, rfl⟩ := hx
        apply mul_nonneg
        · have := (List.of_mem_zip hk).1
          unfold jacRow at this
          rw [List.mem_map] at this
          obtain ⟨w, hw, hwk⟩ := this
          rw [← hwk, harea]
          have : 0 ≤ w.1 := by
            simp only [quadRule, List.mem_cons, List.not_mem_nil, or_false] at hw
            rcases hw with rfl | rfl | rfl | rfl | rfl | rfl | rfl | rfl | rfl | rfl | rfl | rfl <;> norm_num
          positivity
        · unfold potential3dPoint
          have : 0 ≤ V3.norm (k.2 - ⟨0.063089014491502, 87.3821971016996, ε⟩) := Real.sqrt_nonneg _
          positivity
      refine lt_of_lt_of_le ?_ (List.single_le_sum hnn _ hterm)
      have hnorm : V3.norm ((⟨0.063089014491502, 87.3821971016996, 0⟩ : V3) - ⟨0.063089014491502, 87.3821971016996, ε⟩) = ε :=
        norm_eq_of_sq hε0.le (by simp [dot])
      unfold potential3dPoint
      rw [hnorm, hε]
      have : (2 * 0.0254224531851035 * 50 * (1 / (4 * Real.pi * (1 / (2 * Real.pi * (|B| + 1))))) : ℝ) = 0.0254224531851035 * 50 * (|B| + 1) := by
        have : |B| + 1 ≠ 0 := by positivity
        field_simp
        ring
      rw [this]
      have := le_abs_self B
      have := abs_nonneg B
      nlinarith
    · refine ⟨by norm_num, ?_⟩
      rw [farTriangle_iff, triTarget_eq, hoverTri_centroid]
      have e1 : V3.norm (longTri.v1 - longTri.v0) = 1 := norm_eq_of_sq (by norm_num) (by simp [longTri, dot])
      rw [e1]
      unfold V3.norm
      apply Real.lt_sqrt_of_sq_lt
      simp only [longTri, dot, sub_x, sub_y, sub_z]
      nlinarith [sq_nonneg ε]

end Traceon
