import Verif.Props.Matrix3D

/-!
# C59, continued: the element itself, and solutions of the linear system
-/
namespace Traceon
open V3 Spec

theorem abs_arsinh_le (x : ℝ) : |Real.arsinh x| ≤ |x| := by
  have key : ∀ x : ℝ, 0 ≤ x → Real.arsinh x ≤ x := by
    intro x hx
    rw [← Real.arsinh_sinh x]
    apply Real.arsinh_le_arsinh.2
    rw [Real.arsinh_sinh]
    exact Real.self_le_sinh_iff.2 hx
  rcases le_total 0 x with hx | hx
  · rw [abs_of_nonneg hx, abs_of_nonneg (Real.arsinh_nonneg_iff.2 hx)]; exact key x hx
  · rw [abs_of_nonpos hx, abs_of_nonpos (Real.arsinh_nonpos_iff.2 hx), ← Real.arsinh_neg]
    exact key _ (by linarith)

theorem abs_log_le {x δ M : ℝ} (hδ : 0 < δ) (h1 : δ ≤ x) (h2 : x ≤ M) : |Real.log x| ≤ M + 1 / δ := by
  have hx : 0 < x := lt_of_lt_of_le hδ h1
  have hM : 0 < M := lt_of_lt_of_le hx h2
  have hi : 0 < 1 / δ := by positivity
  rw [abs_le]
  constructor
  · have h3 := Real.log_le_sub_one_of_pos (x := 1 / x) (by positivity)
    rw [one_div, Real.log_inv] at h3
    have : x⁻¹ ≤ 1 / δ := by rw [one_div]; exact inv_anti₀ hδ h1
    linarith
  · have := Real.log_le_sub_one_of_pos hx
    linarith

section
variable {v0 v1 v2 : V3} (h : cross (v1 - v0) (v2 - v0) ≠ 0)
include h

/-- `potential_triangle` returns, unless the target is so close to one of the sides that the logarithms of triangle.c:42-44 are unbounded. -/
theorem potential_returns_of (p : V3) {δ : ℝ} (hδ : 0 < δ)
    (hb : ∀ y ∈ Set.Icc 0 (normalizeTri v0 v1 v2 p 0).c,
      Real.sqrt ((y + (normalizeTri v0 v1 v2 p 0).y0) * (y + (normalizeTri v0 v1 v2 p 0).y0) + (normalizeTri v0 v1 v2 p 0).z * (normalizeTri v0 v1 v2 p 0).z) < 1e-12 →
        δ ≤ |(normalizeTri v0 v1 v2 p 0).xmin y| ∧ δ ≤ |(normalizeTri v0 v1 v2 p 0).xmax y|) :
    ∃ r, PotentialTriangleReturns v0 v1 v2 p r := by
  have hc := tri_c_pos h p 0
  unfold PotentialTriangleReturns
  set t := normalizeTri v0 v1 v2 p 0 with ht
  simp only
  have k1 : Continuous t.xmax := by unfold NormTri.xmax; fun_prop
  have k2 : Continuous t.xmin := by unfold NormTri.xmin; fun_prop
  obtain ⟨M1, hM1⟩ := (isCompact_Icc (a := (0 : ℝ)) (b := t.c)).exists_bound_of_continuousOn k1.continuousOn
  obtain ⟨M2, hM2⟩ := (isCompact_Icc (a := (0 : ℝ)) (b := t.c)).exists_bound_of_continuousOn k2.continuousOn
  refine C56_returns (M := (M1 + M2) * 1e12 + ((M1 + 1 / δ) + (M2 + 1 / δ))) (by norm_num) ?_
  intro y hy0 hy1
  have m1 := hM1 y ⟨hy0, hy1⟩
  have m2 := hM2 y ⟨hy0, hy1⟩
  rw [Real.norm_eq_abs] at m1 m2
  have n1 := (abs_nonneg _).trans m1
  have n2 := (abs_nonneg _).trans m2
  have hi : 0 < 1 / δ := by positivity
  simp only [NormTri.potentialIntegrand]
  set d := Real.sqrt ((y + t.y0) * (y + t.y0) + t.z * t.z) with hd
  split
  · rename_i hlt
    obtain ⟨b1, b2⟩ := hb y ⟨hy0, hy1⟩ hlt
    have := abs_sub (Real.log |t.xmax y|) (Real.log |t.xmin y|)
    have e1 := abs_log_le hδ b2 m1
    have e2 := abs_log_le hδ b1 m2
    have : 0 ≤ (M1 + M2) * 1e12 := by positivity
    linarith
  · rename_i hge
    push Not at hge
    have hd0 : 0 < d := lt_of_lt_of_le (by norm_num) hge
    have key : ∀ x M : ℝ, |x| ≤ M → |Real.arsinh (x / d)| ≤ M * 1e12 := by
      intro x M hx
      refine (abs_arsinh_le _).trans ?_
      rw [abs_div, abs_of_pos hd0, div_le_iff₀ hd0]
      have : 1 ≤ 1e12 * d := by
        have := mul_le_mul_of_nonneg_left hge (show (0 : ℝ) ≤ 1e12 by norm_num)
        norm_num at this ⊢
        linarith
      have hM := (abs_nonneg x).trans hx
      nlinarith
    have := abs_sub (Real.arsinh (t.xmax y / d)) (Real.arsinh (t.xmin y / d))
    have e1 := key _ _ m1
    have e2 := key _ _ m2
    linarith

theorem abs_dot_unit_le (a b : V3) (hb : dot b b = 1) : |dot a b| ≤ V3.norm a := by
  unfold V3.norm
  rw [← Real.sqrt_sq_eq_abs]
  apply Real.sqrt_le_sqrt
  have : dot a b ^ 2 ≤ dot a a * dot b b := by
    simp only [dot]
    nlinarith [sq_nonneg (a.x * b.y - a.y * b.x), sq_nonneg (a.x * b.z - a.z * b.x), sq_nonneg (a.y * b.z - a.z * b.y)]
  rw [hb, mul_one] at this
  exact this

/-- For the element itself (where the analytic branch for small distances is used) `potential_triangle` returns, if the triangle is not narrower than about `1e-12`. -/
theorem C59_own_returns (h1 : 6e-12 * V3.norm (v2 - v0) ≤ V3.norm (cross (v1 - v0) (v2 - v0)))
    (h2 : 6e-12 * V3.norm (v2 - v1) ≤ V3.norm (cross (v1 - v0) (v2 - v0))) :
    ∃ r, PotentialTriangleReturns v0 v1 v2 (Spec.centroid ⟨v0, v1, v2⟩) r := by
  set p := Spec.centroid ⟨v0, v1, v2⟩ with hp
  have ha := tri_a_pos h p 0
  have hc := tri_c_pos h p 0
  have hac := tri_area h p 0
  refine potential_returns_of h p (δ := (normalizeTri v0 v1 v2 p 0).a / 6) (by positivity) ?_
  have hpp : p = triPoint v0 v1 v2 (1 / 3) (1 / 3) := by
    rw [hp]; unfold Spec.centroid triPoint; ext <;> simp <;> ring
  obtain ⟨c1, c2, c3⟩ := tri_components h p 0 (1 / 3) (1 / 3)
  have hz : ∀ e : V3, dot (triPoint v0 v1 v2 (1 / 3) (1 / 3) - p) e = 0 := by
    intro e; rw [hpp]; simp [dot]
  rw [hz] at c1 c2 c3
  have hb : |(normalizeTri v0 v1 v2 p 0).b| ≤ V3.norm (v2 - v0) := abs_dot_unit_le h _ _ (frame_x h)
  have hba : |(normalizeTri v0 v1 v2 p 0).b - (normalizeTri v0 v1 v2 p 0).a| ≤ V3.norm (v2 - v1) := by
    have e : (normalizeTri v0 v1 v2 p 0).b - (normalizeTri v0 v1 v2 p 0).a = dot (v2 - v1) (triFrame v0 v1 v2).ex := by
      have := vec1_x h
      simp only [normalizeTri]
      rw [← this]
      simp only [dot, sub_x, sub_y, sub_z]; ring
    rw [e]
    exact abs_dot_unit_le h _ _ (frame_x h)
  set t := normalizeTri v0 v1 v2 p 0 with ht
  intro y hy hd
  have hyd : |y - t.c / 3| < 1e-12 := by
    rw [show t.y0 = -(t.c / 3) by linarith] at hd
    have hle : |y - t.c / 3| ≤ Real.sqrt ((y + -(t.c / 3)) * (y + -(t.c / 3)) + t.z * t.z) := by
      rw [← Real.sqrt_sq_eq_abs]
      exact Real.sqrt_le_sqrt (by nlinarith [mul_self_nonneg t.z])
    linarith
  have bound : ∀ k L : ℝ, |k| ≤ L → 6e-12 * L ≤ V3.norm (cross (v1 - v0) (v2 - v0)) → |(y - t.c / 3) * (k / t.c)| ≤ t.a / 6 := by
    intro k L hk hL
    rw [abs_mul, abs_div, abs_of_pos hc, mul_div_assoc', div_le_iff₀ hc]
    have hL0 := (abs_nonneg k).trans hk
    have : |y - t.c / 3| * |k| ≤ 1e-12 * L := mul_le_mul hyd.le hk (abs_nonneg _) (by norm_num)
    rw [← hac] at hL
    nlinarith
  constructor
  · have e : t.xmin y = -(t.a / 3) + (y - t.c / 3) * (t.b / t.c) := by
      unfold NormTri.xmin
      rw [show t.x0 = -(1 / 3 * t.b) - 1 / 3 * t.a by linarith]
      field_simp
      ring
    have hh := abs_le.1 (bound t.b _ hb h1)
    rw [e, abs_of_neg (by linarith)]
    linarith
  · have e : t.xmax y = t.a / 3 + (y - t.c / 3) * ((t.b - t.a) / t.c) := by
      unfold NormTri.xmax
      rw [show t.x0 = -(1 / 3 * t.b) - 1 / 3 * t.a by linarith]
      field_simp
      ring
    have hh := abs_le.1 (bound (t.b - t.a) _ hba h2)
    rw [e, abs_of_pos (by linarith)]
    linarith

omit h in
/-- The charge on a flat element does not contribute to the mean of the normal field at its own centre; this is why the entry on the diagonal is just `-1`. -/
theorem C59_own_field : triFieldAlong v0 v1 v2 (Spec.centroid ⟨v0, v1, v2⟩) (normal3d v0 v1 v2) = 0 := by
  unfold triFieldAlong triIntegral
  have : ∀ u v : ℝ, dot (normal3d v0 v1 v2) (Spec.centroid ⟨v0, v1, v2⟩ - triPoint v0 v1 v2 u v) = 0 := by
    intro u v
    have e : Spec.centroid ⟨v0, v1, v2⟩ - triPoint v0 v1 v2 u v = (1 / 3 - u) * (v1 - v0) + (1 / 3 - v) * (v2 - v0) := by
      unfold Spec.centroid triPoint; ext <;> simp <;> ring
    unfold normal3d
    rw [e, dot_unit_left]
    have : dot (cross (v1 - v0) (v2 - v0)) ((1 / 3 - u) * (v1 - v0) + (1 / 3 - v) * (v2 - v0)) = 0 := by
      simp only [dot, cross, add_x, add_y, add_z, smul_x, smul_y, smul_z]; ring
    rw [this, zero_div]
  simp [this]

end

/-! ## Solutions -/

theorem linSolve_spec {n : Nat} {A : Matrix (Fin n) (Fin n) ℝ} {F q : List ℝ} (h : linSolve A F = some q) (i : Fin n) :
    ∑ j : Fin n, A i j * q.getD j 0 = F.getD i 0 := by
  unfold linSolve at h
  split at h
  · simp at h
  · rename_i hdet
    simp only [Option.some.injEq] at h
    have hu : IsUnit A.det := isUnit_iff_ne_zero.2 hdet
    have e : A.mulVec (A⁻¹.mulVec fun i : Fin n => F.getD i 0) = fun i : Fin n => F.getD i 0 := by
      rw [Matrix.mulVec_mulVec, Matrix.mul_nonsing_inv _ hu, Matrix.one_mulVec]
    have := congrFun e i
    rw [← this]
    unfold Matrix.mulVec dotProduct
    refine Finset.sum_congr rfl fun j _ => ?_
    rw [← h]
    congr 1
    simp [List.getD, Matrix.mulVec, dotProduct]

/-- **C59**, what solving the linear system achieves in electrostatics. `solve_direct` computes the right hand side of `rhsElectric`: at the centre of every element with a given voltage the potential is that voltage,
and at the centre of every dielectric element the interface condition holds. -/
theorem C59_solution_partial {n T : Nat} {o : TriRoutines} {t : Nat → Tri3} {types : Nat → Option ExcType} {values : Nat → ℝ}
    (hT : 0 < T) (ho : o.Correct n t types) (diag : Nat → ℝ) (sched : List Nat)
    (hjoin : Joined sched (matrixProgs false n T (fillOps3d o t types values))) {A : Nat → Nat → ℝ} {q : List ℝ}
    (hA : getMatrix false n T (fillOps3d o t types values) diag sched = some A)
    (hq : linSolve (Matrix.of fun i j : Fin n => A i j) (List.ofFn fun i : Fin n => Excitation.rhsElectric (types i) (values i)) = some q) :
    (∀ i < n, types i = some .voltageFixed ∨ types i = some .voltageFun → Spec.PotentialAtCentre n t (q.getD · 0) i (values i)) ∧
    (∀ i < n, types i = some .dielectric → values i ≠ -1 →
      ∃ e, Spec.NormalFieldAtCentre n t (q.getD · 0) i e ∧ Spec.InterfaceCondition (values i) e (q.getD i 0)) := by
  have row : ∀ i < n, ∑ j ∈ Finset.range n, A i j * q.getD j 0 = Excitation.rhsElectric (types i) (values i) := by
    intro i hi
    have := linSolve_spec hq ⟨i, hi⟩
    rw [Finset.sum_range]
    simp only [Matrix.of_apply] at this
    rw [this]
    simp [List.getD, hi]
  constructor
  · intro i hi hty
    obtain ⟨A', hA', hp⟩ := C59_voltage_partial hT ho diag sched hjoin
    rw [hA, Option.some.injEq] at hA'
    subst hA'
    have := hp i hi (by tauto) (q.getD · 0)
    rw [row i hi] at this
    rcases hty with h | h <;> rwa [h] at this
  · intro i hi hty hK
    obtain ⟨A', hA', hp⟩ := C59_interface_partial hT ho diag sched hjoin
    rw [hA, Option.some.injEq] at hA'
    subst hA'
    obtain ⟨e, he, hi'⟩ := hp i hi (Or.inl hty) hK (q.getD · 0)
    refine ⟨e, he, ?_⟩
    have := (hi' 0).1 (by rw [row i hi, hty]; simp [Excitation.rhsElectric])
    rwa [add_zero] at this

/-! ## A case that meets the hypotheses -/

/-- There is always a schedule in which all threads finish. -/
theorem exists_joined {C R : Type} (progs : Nat → List (Step C R)) (T : Nat) (h : ∀ t, T ≤ t → progs t = []) : ∃ sched, Joined sched progs := by
  refine ⟨(List.range T).flatMap fun t => List.replicate (progs t).length t, fun t => ?_⟩
  by_cases ht : t < T
  · rw [List.count_flatMap]
    have hm : (progs t).length ∈ (List.range T).map (List.count t ∘ fun u => List.replicate (progs u).length u) :=
      List.mem_map.2 ⟨t, List.mem_range.2 ht, by simp⟩
    exact List.le_sum_of_mem hm
  · rw [h t (by omega)]; simp

/-- A square metre triangle at 10 V and a dielectric one, a hundred metres away. -/
noncomputable def exampleTris (i : Nat) : Tri3 := ⟨⟨100 * i, 0, 0⟩, ⟨100 * i + 1, 0, 0⟩, ⟨100 * i, 1, 0⟩⟩
@[inherit_doc exampleTris]
def exampleTypes (i : Nat) : Option ExcType := if i = 0 then some .voltageFixed else some .dielectric

theorem example_cross : cross ((exampleTris 0).v1 - (exampleTris 0).v0) ((exampleTris 0).v2 - (exampleTris 0).v0) = ⟨0, 0, 1⟩ := by
  ext <;> simp [exampleTris, cross]

/-- The hypotheses of `C59_voltage_partial` and `C59_interface_partial` hold for two triangles and two threads. -/
theorem C59_example : ∃ o : TriRoutines, o.Correct 2 exampleTris exampleTypes ∧
    ∃ sched, Joined sched (matrixProgs false 2 (2 : Nat) (fillOps3d o exampleTris exampleTypes (fun i => if i = 0 then 10 else 3))) := by
  have hne : cross ((exampleTris 0).v1 - (exampleTris 0).v0) ((exampleTris 0).v2 - (exampleTris 0).v0) ≠ 0 := by
    rw [example_cross]; intro h; have := congrArg V3.z h; simp at this
  have hn : V3.norm (⟨0, 0, 1⟩ : V3) = 1 := norm_eq_of_sq (by norm_num) (by simp [dot])
  have hn2 : V3.norm ((exampleTris 0).v2 - (exampleTris 0).v0) = 1 := norm_eq_of_sq (by norm_num) (by simp [exampleTris, dot])
  have hn3 : V3.norm ((exampleTris 0).v2 - (exampleTris 0).v1) ≤ 2 := by
    unfold V3.norm
    rw [Real.sqrt_le_left (by norm_num)]
    simp [exampleTris, dot]; norm_num
  obtain ⟨r, hr⟩ := C59_own_returns hne (by rw [example_cross, hn, hn2]; norm_num) (by rw [example_cross, hn]; linarith)
  have far : FarTriangle (triTarget (exampleTris 0)) (exampleTris 1) := by
    rw [farTriangle_iff]
    have e1 : V3.norm ((exampleTris 1).v1 - (exampleTris 1).v0) = 1 := norm_eq_of_sq (by norm_num) (by simp [exampleTris, dot])
    rw [e1]
    unfold V3.norm
    apply Real.lt_sqrt_of_sq_lt
    simp [exampleTris, triTarget, dot]; norm_num
  have far' : FarTriangle (triTarget (exampleTris 1)) (exampleTris 0) := by
    rw [farTriangle_iff]
    have e1 : V3.norm ((exampleTris 0).v1 - (exampleTris 0).v0) = 1 := norm_eq_of_sq (by norm_num) (by simp [exampleTris, dot])
    rw [e1]
    unfold V3.norm
    apply Real.lt_sqrt_of_sq_lt
    simp [exampleTris, triTarget, dot]; norm_num
  refine ⟨⟨fun _ _ => r, fun _ _ _ => 0⟩, ?_, ?_⟩
  · intro i hi j hj hnear
    have hi' : i = 0 ∨ i = 1 := by omega
    have hj' : j = 0 ∨ j = 1 := by omega
    rcases hi' with rfl | rfl <;> rcases hj' with rfl | rfl
    · simp only [exampleTypes, if_pos]
      rw [triTarget_eq]
      exact hr
    · rcases hnear with h | h
      · omega
      · exact absurd far h
    · rcases hnear with h | h
      · omega
      · exact absurd far' h
    · simp [exampleTypes]
  · refine exists_joined _ 2 fun t ht => ?_
    unfold matrixProgs
    have : (((arraySplit (List.range 2) ((2 : Nat) : Int)).getD []).getD t []) = [] := by
      have e : (arraySplit (List.range 2) ((2 : Nat) : Int)).getD [] = [[0], [1]] := by decide
      rw [e]
      match t, ht with
      | t + 2, _ => rfl
    rw [this]
    rfl

end Traceon
