import Verif.Spec.Matrix3D
import Verif.Props.Charges
import Verif.Props.Threads
import Verif.Props.Triangle4
import Verif.Model.Solve

/-!
# C59: the rows of the 3D matrix express the boundary conditions
-/
namespace Traceon

theorem triTarget_eq (t : Tri3) : triTarget t = Spec.centroid t := by
  unfold triTarget Spec.centroid
  ext <;> simp <;> ring

theorem norm_sub_comm' (a b : V3) : V3.norm (a - b) = V3.norm (b - a) := by
  unfold V3.norm
  congr 1
  simp only [V3.dot, V3.sub_x, V3.sub_y, V3.sub_z]; ring

theorem farTriangle_iff (p : V3) (t : Tri3) : FarTriangle p t ↔ 5 * V3.norm (t.v1 - t.v0) < V3.norm (p - t.v0) := by
  unfold FarTriangle distance3d
  rw [norm_sub_comm' t.v0 t.v1, norm_sub_comm' t.v0 p]

theorem foldl_add_ops (l : List ℝ) (s : ℝ) : (l.map EntryOp.add).foldl EntryOp.apply s = s + l.sum := by
  induction l generalizing s with
  | nil => simp
  | cons a t ih => simp only [List.map_cons, List.foldl_cons, EntryOp.apply, ih, List.sum_cons]; ring

theorem foldl_add_ops_map {α : Type} (g : α → ℝ) (l : List α) (s : ℝ) :
    (l.map fun a => EntryOp.add (g a)).foldl EntryOp.apply s = s + (l.map g).sum := by
  have := foldl_add_ops (l.map g) s
  rwa [List.map_map] at this

/-- The charges of several triangles superpose. -/
theorem superpose_triCharges (f : V3 → ℝ) (t : Nat → Tri3) (q : Nat → ℝ) (l : List Nat) :
    Spec.superpose f (triCharges (l.map t) (l.map q)) =
      (l.map fun j => q j * (((jacRow (t j)).zip (posRow (t j))).map fun k => k.1 * f k.2).sum).sum := by
  unfold Spec.superpose triCharges
  induction l with
  | nil => simp
  | cons a l ih =>
    simp only [List.map_cons, List.zip_cons_cons, List.sum_cons]
    rw [ih, ← List.sum_map_mul_left]
    congr 2
    refine List.map_congr_left fun k _ => ?_
    ring

theorem sum_filter_split {α : Type} (l : List α) (p : α → Bool) (g : α → ℝ) :
    (l.map g).sum = ((l.filter p).map g).sum + ((l.filter fun a => !p a).map g).sum := by
  induction l with
  | nil => simp
  | cons a t ih =>
    by_cases h : p a = true
    · simp [h, ih]; ring
    · simp [h, ih]; ring

section
variable {n T : Nat} {o : TriRoutines} {t : Nat → Tri3} {types : Nat → Option ExcType} {values : Nat → ℝ} {i : Nat}

open Classical in
/-- An entry in the row of an element with given potential. -/
theorem entry_voltage (h : types i = some .voltageFixed ∨ types i = some .voltageFun ∨ types i = some .magnetostaticPot) (j : Nat) :
    (fillOps3d o t types values i j).foldl EntryOp.apply 0 =
      if i ≠ j ∧ FarTriangle (triTarget (t i)) (t j) then
        (((jacRow (t j)).zip (posRow (t j))).map fun k => k.1 * potential3dPoint (triTarget (t i)) k.2).sum
      else o.pot (t j) (triTarget (t i)) / (4 * Real.pi) := by
  have key : fillOps3d o t types values i j =
      (if i = j then [EntryOp.set (selfPotentialTriangle (t j).v0 (t j).v1 (t j).v2 (triTarget (t i)))] else []) ++
      (if i ≠ j ∧ FarTriangle (triTarget (t i)) (t j) then
        ((jacRow (t j)).zip (posRow (t j))).map (fun k => EntryOp.add (k.1 * potential3dPoint (triTarget (t i)) k.2))
      else [EntryOp.set (o.pot (t j) (triTarget (t i)) / (4 * Real.pi))]) := by
    unfold fillOps3d
    rcases h with h | h | h <;> rw [h]
  rw [key]
  by_cases hf : i ≠ j ∧ FarTriangle (triTarget (t i)) (t j)
  · rw [if_pos hf, if_pos hf, if_neg hf.1, List.nil_append, foldl_add_ops_map, zero_add]
  · rw [if_neg hf, if_neg hf, List.foldl_append]
    rfl

open Classical in
/-- An entry in the row of a dielectric or magnetizable element. -/
theorem entry_flux (h : types i = some .dielectric ∨ types i = some .magnetizable) (j : Nat) :
    (fillOps3d o t types values i j).foldl EntryOp.apply 0 =
      if i = j then -1
      else if FarTriangle (triTarget (t i)) (t j) then
        fluxDensityToChargeFactor (values i) *
          (((jacRow (t j)).zip (posRow (t j))).map fun k => k.1 * fieldDotNormal3d (triTarget (t i)) k.2 (normal3d (t i).v0 (t i).v1 (t i).v2)).sum
      else fluxDensityToChargeFactor (values i) * (o.flux (t j) (triTarget (t i)) (normal3d (t i).v0 (t i).v1 (t i).v2) / (4 * Real.pi)) := by
  have key : fillOps3d o t types values i j =
      if i = j then [EntryOp.set (-1)]
      else if FarTriangle (triTarget (t i)) (t j) then
        ((jacRow (t j)).zip (posRow (t j))).map (fun k => EntryOp.add (fluxDensityToChargeFactor (values i) * k.1 *
          fieldDotNormal3d (triTarget (t i)) k.2 (normal3d (t i).v0 (t i).v1 (t i).v2)))
      else [EntryOp.set (fluxDensityToChargeFactor (values i) * o.flux (t j) (triTarget (t i)) (normal3d (t i).v0 (t i).v1 (t i).v2) / (4 * Real.pi))] := by
    unfold fillOps3d
    rcases h with h | h <;> rw [h]
  rw [key]
  by_cases hij : i = j
  · rw [if_pos hij, if_pos hij]; rfl
  · rw [if_neg hij, if_neg hij]
    by_cases hf : FarTriangle (triTarget (t i)) (t j)
    · rw [if_pos hf, if_pos hf, foldl_add_ops_map, zero_add, ← List.sum_map_mul_left]
      congr 1
      refine List.map_congr_left fun k _ => ?_
      ring
    · rw [if_neg hf, if_neg hf]
      simp only [List.foldl_cons, List.foldl_nil, EntryOp.apply]
      ring

theorem mem_nearElements {j : Nat} : j ∈ Spec.nearElements n t i ↔ j < n ∧ ¬(i ≠ j ∧ FarTriangle (triTarget (t i)) (t j)) := by
  unfold Spec.nearElements
  rw [List.mem_filter, List.mem_range, decide_eq_true_iff, farTriangle_iff, triTarget_eq]

theorem mem_farElements {j : Nat} : j ∈ Spec.farElements n t i ↔ j < n ∧ (i ≠ j ∧ FarTriangle (triTarget (t i)) (t j)) := by
  unfold Spec.farElements
  rw [List.mem_filter, List.mem_range, decide_eq_true_iff, farTriangle_iff, triTarget_eq]

theorem sum_far_near (g : Nat → ℝ) : ∑ j ∈ Finset.range n, g j = ((Spec.farElements n t i).map g).sum + ((Spec.nearElements n t i).map g).sum := by
  have : ∑ j ∈ Finset.range n, g j = ((List.range n).map g).sum := by
    simp [Finset.sum, Finset.range, Multiset.range]
  classical
  rw [this, sum_filter_split (List.range n) (fun j => decide (i ≠ j ∧ 5 * V3.norm ((t j).v1 - (t j).v0) < V3.norm (Spec.centroid (t i) - (t j).v0)))]
  unfold Spec.farElements Spec.nearElements
  congr 4
  ext j
  rw [← decide_not]

/-- **C59**, elements with a given potential: however the threads that fill the matrix are scheduled, the row of such an element applied to charges is the potential at the centre
of the element. -/
theorem C59_voltage_partial (hT : 0 < T) (ho : o.Correct n t types) (diag : Nat → ℝ) (sched : List Nat)
    (hjoin : Joined sched (matrixProgs false n T (fillOps3d o t types values))) :
    ∃ A, getMatrix false n T (fillOps3d o t types values) diag sched = some A ∧
      ∀ i < n, (types i = some .voltageFixed ∨ types i = some .voltageFun ∨ types i = some .magnetostaticPot) →
        ∀ q : Nat → ℝ, Spec.PotentialAtCentre n t q i (∑ j ∈ Finset.range n, A i j * q j) := by
  obtain ⟨A, h1, h2⟩ := C36_threeD n T hT (fillOps3d o t types values) diag sched hjoin
  refine ⟨A, h1, fun i hi hty q => ⟨fun j => o.pot (t j) (triTarget (t i)), ?_, ?_⟩⟩
  · intro j hj
    rw [mem_nearElements] at hj
    have hc := ho i hi j hj.1 (by tauto)
    rw [← triTarget_eq]
    rcases hty with h | h | h <;> (rw [h] at hc; exact hc)
  · rw [sum_far_near (i := i) (t := t)]
    unfold potential3d
    rw [EffCharges.loop_eq, superpose_triCharges]
    congr 2
    · refine List.map_congr_left fun j hj => ?_
      rw [mem_farElements] at hj
      rw [h2 i j hi hj.1, entry_voltage hty, if_pos hj.2, triTarget_eq]
      ring
    · refine List.map_congr_left fun j hj => ?_
      rw [mem_nearElements] at hj
      rw [h2 i j hi hj.1, entry_voltage hty, if_neg hj.2]
      ring

theorem field_along (p n : V3) (t : Nat → Tri3) (q : Nat → ℝ) (l : List Nat) :
    V3.dot n (field3d p (triCharges (l.map t) (l.map q))) =
      (l.map fun j => q j * (((jacRow (t j)).zip (posRow (t j))).map fun k => k.1 * fieldDotNormal3d p k.2 n).sum).sum := by
  unfold field3d V3.dot
  simp only [EffCharges.loopSub_eq, superpose_triCharges]
  induction l with
  | nil => simp
  | cons a l ih =>
    simp only [List.map_cons, List.sum_cons] at ih ⊢
    rw [← ih]
    have : ∀ ks : List (ℝ × V3), (ks.map fun k => k.1 * fieldDotNormal3d p k.2 n).sum =
        -(n.x * (ks.map fun k => k.1 * dx1Potential3dPoint p k.2).sum + n.y * (ks.map fun k => k.1 * dy1Potential3dPoint p k.2).sum +
          n.z * (ks.map fun k => k.1 * dz1Potential3dPoint p k.2).sum) := by
      intro ks
      induction ks with
      | nil => simp
      | cons k ks ihk =>
        simp only [List.map_cons, List.sum_cons]
        rw [ihk, fieldDotNormal3d]
        ring
    rw [this]
    ring

/-- **C59**, dielectric and magnetizable elements: the equation of such an element, with right hand side minus the factor times an external field (that of the coils; 0 in
electrostatics), holds if and only if the interface condition does. -/
theorem C59_interface_partial (hT : 0 < T) (ho : o.Correct n t types) (diag : Nat → ℝ) (sched : List Nat)
    (hjoin : Joined sched (matrixProgs false n T (fillOps3d o t types values))) :
    ∃ A, getMatrix false n T (fillOps3d o t types values) diag sched = some A ∧
      ∀ i < n, (types i = some .dielectric ∨ types i = some .magnetizable) → values i ≠ -1 →
        ∀ q : Nat → ℝ, ∃ e, Spec.NormalFieldAtCentre n t q i e ∧
          ∀ external : ℝ, ∑ j ∈ Finset.range n, A i j * q j = -fluxDensityToChargeFactor (values i) * external ↔
            Spec.InterfaceCondition (values i) (e + external) (q i) := by
  obtain ⟨A, h1, h2⟩ := C36_threeD n T hT (fillOps3d o t types values) diag sched hjoin
  refine ⟨A, h1, fun i hi hty hK q => ⟨_, ⟨fun j => o.flux (t j) (triTarget (t i)) (normal3d (t i).v0 (t i).v1 (t i).v2), ?_, rfl⟩, ?_⟩⟩
  · intro j hj hji
    rw [mem_nearElements] at hj
    have hc := ho i hi j hj.1 (by tauto)
    rw [← triTarget_eq]
    rcases hty with h | h <;> (rw [h] at hc; exact hc (Ne.symm hji))
  · intro external
    have hnear : i ∈ Spec.nearElements n t i := by rw [mem_nearElements]; simp [hi]
    have hnd : (Spec.nearElements n t i).Nodup := List.Nodup.filter _ List.nodup_range
    have hown : ((Spec.nearElements n t i).map fun j => A i j * q j).sum =
        -q i + fluxDensityToChargeFactor (values i) *
          (((Spec.nearElements n t i).filter (· ≠ i)).map fun j => q j * (o.flux (t j) (triTarget (t i)) (normal3d (t i).v0 (t i).v1 (t i).v2) / (4 * Real.pi))).sum := by
      rw [sum_filter_split (Spec.nearElements n t i) (fun j => decide (j ≠ i)), add_comm]
      congr 1
      · have : (Spec.nearElements n t i).filter (fun j => !decide (j ≠ i)) = [i] := by
          have e1 : (fun j => !decide (j ≠ i)) = fun j => j == i := by ext j; simp [beq_eq_decide]
          rw [e1, List.filter_beq, List.count_eq_one_of_mem hnd hnear]
          rfl
        rw [this]
        simp only [List.map_cons, List.map_nil, List.sum_cons, List.sum_nil, add_zero]
        rw [h2 i i hi hi, entry_flux hty, if_pos rfl]
        ring
      · rw [← List.sum_map_mul_left]
        congr 1
        refine List.map_congr_left fun j hj => ?_
        rw [List.mem_filter, mem_nearElements] at hj
        have hji : j ≠ i := by simpa using hj.2
        rw [h2 i j hi hj.1.1, entry_flux hty, if_neg (Ne.symm hji), if_neg (by tauto)]
        ring
    have hfar : ((Spec.farElements n t i).map fun j => A i j * q j).sum = fluxDensityToChargeFactor (values i) *
        V3.dot (normal3d (t i).v0 (t i).v1 (t i).v2)
          (field3d (Spec.centroid (t i)) (triCharges ((Spec.farElements n t i).map t) ((Spec.farElements n t i).map q))) := by
      rw [field_along, ← List.sum_map_mul_left]
      congr 1
      refine List.map_congr_left fun j hj => ?_
      rw [mem_farElements] at hj
      rw [h2 i j hi hj.1, entry_flux hty, if_neg hj.2.1, if_pos hj.2.2, triTarget_eq]
      ring
    rw [sum_far_near (i := i) (t := t), hown, hfar]
    generalize V3.dot (normal3d (t i).v0 (t i).v1 (t i).v2)
          (field3d (Spec.centroid (t i)) (triCharges ((Spec.farElements n t i).map t) ((Spec.farElements n t i).map q))) = e1
    generalize (((Spec.nearElements n t i).filter (· ≠ i)).map fun j => q j * (o.flux (t j) (triTarget (t i)) (normal3d (t i).v0 (t i).v1 (t i).v2) / (4 * Real.pi))).sum = e2
    unfold Spec.InterfaceCondition fluxDensityToChargeFactor
    have h : 1 + values i ≠ 0 := fun h => hK (by linarith)
    rw [show (2 * (values i - 1) / (1 + values i) * e1 + (-q i + 2 * (values i - 1) / (1 + values i) * e2) =
      -(2 * (values i - 1) / (1 + values i)) * external) ↔ q i = 2 * (values i - 1) * (e1 + e2 + external) / (1 + values i) by
        constructor <;> intro h <;> field_simp at h ⊢ <;> linarith]
    rw [eq_div_iff h]
    constructor <;> intro h <;> linarith

end
end Traceon
