import Verif.Lemmas.RingVacuum
import Verif.Props.VacuumRadial3

/-!
# C109 at all points, also on the axis
-/
namespace Traceon
open Spec Excitation V3 Real

theorem Spec.VacuumField.smul {F : V3 → V3} {p : V3} (h : VacuumField F p) (k : ℝ) : VacuumField (fun q => k * F q) p := by
  obtain ⟨gx, gy, gz, h1, h2, h3, h4, h5, h6, h7⟩ := h
  refine ⟨k * gx, k * gy, k * gz, (h1.smul k).congr fun q => by simp, (h2.smul k).congr fun q => by simp, (h3.smul k).congr fun q => by simp, ?_, ?_, ?_, ?_⟩ <;>
    simp only [V3.smul_x, V3.smul_y, V3.smul_z]
  · linear_combination k * h4
  · linear_combination k * h5
  · linear_combination k * h6
  · linear_combination k * h7

theorem Spec.VacuumField.zero (p : V3) : VacuumField (fun _ => 0) p :=
  ⟨0, 0, 0, (IsGradient.const 0 p).congr fun _ => rfl, (IsGradient.const 0 p).congr fun _ => rfl, (IsGradient.const 0 p).congr fun _ => rfl, by simp, by simp, by simp, by simp⟩

theorem vacuum_sum {α : Type} (g : α → V3 → V3) (l : List α) (p : V3) (h : ∀ a ∈ l, VacuumField (g a) p) :
    VacuumField (fun v => ⟨(l.map fun a => (g a v).x).sum, (l.map fun a => (g a v).y).sum, (l.map fun a => (g a v).z).sum⟩) p := by
  induction l with
  | nil => exact Spec.VacuumField.zero p
  | cons a l ih =>
    have := (h a List.mem_cons_self).add (ih fun b hb => h b (List.mem_cons_of_mem _ hb))
    have e : (fun v => (⟨((a :: l).map fun a => (g a v).x).sum, ((a :: l).map fun a => (g a v).y).sum, ((a :: l).map fun a => (g a v).z).sum⟩ : V3)) =
        fun v => g a v + ⟨(l.map fun a => (g a v).x).sum, (l.map fun a => (g a v).y).sum, (l.map fun a => (g a v).z).sum⟩ := by
      funext v; ext <;> simp
    rw [e]; exact this

theorem vacuum_superpose {P : Type} (f : P → V3 → V3) (e : EffCharges P) (p : V3) (h : ∀ row ∈ e.positions, ∀ q ∈ row, VacuumField (f q) p) :
    VacuumField (fun v => ⟨superpose (fun q => (f q v).x) e, superpose (fun q => (f q v).y) e, superpose (fun q => (f q v).z) e⟩) p := by
  unfold superpose
  refine vacuum_sum (fun (x : ℝ × List ℝ × List P) v => (⟨((x.2.1.zip x.2.2).map fun y => x.1 * y.1 * (f y.2 v).x).sum, ((x.2.1.zip x.2.2).map fun y => x.1 * y.1 * (f y.2 v).y).sum,
    ((x.2.1.zip x.2.2).map fun y => x.1 * y.1 * (f y.2 v).z).sum⟩ : V3)) _ p fun x hx => ?_
  exact vacuum_sum (fun (y : ℝ × P) v => (x.1 * y.1) * f y.2 v) _ p fun y hy =>
    (h _ (List.of_mem_zip (List.of_mem_zip hx).2).2 _ (List.of_mem_zip hy).2).smul _

/-- **C109**, exact statement at all points off the rings, on the axis too: the field of Coulomb's law of the charged rings has divergence zero and curl zero, it is
minus the gradient of the potential of the rings, and this potential satisfies Laplace's equation. -/
theorem C109_rings_everywhere (e : EffCharges (ℝ × ℝ)) (p : V3) (h : ClearOfRings e p) :
    VacuumField (coulombRings e) p ∧ IsGradient (ringsPotential e) (-coulombRings e p) p ∧ Harmonic (ringsPotential e) p := by
  have hv : VacuumField (coulombRings e) p := vacuum_superpose (fun (q : ℝ × ℝ) v => coulombRing q.1 q.2 v) e p fun row hr q hq => coulombRing_vacuum (h row hr q hq).1.le (h row hr q hq).2
  refine ⟨hv, coulombRings_gradient e p h, ?_⟩
  obtain ⟨gx, gy, gz, h1, h2, h3, h4, -⟩ := hv
  obtain ⟨ε, hε, hb⟩ := ball_of_nhds (p := p) (P := fun q => ∀ row ∈ e.positions, ∀ t ∈ row, OffRing q t.1 t.2)
    (off_open e.positions (fun q => q.1) (fun q => q.2) p fun row hr q hq => ⟨(h row hr q hq).1.le, (h row hr q hq).2⟩)
  refine ⟨fun q => -coulombRings e q, ε, -gx, -gy, -gz, hε, fun q hq => ?_, gradient_neg h1, gradient_neg h2, gradient_neg h3, ?_⟩
  · exact coulombRings_gradient e q fun row hr t ht => ⟨(h row hr t ht).1, hb q hq row hr t ht⟩
  · simp only [V3.neg_x, V3.neg_y, V3.neg_z]; linarith

/-- **C109**, exact statement for current rings at all points off the rings, on the axis too: the field of the law of Biot and Savart has divergence zero and curl
zero. -/
theorem C109_loops_everywhere (e : EffCharges V3) (p : V3) (h : ClearOfLoops e p) : VacuumField (loopsField e) p :=
  vacuum_superpose (fun (q : V3) v => ringField q.x q.z v) e p fun row hr q hq => ringField_vacuum (le_trans (by norm_num) (h row hr q hq).1) (h row hr q hq).2

/-- How far the field that the program returns for charged rings may be from the exact one on the axis (**C75**). -/
noncomputable def Spec.ringsErrorAxis (e : EffCharges (ℝ × ℝ)) (p : V3) : ℝ := 2e-13 * absSuperpose (fun q => q.1 / ringNear q.1 q.2 p ^ 2) e

/-- How far the field that the program returns for current rings may be from the exact one on the axis (**C75**). -/
noncomputable def Spec.loopsErrorAxis (e : EffCharges V3) (p : V3) : ℝ := 2e-13 * absSuperpose (fun q => 1 / ringNear q.x q.z p) e

/-- **C109** for the methods of a field object, on the axis: the fields and potentials that are returned differ by no more than the accuracy of the elliptic
integrals from fields and potentials that satisfy the equations of vacuum there. -/
theorem C109_axis (f : FieldRadialBEM) (p : V3) (hx : p.x = 0) (hy : p.y = 0) :
    (ClearOfRings f.elec p → Harmonic (ringsPotential f.elec) p ∧ VacuumField (coulombRings f.elec) p ∧ ∃ u F,
      PyObj.electrostaticPotential p (.radial f) = some u ∧ PyObj.electrostaticField p (.radial f) = some F ∧
      |u - ringsPotential f.elec p| ≤ 4e-13 * absSuperpose (fun q => ringPotential q.1 q.2 p) f.elec ∧ V3.norm (F - coulombRings f.elec p) ≤ ringsErrorAxis f.elec p) ∧
    (ClearOfRings f.mag p → Harmonic (ringsPotential f.mag) p ∧ ∃ u, PyObj.magnetostaticPotential p (.radial f) = some u ∧
      |u - ringsPotential f.mag p| ≤ 4e-13 * absSuperpose (fun q => ringPotential q.1 q.2 p) f.mag) ∧
    (ClearOfRings f.mag p → ClearOfLoops f.cur p → VacuumField (fun q => coulombRings f.mag q + loopsField f.cur q) p ∧ ∃ F,
      PyObj.magnetostaticField p (.radial f) = some F ∧
      V3.norm (F - (coulombRings f.mag p + loopsField f.cur p)) ≤ ringsErrorAxis f.mag p + loopsErrorAxis f.cur p) := by
  refine ⟨fun h => ?_, fun h => ?_, fun h hc => ?_⟩
  · obtain ⟨h1, h2, h3⟩ := C109_rings_everywhere f.elec p h
    exact ⟨h3, h1, _, _, rfl, rfl, C75_potential f.elec p h, (C112_field f.elec p h).2 hx hy⟩
  · obtain ⟨h1, h2, h3⟩ := C109_rings_everywhere f.mag p h
    exact ⟨h3, _, rfl, C75_potential f.mag p h⟩
  · refine ⟨(C109_rings_everywhere f.mag p h).1.add (C109_loops_everywhere f.cur p hc), _, rfl, ?_⟩
    have e1 : currentField p f.cur + fieldRadial p f.mag - (coulombRings f.mag p + loopsField f.cur p) = (fieldRadial p f.mag - coulombRings f.mag p) + (currentField p f.cur - loopsField f.cur p) := by
      ext <;> simp <;> ring
    rw [e1]
    refine (norm_add_three _ _).trans (add_le_add ((C112_field f.mag p h).2 hx hy) ?_)
    have hl : loopsField f.cur p = ⟨f.cur.loop (fun t => (ringField t.x t.z p).x), f.cur.loop (fun t => (ringField t.x t.z p).y), f.cur.loop (fun t => (ringField t.x t.z p).z)⟩ := by
      unfold loopsField; rw [EffCharges.loop_eq, EffCharges.loop_eq, EffCharges.loop_eq]
    rw [hl]
    exact (C75_current_field f.cur p hc).2 ⟨hx, hy⟩

/-- The point in the middle of the rings of `C109_example`. -/
theorem C109_example_axis : let f : FieldRadialBEM := ⟨⟨1, [1], [[1]], [[(1, 0)]]⟩, ⟨1, [2], [[1]], [[(2, 1)]]⟩, ⟨1, [3], [[1]], [[⟨3, 0, -1⟩]]⟩, none⟩
    ClearOfRings f.elec 0 ∧ ClearOfRings f.mag 0 ∧ ClearOfLoops f.cur 0 ∧ coulombRings f.elec ⟨0, 0, 1⟩ ≠ 0 ∧ coulombRings f.elec 0 = 0 := by
  have hr : ∀ r z : ℝ, 0 < r → OffRing 0 r z := by
    intro r z h φ e
    have h1 : r * cos φ = 0 := congrArg V3.x e
    have h2 : r * sin φ = 0 := congrArg V3.y e
    have h3 : r ^ 2 = 0 := by linear_combination r * cos φ * h1 + r * sin φ * h2 - r ^ 2 * sin_sq_add_cos_sq φ
    exact h.ne' (pow_eq_zero_iff (two_ne_zero) |>.1 h3)
  refine ⟨?_, ?_, ?_, ?_, ?_⟩
  · intro row h q hq
    simp only [List.mem_singleton] at h; subst h
    simp only [List.mem_singleton] at hq; subst hq
    exact ⟨one_pos, hr _ _ one_pos⟩
  · intro row h q hq
    simp only [List.mem_singleton] at h; subst h
    simp only [List.mem_singleton] at hq; subst hq
    exact ⟨two_pos, hr _ _ two_pos⟩
  · intro row h q hq
    simp only [List.mem_singleton] at h; subst h
    simp only [List.mem_singleton] at hq; subst hq
    exact ⟨by norm_num, hr _ _ (by norm_num)⟩
  · intro h
    have hz := congrArg V3.z h
    have hn : ∀ φ, V3.norm ((⟨0, 0, 1⟩ : V3) - ⟨cos φ, sin φ, 0⟩) = √2 := fun φ => by
      unfold V3.norm; congr 1
      simp only [dot, V3.sub_x, V3.sub_y, V3.sub_z]
      linear_combination sin_sq_add_cos_sq φ
    simp [coulombRings, superpose, coulombRing, ringPoint] at hz
    simp [hn] at hz
  · unfold coulombRings superpose coulombRing
    have hn : ∀ φ, V3.norm ((0 : V3) - ⟨cos φ, sin φ, 0⟩) = 1 := fun φ => by
      unfold V3.norm
      rw [show dot ((0 : V3) - ⟨cos φ, sin φ, 0⟩) ((0 : V3) - ⟨cos φ, sin φ, 0⟩) = 1 by
        simp only [dot, V3.sub_x, V3.sub_y, V3.sub_z, V3.zero_x, V3.zero_y, V3.zero_z]
        linear_combination sin_sq_add_cos_sq φ]
      simp
    ext <;> simp [ringPoint] <;> simp [hn]

end Traceon
