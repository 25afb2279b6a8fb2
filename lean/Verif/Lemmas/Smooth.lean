import Verif.Model.Tracer
import Verif.Props.Charges
import Verif.Spec.Tracer
import Mathlib.Analysis.InnerProductSpace.Calculus
import Mathlib.Analysis.SpecialFunctions.Sqrt
import Mathlib.Analysis.SpecialFunctions.Log.Deriv

/-!
# Where the forces of the tracers are smooth
-/
namespace Traceon
open Spec Set Filter Topology

variable {E : Type*} [NormedAddCommGroup E] [NormedSpace ℝ E] {n : ℕ∞}

theorem contDiffAt_superpose {P : Type} (e : EffCharges P) (g : P → E → ℝ) {y : E} (h : ∀ row ∈ e.positions, ∀ q ∈ row, ContDiffAt ℝ n (g q) y) :
    ContDiffAt ℝ n (fun y => superpose (fun q => g q y) e) y := by
  unfold superpose
  have inner : ∀ (x : ℝ) (l : List (ℝ × P)), (∀ w ∈ l, ContDiffAt ℝ n (g w.2) y) → ContDiffAt ℝ n (fun y => (l.map fun w => x * w.1 * g w.2 y).sum) y := by
    intro x l
    induction l with
    | nil => intro _; simpa using contDiffAt_const
    | cons w l ih =>
      intro hl
      simp only [List.map_cons, List.sum_cons]
      exact ContDiffAt.add ((hl w (by simp)).const_smul (x * w.1)) (ih fun z hz => hl z (by simp [hz]))
  have outer : ∀ (l : List (ℝ × List ℝ × List P)), (∀ x ∈ l, ∀ w ∈ x.2.1.zip x.2.2, ContDiffAt ℝ n (g w.2) y) →
      ContDiffAt ℝ n (fun y => (l.map fun x => ((x.2.1.zip x.2.2).map fun w => x.1 * w.1 * g w.2 y).sum).sum) y := by
    intro l
    induction l with
    | nil => intro _; simpa using contDiffAt_const
    | cons x l ih =>
      intro hl
      simp only [List.map_cons, List.sum_cons]
      exact ContDiffAt.add (inner x.1 _ (hl x (by simp))) (ih fun z hz => hl z (by simp [hz]))
  refine outer _ ?_
  intro x hx w hw
  exact h x.2.2 (List.of_mem_zip (List.of_mem_zip hx).2).2 w.2 (List.of_mem_zip hw).2

theorem contDiffAt_loop {P : Type} (e : EffCharges P) (g : P → E → ℝ) {y : E} (h : ∀ row ∈ e.positions, ∀ q ∈ row, ContDiffAt ℝ n (g q) y) :
    ContDiffAt ℝ n (fun y => e.loop (fun q => g q y)) y := by
  simpa only [EffCharges.loop_eq] using contDiffAt_superpose e g h

theorem contDiffAt_loopSub {P : Type} (e : EffCharges P) (g : P → E → ℝ) {y : E} (h : ∀ row ∈ e.positions, ∀ q ∈ row, ContDiffAt ℝ n (g q) y) :
    ContDiffAt ℝ n (fun y => e.loopSub (fun q => g q y)) y := by
  simpa only [EffCharges.loopSub_eq] using (contDiffAt_superpose e g h).neg

/-! ## Point charges -/

theorem normSq_pos {a b : V3} (h : a ≠ b) : 0 < (b.x - a.x) * (b.x - a.x) + (b.y - a.y) * (b.y - a.y) + (b.z - a.z) * (b.z - a.z) := by
  have : b.x - a.x ≠ 0 ∨ b.y - a.y ≠ 0 ∨ b.z - a.z ≠ 0 := by
    by_contra hc
    push Not at hc
    exact h (V3.ext (by linarith [hc.1]) (by linarith [hc.2.1]) (by linarith [hc.2.2]))
  rcases this with h | h | h <;> have := mul_self_pos.2 h <;> nlinarith [mul_self_nonneg (b.x - a.x), mul_self_nonneg (b.y - a.y), mul_self_nonneg (b.z - a.z)]

theorem contDiffAt_field3d (e : EffCharges V3) {X Y Z : E → ℝ} {y : E} (hX : ContDiffAt ℝ n X y) (hY : ContDiffAt ℝ n Y y) (hZ : ContDiffAt ℝ n Z y)
    (h : ∀ row ∈ e.positions, ∀ q ∈ row, (⟨X y, Y y, Z y⟩ : V3) ≠ q) :
    ContDiffAt ℝ n (fun y => (field3d ⟨X y, Y y, Z y⟩ e).x) y ∧ ContDiffAt ℝ n (fun y => (field3d ⟨X y, Y y, Z y⟩ e).y) y ∧ ContDiffAt ℝ n (fun y => (field3d ⟨X y, Y y, Z y⟩ e).z) y := by
  have hnorm : ∀ q : V3, (⟨X y, Y y, Z y⟩ : V3) ≠ q → ContDiffAt ℝ n (fun y => 4 * Real.pi * V3.norm (q - ⟨X y, Y y, Z y⟩) ^ 3) y ∧ 4 * Real.pi * V3.norm (q - ⟨X y, Y y, Z y⟩) ^ 3 ≠ 0 := by
    intro q hq
    have hp := normSq_pos hq
    simp only [V3.norm, V3.dot, V3.sub_x, V3.sub_y, V3.sub_z]
    refine ⟨contDiffAt_const.mul (ContDiffAt.pow (ContDiffAt.sqrt (f := fun y => (q.x - X y) * (q.x - X y) + (q.y - Y y) * (q.y - Y y) + (q.z - Z y) * (q.z - Z y)) (n := n) (by fun_prop) hp.ne') 3), ?_⟩
    have := Real.sqrt_pos.2 hp
    have := Real.pi_pos
    positivity
  refine ⟨contDiffAt_loopSub e (fun q y => dx1Potential3dPoint ⟨X y, Y y, Z y⟩ q) fun row hr q hq => ?_,
    contDiffAt_loopSub e (fun q y => dy1Potential3dPoint ⟨X y, Y y, Z y⟩ q) fun row hr q hq => ?_,
    contDiffAt_loopSub e (fun q y => dz1Potential3dPoint ⟨X y, Y y, Z y⟩ q) fun row hr q hq => ?_⟩
  · exact ContDiffAt.div (by fun_prop) (hnorm q (h row hr q hq)).1 (hnorm q (h row hr q hq)).2
  · exact ContDiffAt.div (by fun_prop) (hnorm q (h row hr q hq)).1 (hnorm q (h row hr q hq)).2
  · exact ContDiffAt.div (by fun_prop) (hnorm q (h row hr q hq)).1 (hnorm q (h row hr q hq)).2

/-! ## The force -/

/-- The equation of motion is smooth where the fields are. -/
theorem contDiffAt_motion (em : ℝ) {field : Phase → V3} {y : Fin 6 → ℝ}
    (hx : ContDiffAt ℝ n (fun y : Fin 6 → ℝ => (field ⟨⟨y 0, y 1, y 2⟩, ⟨y 3, y 4, y 5⟩⟩).x) y)
    (hy : ContDiffAt ℝ n (fun y : Fin 6 → ℝ => (field ⟨⟨y 0, y 1, y 2⟩, ⟨y 3, y 4, y 5⟩⟩).y) y)
    (hz : ContDiffAt ℝ n (fun y : Fin 6 → ℝ => (field ⟨⟨y 0, y 1, y 2⟩, ⟨y 3, y 4, y 5⟩⟩).z) y) : ContDiffAt ℝ n (motion em field) y := by
  rw [contDiffAt_pi]
  intro i
  fin_cases i
  · exact contDiffAt_apply (𝕜 := ℝ) (E := ℝ) (n := n) (3 : Fin 6) y
  · exact contDiffAt_apply (𝕜 := ℝ) (E := ℝ) (n := n) (4 : Fin 6) y
  · exact contDiffAt_apply (𝕜 := ℝ) (E := ℝ) (n := n) (5 : Fin 6) y
  · exact contDiffAt_const.mul hx
  · exact contDiffAt_const.mul hy
  · exact contDiffAt_const.mul hz

/-- Combination of electric and magnetic fields. -/
theorem contDiffAt_combine {y : Fin 6 → ℝ} {e m c : (Fin 6 → ℝ) → V3}
    (ex : ContDiffAt ℝ n (fun y => (e y).x) y) (ey : ContDiffAt ℝ n (fun y => (e y).y) y) (ez : ContDiffAt ℝ n (fun y => (e y).z) y)
    (mx : ContDiffAt ℝ n (fun y => (m y).x) y) (my : ContDiffAt ℝ n (fun y => (m y).y) y) (mz : ContDiffAt ℝ n (fun y => (m y).z) y)
    (cx : ContDiffAt ℝ n (fun y => (c y).x) y) (cy : ContDiffAt ℝ n (fun y => (c y).y) y) (cz : ContDiffAt ℝ n (fun y => (c y).z) y) :
    ContDiffAt ℝ n (fun y : Fin 6 → ℝ => (combineElecMagneticField ⟨y 3, y 4, y 5⟩ (e y) (m y) (c y)).x) y ∧
    ContDiffAt ℝ n (fun y : Fin 6 → ℝ => (combineElecMagneticField ⟨y 3, y 4, y 5⟩ (e y) (m y) (c y)).y) y ∧
    ContDiffAt ℝ n (fun y : Fin 6 → ℝ => (combineElecMagneticField ⟨y 3, y 4, y 5⟩ (e y) (m y) (c y)).z) y := by
  simp only [combineElecMagneticField, V3.cross, V3.add_x, V3.add_y, V3.add_z]
  have h3 : ContDiffAt ℝ n (fun y : Fin 6 → ℝ => y 3) y := contDiffAt_apply (𝕜 := ℝ) (E := ℝ) (n := n) (3 : Fin 6) y
  have h4 : ContDiffAt ℝ n (fun y : Fin 6 → ℝ => y 4) y := contDiffAt_apply (𝕜 := ℝ) (E := ℝ) (n := n) (4 : Fin 6) y
  have h5 : ContDiffAt ℝ n (fun y : Fin 6 → ℝ => y 5) y := contDiffAt_apply (𝕜 := ℝ) (E := ℝ) (n := n) (5 : Fin 6) y
  refine ⟨ex.add ?_, ey.add ?_, ez.add ?_⟩ <;> fun_prop

/-- Every point charge is at another place than the particle. -/
def Spec.OffCharges (e : EffCharges V3) (y : Fin 6 → ℝ) : Prop := ∀ row ∈ e.positions, ∀ q ∈ row, (⟨y 0, y 1, y 2⟩ : V3) ≠ q

theorem isOpen_offCharges (e : EffCharges V3) : IsOpen {y | OffCharges e y} := by
  have : {y | OffCharges e y} = ⋂ row ∈ {r | r ∈ e.positions}, ⋂ q ∈ {q | q ∈ row}, {y : Fin 6 → ℝ | y 0 = q.x ∧ y 1 = q.y ∧ y 2 = q.z}ᶜ := by
    ext y
    simp only [mem_iInter, mem_compl_iff]
    refine forall₂_congr fun row hr => forall₂_congr fun q hq => not_congr ⟨fun h => ?_, fun h => V3.ext h.1 h.2.1 h.2.2⟩
    exact ⟨congrArg V3.x h, congrArg V3.y h, congrArg V3.z h⟩
  rw [this]
  refine Set.Finite.isOpen_biInter (List.finite_toSet _) fun row _ => Set.Finite.isOpen_biInter (List.finite_toSet _) fun q _ => ?_
  rw [isOpen_compl_iff]
  exact (isClosed_eq (by fun_prop) continuous_const).inter ((isClosed_eq (by fun_prop) continuous_const).inter (isClosed_eq (by fun_prop) continuous_const))

/-- The force of the tracer for 3D fields. -/
theorem contDiffAt_tracer3d (f : Field3DBEM) (b : Option UserBounds) {y : Fin 6 → ℝ} (he : OffCharges f.elec y) (hm : OffCharges f.mag y) :
    ContDiffAt ℝ n (motion constEM (tracer3dForce f b)) y := by
  have h0 : ContDiffAt ℝ n (fun y : Fin 6 → ℝ => y 0) y := contDiffAt_apply (𝕜 := ℝ) (E := ℝ) (n := n) (0 : Fin 6) y
  have h1 : ContDiffAt ℝ n (fun y : Fin 6 → ℝ => y 1) y := contDiffAt_apply (𝕜 := ℝ) (E := ℝ) (n := n) (1 : Fin 6) y
  have h2 : ContDiffAt ℝ n (fun y : Fin 6 → ℝ => y 2) y := contDiffAt_apply (𝕜 := ℝ) (E := ℝ) (n := n) (2 : Fin 6) y
  obtain ⟨e1, e2, e3⟩ := contDiffAt_field3d f.elec h0 h1 h2 he
  obtain ⟨m1, m2, m3⟩ := contDiffAt_field3d f.mag h0 h1 h2 hm
  obtain ⟨c1, c2, c3⟩ := contDiffAt_combine (c := fun _ => 0) e1 e2 e3 m1 m2 m3 contDiffAt_const contDiffAt_const contDiffAt_const
  have hforce : ∀ p : Phase, tracer3dForce f b p = combineElecMagneticField p.vel (field3d p.pos f.elec) (field3d p.pos f.mag) 0 := by
    intro p
    unfold tracer3dForce field3dTraceable
    rw [if_pos (by intro b hb; cases hb)]
  refine contDiffAt_motion constEM ?_ ?_ ?_
  · simpa only [hforce] using c1
  · simpa only [hforce] using c2
  · simpa only [hforce] using c3

end Traceon
