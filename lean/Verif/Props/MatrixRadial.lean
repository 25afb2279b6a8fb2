import Verif.Spec.MatrixRadial
import Verif.Props.Matrix3D2
import Verif.Props.HigherOrder
import Verif.Model.Solve

/-!
# C72: the rows of the radial matrix express the boundary conditions
-/
namespace Traceon
open Spec

theorem elemPoint_linePos (l : Line4) (α : ℝ) : linePos l α = ((elemPoint l α).x, (elemPoint l α).z) := by
  unfold linePos curvePos curvePos1 elemPoint
  simp only [V3.add_x, V3.add_z, V3.smul_x, V3.smul_z, Prod.mk.injEq]
  constructor <;> ring

theorem elemPoint_y {l : Line4} (h : InHalfPlane l) (α : ℝ) : (elemPoint l α).y = 0 := by
  obtain ⟨⟨h0, h1, h2, h3⟩, _⟩ := h
  simp [elemPoint, h0, h1, h2, h3]

theorem elemTangent_x (l : Line4) (α : ℝ) : (elemTangent l α).x = curveTan1 α l.l0.x l.l2.x l.l3.x l.l1.x := by
  unfold elemTangent
  have e : (fun s => (elemPoint l s).x) = fun s => curvePos1 s l.l0.x l.l2.x l.l3.x l.l1.x := by
    ext s; have := congrArg Prod.fst (elemPoint_linePos l s); exact this.symm
  rw [e]
  exact (curvePos1_deriv α _ _ _ _).deriv

theorem elemTangent_z (l : Line4) (α : ℝ) : (elemTangent l α).z = curveTan1 α l.l0.z l.l2.z l.l3.z l.l1.z := by
  unfold elemTangent
  have e : (fun s => (elemPoint l s).z) = fun s => curvePos1 s l.l0.z l.l2.z l.l3.z l.l1.z := by
    ext s; have := congrArg Prod.snd (elemPoint_linePos l s); exact this.symm
  rw [e]
  exact (curvePos1_deriv α _ _ _ _).deriv

theorem elemTangent_y {l : Line4} (h : InHalfPlane l) (α : ℝ) : (elemTangent l α).y = 0 := by
  unfold elemTangent
  have e : (fun s => (elemPoint l s).y) = fun _ => 0 := by ext s; exact elemPoint_y h s
  rw [e]
  simp

theorem elemTangent_norm {l : Line4} (h : InHalfPlane l) (α : ℝ) : V3.norm (elemTangent l α) = lineJac l α := by
  obtain ⟨dx, dz, hx, hz, hj⟩ := C54_jacobian l.l0 l.l2 l.l3 l.l1 α
  unfold lineJac
  rw [hj, hx.unique (curvePos1_deriv α _ _ _ _), hz.unique (curvePos1_deriv α _ _ _ _)]
  unfold V3.norm V3.dot
  rw [elemTangent_x, elemTangent_y h, elemTangent_z]
  congr 1
  ring

theorem elemNormal_eq {l : Line4} (h : InHalfPlane l) : elemNormal l = ⟨(lineNormal l).1, 0, (lineNormal l).2⟩ := by
  have hn : V3.norm (elemTangent l 0) = Real.sqrt ((elemTangent l 0).z * (elemTangent l 0).z + -(elemTangent l 0).x * -(elemTangent l 0).x) := by
    unfold V3.norm V3.dot
    rw [elemTangent_y h]
    congr 1
    ring
  unfold elemNormal lineNormal curveNormal normal2d
  rw [hn, elemTangent_x, elemTangent_z]
  simp only [sub_zero]

theorem norm2d_of_nonneg {x : ℝ} (hx : 0 ≤ x) : norm2d x 0 = x := by
  unfold norm2d
  rw [mul_zero, add_zero, Real.sqrt_mul_self hx]

/-- The charges of several lines superpose. -/
theorem superpose_lineCharges (f : ℝ × ℝ → ℝ) (t : Nat → Line4) (q : Nat → ℝ) (l : List Nat) :
    Spec.superpose f (lineCharges (l.map t) (l.map q)) =
      (l.map fun j => q j * (((lineJacRow (t j)).zip (linePosRow (t j))).map fun k => k.1 * f k.2).sum).sum := by
  unfold Spec.superpose lineCharges
  induction l with
  | nil => simp
  | cons a l ih =>
    simp only [List.map_cons, List.zip_cons_cons, List.sum_cons]
    rw [ih, ← List.sum_map_mul_left]
    congr 2
    refine List.map_congr_left fun k _ => ?_
    ring

theorem sum_others {n i : Nat} (hi : i < n) (g : Nat → ℝ) : ∑ j ∈ Finset.range n, g j = ((otherElements n i).map g).sum + g i := by
  have : ∑ j ∈ Finset.range n, g j = ((List.range n).map g).sum := by
    simp [Finset.sum, Finset.range, Multiset.range]
  rw [this, sum_filter_split (List.range n) (fun j => decide (j ≠ i))]
  unfold otherElements
  congr 1
  have e1 : (fun j => !decide (j ≠ i)) = fun j => j == i := by ext j; simp [beq_eq_decide]
  rw [e1, List.filter_beq, List.count_eq_one_of_mem List.nodup_range (List.mem_range.2 hi)]
  simp

theorem mem_otherElements {n i j : Nat} : j ∈ otherElements n i ↔ j < n ∧ j ≠ i := by
  unfold otherElements
  simp

section
variable {n T : Nat} {l : Nat → Line4} {types : Nat → Option ExcType} {values : Nat → ℝ} {i : Nat}

theorem entryRadial_voltage (h : types i = some .voltageFixed ∨ types i = some .voltageFun ∨ types i = some .magnetostaticPot) (j : Nat) :
    (fillOpsRadial l types values i j).foldl EntryOp.apply 0 =
      (((lineJacRow (l j)).zip (linePosRow (l j))).map fun k => k.1 * potentialRadialRing (linePos (l i) 0).1 (linePos (l i) 0).2 k.2.1 k.2.2).sum := by
  unfold fillOpsRadial
  rcases h with h | h | h <;> rw [h] <;> simp only <;> rw [foldl_add_ops_map, zero_add]

theorem entryRadial_flux (h : types i = some .dielectric ∨ types i = some .magnetizable) (j : Nat) :
    (fillOpsRadial l types values i j).foldl EntryOp.apply 0 =
      fluxDensityToChargeFactor (values i) * (((lineJacRow (l j)).zip (linePosRow (l j))).map fun k =>
        k.1 * ((lineNormal (l i)).1 * -dr1PotentialRadialRing (linePos (l i) 0).1 (linePos (l i) 0).2 k.2.1 k.2.2 +
          (lineNormal (l i)).2 * -dz1PotentialRadialRing (linePos (l i) 0).1 (linePos (l i) 0).2 k.2.1 k.2.2)).sum := by
  have key : (fillOpsRadial l types values i j).foldl EntryOp.apply 0 = (((lineJacRow (l j)).zip (linePosRow (l j))).map fun k =>
      k.1 * fieldDotNormalRadial (linePos (l i) 0).1 (linePos (l i) 0).2 k.2.1 k.2.2 (lineNormal (l i)) (values i)).sum := by
    unfold fillOpsRadial
    rcases h with h | h <;> rw [h] <;> simp only <;> rw [foldl_add_ops_map, zero_add]
  rw [key, ← List.sum_map_mul_left]
  congr 1
  refine List.map_congr_left fun k _ => ?_
  unfold fieldDotNormalRadial
  ring

theorem diagRadial_voltage (h : types i = some .voltageFixed ∨ types i = some .voltageFun ∨ types i = some .magnetostaticPot) (hl : InHalfPlane (l i)) :
    diagRadial l types values i = alongElem (l i) fun p => potentialRadialRing (elemPoint (l i) 0).x (elemPoint (l i) 0).z p.x p.z := by
  unfold diagRadial alongElem
  rcases h with h | h | h <;> rw [h] <;> simp only <;>
    (refine intervalIntegral.integral_congr fun α _ => ?_
     simp only [selfPotentialRadial, elemTangent_norm hl, elemPoint_linePos])

theorem diagRadial_flux (h : types i = some .dielectric ∨ types i = some .magnetizable) (hl : InHalfPlane (l i)) :
    diagRadial l types values i = fluxDensityToChargeFactor (values i) * (alongElem (l i) fun p => V3.dot (elemNormal (l i))
      ⟨-dr1PotentialRadialRing (elemPoint (l i) 0).x (elemPoint (l i) 0).z p.x p.z, 0, -dz1PotentialRadialRing (elemPoint (l i) 0).x (elemPoint (l i) 0).z p.x p.z⟩) - 1 := by
  have key : diagRadial l types values i = (∫ α in (-1 : ℝ)..1, selfFieldDotNormalRadial α (l i) (values i)) - 1 := by
    unfold diagRadial
    rcases h with h | h <;> rw [h]
  rw [key]
  unfold alongElem
  rw [← intervalIntegral.integral_const_mul]
  congr 1
  refine intervalIntegral.integral_congr fun α _ => ?_
  simp only [selfFieldDotNormalRadial, fieldDotNormalRadial, elemTangent_norm hl, elemPoint_linePos, elemNormal_eq hl, V3.dot]
  ring

/-- **C72**, elements with a given potential: if there are at least twice as many elements as threads (see `C36_refuted`), then however the threads are scheduled, the row of such an
element applied to charges is the potential at the centre of the element.

Missing in all theorems of C72: fewer elements, the error of `scipy.integrate.quad`, and that of the 16-point rule for nearby elements. -/
theorem C72_voltage_partial (hT : 0 < T) (hn : 2 * T ≤ n) (hl : ∀ i < n, InHalfPlane (l i)) (sched : List Nat)
    (hjoin : Joined sched (matrixProgs true n T (fillOpsRadial l types values))) :
    ∃ A, getMatrix true n T (fillOpsRadial l types values) (diagRadial l types values) sched = some A ∧
      ∀ i < n, (types i = some .voltageFixed ∨ types i = some .voltageFun ∨ types i = some .magnetostaticPot) →
        ∀ q : Nat → ℝ, ∑ j ∈ Finset.range n, A i j * q j = radialPotentialAtCentre n l q i := by
  obtain ⟨A, h1, h2⟩ := C36_radial_partial n T hT hn (fillOpsRadial l types values) (diagRadial l types values) sched hjoin
  refine ⟨A, h1, fun i hi hty q => ?_⟩
  rw [sum_others hi]
  unfold radialPotentialAtCentre potentialRadial othersCharges
  rw [EffCharges.loop_eq, superpose_lineCharges, h2 i i hi hi, if_pos rfl, diagRadial_voltage hty (hl i hi), elemPoint_y (hl i hi), norm2d_of_nonneg (hl i hi).2]
  congr 1
  · congr 1
    refine List.map_congr_left fun j hj => ?_
    rw [mem_otherElements] at hj
    rw [h2 i j hi hj.1, if_neg (Ne.symm hj.2), entryRadial_voltage hty, elemPoint_linePos]
    ring
  · ring

theorem fieldRadial_along {l0 : Line4} (h : InHalfPlane l0) (t : Nat → Line4) (q : Nat → ℝ) (js : List Nat) :
    V3.dot (elemNormal l0) (fieldRadial (elemPoint l0 0) (lineCharges (js.map t) (js.map q))) =
      (js.map fun j => q j * (((lineJacRow (t j)).zip (linePosRow (t j))).map fun k =>
        k.1 * ((lineNormal l0).1 * -dr1PotentialRadialRing (elemPoint l0 0).x (elemPoint l0 0).z k.2.1 k.2.2 +
          (lineNormal l0).2 * -dz1PotentialRadialRing (elemPoint l0 0).x (elemPoint l0 0).z k.2.1 k.2.2)).sum).sum := by
  have hr := norm2d_of_nonneg h.2
  have hx : (fieldRadial (elemPoint l0 0) (lineCharges (js.map t) (js.map q))).x =
      -Spec.superpose (fun k => dr1PotentialRadialRing (elemPoint l0 0).x (elemPoint l0 0).z k.1 k.2) (lineCharges (js.map t) (js.map q)) := by
    unfold fieldRadial fromRadial
    rw [elemPoint_y h, hr, EffCharges.loopSub_eq]
    split
    · rename_i h1
      have : (elemPoint l0 0).x ≠ 0 := by
        have : (0 : ℝ) < minDistanceAxis := by norm_num [minDistanceAxis]
        linarith
      simp only
      rw [div_self this, one_mul]
    · rename_i h1
      push Not at h1
      rw [superpose_lineCharges]
      have : ∀ k : ℝ × ℝ, dr1PotentialRadialRing (elemPoint l0 0).x (elemPoint l0 0).z k.1 k.2 = 0 := by
        intro k
        unfold dr1PotentialRadialRing dr1RingWith
        rw [if_pos h1]
      simp [this]
  have hz : (fieldRadial (elemPoint l0 0) (lineCharges (js.map t) (js.map q))).z =
      -Spec.superpose (fun k => dz1PotentialRadialRing (elemPoint l0 0).x (elemPoint l0 0).z k.1 k.2) (lineCharges (js.map t) (js.map q)) := by
    unfold fieldRadial fromRadial
    rw [elemPoint_y h, hr, EffCharges.loopSub_eq, EffCharges.loopSub_eq]
    split <;> rfl
  rw [elemNormal_eq h]
  unfold V3.dot
  rw [hx, hz]
  simp only [superpose_lineCharges]
  induction js with
  | nil => simp
  | cons a js ih =>
    simp only [List.map_cons, List.sum_cons]
    have ih' : (lineNormal l0).1 * -(js.map fun j => q j * (((lineJacRow (t j)).zip (linePosRow (t j))).map fun k => k.1 * dr1PotentialRadialRing (elemPoint l0 0).x (elemPoint l0 0).z k.2.1 k.2.2).sum).sum +
        (lineNormal l0).2 * -(js.map fun j => q j * (((lineJacRow (t j)).zip (linePosRow (t j))).map fun k => k.1 * dz1PotentialRadialRing (elemPoint l0 0).x (elemPoint l0 0).z k.2.1 k.2.2).sum).sum =
        (js.map fun j => q j * (((lineJacRow (t j)).zip (linePosRow (t j))).map fun k =>
        k.1 * ((lineNormal l0).1 * -dr1PotentialRadialRing (elemPoint l0 0).x (elemPoint l0 0).z k.2.1 k.2.2 +
          (lineNormal l0).2 * -dz1PotentialRadialRing (elemPoint l0 0).x (elemPoint l0 0).z k.2.1 k.2.2)).sum).sum := by
      clear hx hz ih
      induction js with
      | nil => simp
      | cons b js ih =>
        simp only [List.map_cons, List.sum_cons]
        rw [← ih]
        have : ∀ ks : List (ℝ × ℝ × ℝ), (ks.map fun k => k.1 * ((lineNormal l0).1 * -dr1PotentialRadialRing (elemPoint l0 0).x (elemPoint l0 0).z k.2.1 k.2.2 +
            (lineNormal l0).2 * -dz1PotentialRadialRing (elemPoint l0 0).x (elemPoint l0 0).z k.2.1 k.2.2)).sum =
          (lineNormal l0).1 * -(ks.map fun k => k.1 * dr1PotentialRadialRing (elemPoint l0 0).x (elemPoint l0 0).z k.2.1 k.2.2).sum +
          (lineNormal l0).2 * -(ks.map fun k => k.1 * dz1PotentialRadialRing (elemPoint l0 0).x (elemPoint l0 0).z k.2.1 k.2.2).sum := by
          intro ks
          induction ks with
          | nil => simp
          | cons k ks ihk => simp only [List.map_cons, List.sum_cons]; rw [ihk]; ring
        rw [this]
        ring
    rw [← ih']
    have : ∀ ks : List (ℝ × ℝ × ℝ), (ks.map fun k => k.1 * ((lineNormal l0).1 * -dr1PotentialRadialRing (elemPoint l0 0).x (elemPoint l0 0).z k.2.1 k.2.2 +
        (lineNormal l0).2 * -dz1PotentialRadialRing (elemPoint l0 0).x (elemPoint l0 0).z k.2.1 k.2.2)).sum =
      (lineNormal l0).1 * -(ks.map fun k => k.1 * dr1PotentialRadialRing (elemPoint l0 0).x (elemPoint l0 0).z k.2.1 k.2.2).sum +
      (lineNormal l0).2 * -(ks.map fun k => k.1 * dz1PotentialRadialRing (elemPoint l0 0).x (elemPoint l0 0).z k.2.1 k.2.2).sum := by
      intro ks
      induction ks with
      | nil => simp
      | cons k ks ihk => simp only [List.map_cons, List.sum_cons]; rw [ihk]; ring
    rw [this]
    ring

/-- **C72**, dielectric and magnetizable elements: the equation of such an element with right hand side minus the factor times an external normal field holds if and only if the
interface condition does. -/
theorem C72_interface_partial (hT : 0 < T) (hn : 2 * T ≤ n) (hl : ∀ i < n, InHalfPlane (l i)) (sched : List Nat)
    (hjoin : Joined sched (matrixProgs true n T (fillOpsRadial l types values))) :
    ∃ A, getMatrix true n T (fillOpsRadial l types values) (diagRadial l types values) sched = some A ∧
      ∀ i < n, (types i = some .dielectric ∨ types i = some .magnetizable) → values i ≠ -1 →
        ∀ (q : Nat → ℝ) (external : ℝ), ∑ j ∈ Finset.range n, A i j * q j = -fluxDensityToChargeFactor (values i) * external ↔
          InterfaceCondition (values i) (radialNormalFieldAtCentre n l q i + external) (q i) := by
  obtain ⟨A, h1, h2⟩ := C36_radial_partial n T hT hn (fillOpsRadial l types values) (diagRadial l types values) sched hjoin
  refine ⟨A, h1, fun i hi hty hK q external => ?_⟩
  rw [sum_others hi]
  have hfar : ((otherElements n i).map fun j => A i j * q j).sum = fluxDensityToChargeFactor (values i) *
      V3.dot (elemNormal (l i)) (fieldRadial (elemPoint (l i) 0) (othersCharges n l q i)) := by
    unfold othersCharges
    rw [fieldRadial_along (hl i hi), ← List.sum_map_mul_left]
    congr 1
    refine List.map_congr_left fun j hj => ?_
    rw [mem_otherElements] at hj
    rw [h2 i j hi hj.1, if_neg (Ne.symm hj.2), entryRadial_flux hty, elemPoint_linePos]
    ring
  rw [hfar, h2 i i hi hi, if_pos rfl, diagRadial_flux hty (hl i hi)]
  unfold radialNormalFieldAtCentre
  generalize V3.dot (elemNormal (l i)) (fieldRadial (elemPoint (l i) 0) (othersCharges n l q i)) = e1
  generalize (alongElem (l i) fun p => V3.dot (elemNormal (l i))
      ⟨-dr1PotentialRadialRing (elemPoint (l i) 0).x (elemPoint (l i) 0).z p.x p.z, 0, -dz1PotentialRadialRing (elemPoint (l i) 0).x (elemPoint (l i) 0).z p.x p.z⟩) = e2
  unfold InterfaceCondition fluxDensityToChargeFactor
  have h : 1 + values i ≠ 0 := fun h => hK (by linarith)
  rw [show (2 * (values i - 1) / (1 + values i) * e1 + (2 * (values i - 1) / (1 + values i) * e2 - 1) * q i =
    -(2 * (values i - 1) / (1 + values i)) * external) ↔ q i = 2 * (values i - 1) * (e1 + q i * e2 + external) / (1 + values i) by
      constructor <;> intro h <;> field_simp at h ⊢ <;> linarith]
  rw [eq_div_iff h]
  constructor <;> intro h <;> linarith

/-- **C72**, what solving the linear system achieves in electrostatics: at the centre of every element with a given voltage the potential is that voltage, and at the centre of
every dielectric element the interface condition holds. -/
theorem C72_electrostatic_partial (hT : 0 < T) (hn : 2 * T ≤ n) (hl : ∀ i < n, InHalfPlane (l i)) (sched : List Nat)
    (hjoin : Joined sched (matrixProgs true n T (fillOpsRadial l types values))) {A : Nat → Nat → ℝ} {q : List ℝ}
    (hA : getMatrix true n T (fillOpsRadial l types values) (diagRadial l types values) sched = some A)
    (hq : linSolve (Matrix.of fun i j : Fin n => A i j) (List.ofFn fun i : Fin n => Excitation.rhsElectric (types i) (values i)) = some q) :
    (∀ i < n, types i = some .voltageFixed ∨ types i = some .voltageFun → radialPotentialAtCentre n l (q.getD · 0) i = values i) ∧
    (∀ i < n, types i = some .dielectric → values i ≠ -1 →
      InterfaceCondition (values i) (radialNormalFieldAtCentre n l (q.getD · 0) i) (q.getD i 0)) := by
  have row : ∀ i < n, ∑ j ∈ Finset.range n, A i j * q.getD j 0 = Excitation.rhsElectric (types i) (values i) := by
    intro i hi
    have := linSolve_spec hq ⟨i, hi⟩
    rw [Finset.sum_range]
    simp only [Matrix.of_apply] at this
    rw [this]
    simp [List.getD, hi]
  constructor
  · intro i hi hty
    obtain ⟨A', hA', hp⟩ := C72_voltage_partial hT hn hl sched hjoin
    rw [hA, Option.some.injEq] at hA'
    subst hA'
    rw [← hp i hi (by tauto) (q.getD · 0), row i hi]
    rcases hty with h | h <;> rw [h] <;> rfl
  · intro i hi hty hK
    obtain ⟨A', hA', hp⟩ := C72_interface_partial hT hn hl sched hjoin
    rw [hA, Option.some.injEq] at hA'
    subst hA'
    have := (hp i hi (Or.inl hty) hK (q.getD · 0) 0).1 (by rw [row i hi, hty]; simp [Excitation.rhsElectric])
    rwa [add_zero] at this

/-- **C72**, the same for magnetostatics with coils: at the centre of every element with a given magnetic potential the potential of the charges is that value, and on magnetizable elements the
interface condition holds for the field of the charges and the coils together. -/
theorem C72_magnetostatic_partial (coils : EffCharges V3) (hT : 0 < T) (hn : 2 * T ≤ n) (hl : ∀ i < n, InHalfPlane (l i)) (sched : List Nat)
    (hjoin : Joined sched (matrixProgs true n T (fillOpsRadial l types values))) {A : Nat → Nat → ℝ} {q : List ℝ}
    (hA : getMatrix true n T (fillOpsRadial l types values) (diagRadial l types values) sched = some A)
    (hq : linSolve (Matrix.of fun i j : Fin n => A i j)
      (List.ofFn fun i : Fin n => Excitation.rhsMagnetic (fun k => fluxTermRadial coils (l k)) i (types i) (values i)) = some q) :
    (∀ i < n, types i = some .magnetostaticPot → radialPotentialAtCentre n l (q.getD · 0) i = values i) ∧
    (∀ i < n, types i = some .magnetizable → values i ≠ -1 →
      InterfaceCondition (values i) (radialNormalFieldAtCentre n l (q.getD · 0) i + V3.dot (elemNormal (l i)) (currentField (elemPoint (l i) 0) coils)) (q.getD i 0)) := by
  have row : ∀ i < n, ∑ j ∈ Finset.range n, A i j * q.getD j 0 =
      Excitation.rhsMagnetic (fun k => fluxTermRadial coils (l k)) i (types i) (values i) := by
    intro i hi
    have := linSolve_spec hq ⟨i, hi⟩
    rw [Finset.sum_range]
    simp only [Matrix.of_apply] at this
    rw [this]
    simp [List.getD, hi]
  constructor
  · intro i hi hty
    obtain ⟨A', hA', hp⟩ := C72_voltage_partial hT hn hl sched hjoin
    rw [hA, Option.some.injEq] at hA'
    subst hA'
    rw [← hp i hi (by tauto) (q.getD · 0), row i hi, hty]
    rfl
  · intro i hi hty hK
    obtain ⟨A', hA', hp⟩ := C72_interface_partial hT hn hl sched hjoin
    rw [hA, Option.some.injEq] at hA'
    subst hA'
    refine (hp i hi (Or.inr hty) hK (q.getD · 0) _).1 ?_
    rw [row i hi, hty]
    have hc : lineCentre (l i) = elemPoint (l i) 0 := by
      unfold lineCentre
      rw [elemPoint_linePos]
      ext
      · rfl
      · exact (elemPoint_y (hl i hi) 0).symm
      · rfl
    simp only [Excitation.rhsMagnetic, fluxTermRadial, hc, elemNormal_eq (hl i hi), V3.dot]
    ring

/-- The hypotheses hold for two cylinders around the axis and one thread. -/
example : ∃ l : Nat → Line4, (∀ i < 2, InHalfPlane (l i)) ∧ ∃ sched,
    Joined sched (matrixProgs true 2 (1 : Nat) (fillOpsRadial l (fun i => if i = 0 then some .voltageFixed else some .dielectric) (fun i => if i = 0 then 10 else 3))) := by
  refine ⟨fun i => ⟨⟨1 + i, 0, 0⟩, ⟨1 + i, 0, 3⟩, ⟨1 + i, 0, 1⟩, ⟨1 + i, 0, 2⟩⟩, ?_, ?_⟩
  · intro i _
    refine ⟨⟨rfl, rfl, rfl, rfl⟩, ?_⟩
    simp [elemPoint]
    have : (0 : ℝ) ≤ i := Nat.cast_nonneg i
    linarith
  · refine exists_joined _ 1 fun t ht => ?_
    unfold matrixProgs
    have : (((arraySplit (List.range 2) ((1 : Nat) : Int)).getD []).getD t []) = [] := by
      have e : (arraySplit (List.range 2) ((1 : Nat) : Int)).getD [] = [[0, 1]] := by decide
      rw [e]
      match t, ht with
      | t + 1, _ => rfl
    rw [this]
    rfl

end
end Traceon
