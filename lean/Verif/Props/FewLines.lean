import Verif.Props.SolveField2
import Verif.Props.Threads2
import Verif.Spec.FewLines

/-!
# C36, C72, C80: radially symmetric problems with any number of lines and threads
-/
namespace Traceon
open Spec Excitation

section
variable {n T : Nat} {l : Nat → Line4} {types : Nat → Option ExcType} {values : Nat → ℝ} {i : Nat}

theorem potential_alone (l0 : Line4) (q : ℝ) :
    radialPotentialAtCentre 1 (fun _ => l0) (fun _ => q) 0 = q * alongElem l0 fun p => potentialRadialRing (elemPoint l0 0).x (elemPoint l0 0).z p.x p.z := by
  unfold radialPotentialAtCentre potentialRadial othersCharges
  rw [EffCharges.loop_eq, superpose_lineCharges]
  simp [otherElements]

theorem field_alone {l0 : Line4} (h : InHalfPlane l0) (q : ℝ) :
    radialNormalFieldAtCentre 1 (fun _ => l0) (fun _ => q) 0 = q * alongElem l0 fun p => V3.dot (elemNormal l0)
      ⟨-dr1PotentialRadialRing (elemPoint l0 0).x (elemPoint l0 0).z p.x p.z, 0, -dz1PotentialRadialRing (elemPoint l0 0).x (elemPoint l0 0).z p.x p.z⟩ := by
  unfold radialNormalFieldAtCentre othersCharges
  rw [fieldRadial_along h]
  simp [otherElements]

/-- **C72**, elements with a given potential, for any number of elements and threads and every schedule: the row of one of the first `2 (n - T)` elements applied to charges is the potential
at the centre of the element; the row of another one is the potential of the element alone.

Missing: the error of `scipy.integrate.quad`, and that of the 16-point rule for nearby elements. -/
theorem C72_voltage_rows_partial (hT : 0 < T) (hl : ∀ i < n, InHalfPlane (l i)) (sched : List Nat)
    (hjoin : Joined sched (matrixProgs true n T (fillOpsRadial l types values))) :
    ∃ A, getMatrix true n T (fillOpsRadial l types values) (diagRadial l types values) sched = some A ∧
      ∀ i < n, (types i = some .voltageFixed ∨ types i = some .voltageFun ∨ types i = some .magnetostaticPot) →
        ∀ q : Nat → ℝ, (i + 2 * T < 2 * n → ∑ j ∈ Finset.range n, A i j * q j = radialPotentialAtCentre n l q i) ∧
          (2 * n ≤ i + 2 * T → ∑ j ∈ Finset.range n, A i j * q j = radialPotentialAtCentre 1 (fun _ => l i) (fun _ => q i) 0) := by
  obtain ⟨A, h1, h2⟩ := C36_radial n T hT (fillOpsRadial l types values) (diagRadial l types values) sched hjoin
  refine ⟨A, h1, fun i hi hty q => ⟨fun hc => ?_, fun hc => ?_⟩⟩
  · rw [sum_others hi]
    unfold radialPotentialAtCentre potentialRadial othersCharges
    rw [EffCharges.loop_eq, superpose_lineCharges, h2 i i hi hi, if_pos rfl, diagRadial_voltage hty (hl i hi), elemPoint_y (hl i hi), norm2d_of_nonneg (hl i hi).2]
    congr 1
    · congr 1
      refine List.map_congr_left fun j hj => ?_
      rw [mem_otherElements] at hj
      rw [h2 i j hi hj.1, if_neg (Ne.symm hj.2), if_pos hc, entryRadial_voltage hty, elemPoint_linePos]
      ring
    · ring
  · rw [sum_others hi, potential_alone, h2 i i hi hi, if_pos rfl, diagRadial_voltage hty (hl i hi)]
    rw [List.map_congr_left (g := fun _ => (0 : ℝ)) (fun j hj => by
      rw [mem_otherElements] at hj
      rw [h2 i j hi hj.1, if_neg (Ne.symm hj.2), if_neg (by omega), zero_mul])]
    simp [mul_comm]

/-- **C72**, dielectric and magnetizable elements, for any number of elements and threads and every schedule: the equation of one of the first `2 (n - T)` elements with right hand side minus the factor
times an external normal field holds if and only if the interface condition does; that of another one if and only if the interface condition does for the element alone. -/
theorem C72_interface_rows_partial (hT : 0 < T) (hl : ∀ i < n, InHalfPlane (l i)) (sched : List Nat)
    (hjoin : Joined sched (matrixProgs true n T (fillOpsRadial l types values))) :
    ∃ A, getMatrix true n T (fillOpsRadial l types values) (diagRadial l types values) sched = some A ∧
      ∀ i < n, (types i = some .dielectric ∨ types i = some .magnetizable) → values i ≠ -1 →
        ∀ (q : Nat → ℝ) (external : ℝ),
          (i + 2 * T < 2 * n → (∑ j ∈ Finset.range n, A i j * q j = -fluxDensityToChargeFactor (values i) * external ↔
            InterfaceCondition (values i) (radialNormalFieldAtCentre n l q i + external) (q i))) ∧
          (2 * n ≤ i + 2 * T → (∑ j ∈ Finset.range n, A i j * q j = -fluxDensityToChargeFactor (values i) * external ↔
            InterfaceCondition (values i) (radialNormalFieldAtCentre 1 (fun _ => l i) (fun _ => q i) 0 + external) (q i))) := by
  obtain ⟨A, h1, h2⟩ := C36_radial n T hT (fillOpsRadial l types values) (diagRadial l types values) sched hjoin
  refine ⟨A, h1, fun i hi hty hK q external => ?_⟩
  have alg : ∀ e1 e2 : ℝ, fluxDensityToChargeFactor (values i) * e1 + (fluxDensityToChargeFactor (values i) * e2 - 1) * q i = -fluxDensityToChargeFactor (values i) * external ↔
      InterfaceCondition (values i) (e1 + q i * e2 + external) (q i) := by
    intro e1 e2
    unfold InterfaceCondition fluxDensityToChargeFactor
    have h : 1 + values i ≠ 0 := fun h => hK (by linarith)
    rw [show (2 * (values i - 1) / (1 + values i) * e1 + (2 * (values i - 1) / (1 + values i) * e2 - 1) * q i =
      -(2 * (values i - 1) / (1 + values i)) * external) ↔ q i = 2 * (values i - 1) * (e1 + q i * e2 + external) / (1 + values i) by
        constructor <;> intro h <;> field_simp at h ⊢ <;> linarith]
    rw [eq_div_iff h]
    constructor <;> intro h <;> linarith
  refine ⟨fun hc => ?_, fun hc => ?_⟩
  · have hfar : ((otherElements n i).map fun j => A i j * q j).sum = fluxDensityToChargeFactor (values i) *
        V3.dot (elemNormal (l i)) (fieldRadial (elemPoint (l i) 0) (othersCharges n l q i)) := by
      unfold othersCharges
      rw [fieldRadial_along (hl i hi), ← List.sum_map_mul_left]
      congr 1
      refine List.map_congr_left fun j hj => ?_
      rw [mem_otherElements] at hj
      rw [h2 i j hi hj.1, if_neg (Ne.symm hj.2), if_pos hc, entryRadial_flux hty, elemPoint_linePos]
      ring
    rw [sum_others hi, hfar, h2 i i hi hi, if_pos rfl, diagRadial_flux hty (hl i hi)]
    exact alg _ _
  · have hfar : ((otherElements n i).map fun j => A i j * q j).sum = 0 := by
      rw [List.map_congr_left (g := fun _ => (0 : ℝ)) (fun j hj => by
        rw [mem_otherElements] at hj
        rw [h2 i j hi hj.1, if_neg (Ne.symm hj.2), if_neg (by omega), zero_mul])]
      simp
    rw [sum_others hi, hfar, h2 i i hi hi, if_pos rfl, diagRadial_flux hty (hl i hi), field_alone (hl i hi)]
    have := alg 0 (alongElem (l i) fun p => V3.dot (elemNormal (l i))
      ⟨-dr1PotentialRadialRing (elemPoint (l i) 0).x (elemPoint (l i) 0).z p.x p.z, 0, -dz1PotentialRadialRing (elemPoint (l i) 0).x (elemPoint (l i) 0).z p.x p.z⟩)
    simp only [mul_zero, zero_add] at this ⊢
    exact this

end

/-- Radial symmetry: the charges that are found solve the problem. -/
theorem solve_lines_on {x : Excitation ℝ V3} {s : Statics} {st : SolverState} {idx : List Nat} {ls : List Line4} {env : SolveEnv} {q : List ℝ} (hv : Valid x.mesh)
    (hI : InitSpec x s st idx) (hls : st.elems = .lines ls) (h2 : x.symmetry = .radial) (hT : 0 < env.threads)
    (hplane : ∀ l ∈ ls, InHalfPlane l)
    (hj : Joined (env.sched s) (matrixProgs true ls.length env.threads
          (fillOpsRadial (ls.getD · ⟨0, 0, 0, 0⟩) (fun i => (st.types[i]?).join) (st.values.getD · 0))))
    (hq : st.charges env s = some q) : SolvesRadialOn env.threads x s st.coils (lineCharges ls q) := by
  have hel := hI.elems
  rw [hls] at hel
  simp only at hel
  obtain ⟨h2d, hho, hlen, hget⟩ := hel
  have hels : x.elements = x.mesh.lines := by unfold Excitation.elements; rw [h2]; rfl
  have hsize : st.size = ls.length := by unfold SolverState.size; rw [hls]
  have hqlen : q.length = ls.length ∧ (st.size ≠ 0 → ∃ A, st.matrix env s = some A ∧
      ∀ i < ls.length, ∑ j ∈ Finset.range ls.length, A i j * q.getD j 0 = (st.rhs s).getD i 0) := by
    unfold SolverState.charges at hq
    split at hq <;> rename_i h0
    · cases hq
      rw [hsize] at h0
      exact ⟨h0.symm, fun h => absurd hsize (by rw [h0]; exact h)⟩
    · cases hA : st.matrix env s with
      | none => rw [hA] at hq; cases hq
      | some A =>
        rw [hA] at hq
        simp only [Option.bind_eq_bind, Option.bind_some] at hq
        obtain ⟨e1, e2⟩ := linSolve_rows hq
        rw [hsize] at e1 e2
        exact ⟨e1, fun _ => ⟨A, rfl, e2⟩⟩
  have hcols : x.mesh.lineCols = 4 := by simpa [Mesh.isHigherOrder] using hho
  have hline : ∀ (k i : Nat), idx[k]? = some i → ∃ a b c d l, x.mesh.lines[i]? = some [a, b, c, d] ∧ x.mesh.points[a]? = some l.l0 ∧ x.mesh.points[b]? = some l.l1 ∧
        x.mesh.points[c]? = some l.l2 ∧ x.mesh.points[d]? = some l.l3 ∧ ls[k]? = some l ∧ coords x.mesh.points [a, b, c, d] = [l.l0, l.l1, l.l2, l.l3] := by
    intro k i hk
    have hi := ((hI.mem i).1 (List.mem_of_getElem? hk)).1
    rw [hels] at hi
    have he : x.mesh.lines[i]? = some x.mesh.lines[i] := by simp [hi]
    obtain ⟨hl, hb⟩ := hv.lines _ (List.getElem_mem hi)
    have hg := hget k i hk
    rw [hels, he, Option.bind_some] at hg
    rw [hcols] at hl
    generalize x.mesh.lines[i] = e at hl hb hg he
    match e, hl with
    | [a, b, c, d], _ =>
      have ha := hb a (by simp)
      have hb' := hb b (by simp)
      have hc := hb c (by simp)
      have hd := hb d (by simp)
      have : coords x.mesh.points [a, b, c, d] = [x.mesh.points[a], x.mesh.points[b], x.mesh.points[c], x.mesh.points[d]] := by
        unfold coords
        simp [List.filterMap_cons, ha, hb', hc, hd]
      rw [this] at hg
      exact ⟨a, b, c, d, ⟨x.mesh.points[a], x.mesh.points[b], x.mesh.points[c], x.mesh.points[d]⟩, he, by simp [ha], by simp [hb'], by simp [hc], by simp [hd], hg, this⟩
  refine ⟨idx, ls, q, rfl, hlen, hqlen.1.trans hlen, hI.sorted, by rw [← hels]; exact hI.mem, ?_⟩
  intro k i hk
  obtain ⟨a, b, c, d, l, he, hla, hlb, hlc, hld, hlk, hco⟩ := hline k i hk
  refine ⟨⟨a, b, c, d, l, he, hla, hlb, hlc, hld, hlk⟩, ?_⟩
  intro n tv hd htv
  have hkind := typeCheck_of_decides hd htv
  have hnn := hI.numeric n tv htv hkind
  obtain ⟨ht1, ht2⟩ := hI.arrays k i n tv _ hk (by rw [hels]; exact he) hd htv
  have hkl : k < ls.length := (List.getElem?_eq_some_iff.1 hlk).1
  obtain ⟨A, hA, hrow⟩ := hqlen.2 (by rw [hsize]; omega)
  obtain ⟨T, hTT⟩ := Int.eq_ofNat_of_zero_le hT.le
  rw [hTT] at hj hT ⊢
  have hT' : 0 < T := by simpa using hT
  have hl : ∀ i < ls.length, InHalfPlane (ls.getD i ⟨0, 0, 0, 0⟩) := by
    intro i hi
    rw [List.getD_eq_getElem?_getD, List.getElem?_eq_getElem hi]
    exact hplane _ (List.getElem_mem hi)
  unfold SolverState.matrix at hA
  rw [hls, hTT] at hA
  simp only at hA
  obtain ⟨A1, hA1, hp1⟩ := C72_voltage_rows_partial (values := (st.values.getD · 0)) hT' hl (env.sched s) hj
  obtain ⟨A2, hA2, hp2⟩ := C72_interface_rows_partial (values := (st.values.getD · 0)) hT' hl (env.sched s) hj
  have e1 : A1 = A := Option.some.inj (hA1.symm.trans hA)
  have e2 : A2 = A := Option.some.inj (hA2.symm.trans hA)
  subst e1
  subst e2
  have hty : (st.types[k]?).join = some tv.1 := by rw [ht1]; rfl
  have hlD : ls.getD k ⟨0, 0, 0, 0⟩ = l := by rw [List.getD_eq_getElem?_getD, hlk]; rfl
  have hc' : lineCentre l = elemPoint l 0 := by
    unfold lineCentre
    rw [elemPoint_linePos]
    ext
    · rfl
    · exact (elemPoint_y (hplane l (List.mem_of_getElem? hlk)) 0).symm
    · rfl
  have hcen : elementCentre x.mesh (coords x.mesh.points [a, b, c, d]) = elemPoint l 0 := by
    unfold elementCentre
    rw [h2d, hho, hco]
    simp [toLine4, hc']
  have hr := hrow k hkl
  have hval : ∀ w, st.values[k]? = some w → st.values.getD k 0 = w := by intro w hw; rw [List.getD_eq_getElem?_getD, hw]; rfl
  have hkT : ((k : Int) + 2 * (T : Int) < 2 * ls.length ↔ k + 2 * T < 2 * ls.length) ∧ (2 * (ls.length : Int) ≤ k + 2 * (T : Int) ↔ 2 * ls.length ≤ k + 2 * T) := by
    constructor <;> omega
  rw [hkT.1, hkT.2]
  have hqk : ((fun _ => q.getD k 0) : Nat → ℝ) = fun _ => (q.getD · 0) k := rfl
  obtain ⟨ty, v⟩ := tv
  unfold ConditionAlone
  cases s with
  | electrostatic =>
    rw [rhs_electro ht1 ht2] at hr
    cases ty with
    | voltageFixed =>
      obtain ⟨a, rfl⟩ := hnn.2 (by simp)
      have := hp1 k hkl (Or.inl hty) (q.getD · 0)
      rw [hr] at this
      exact ⟨fun h => (this.1 h).symm, fun h => (this.2 h).symm⟩
    | voltageFun =>
      obtain ⟨f, rfl⟩ := hnn.1 rfl
      have := hp1 k hkl (Or.inr (Or.inl hty)) (q.getD · 0)
      rw [hr] at this
      simp only [rhsElectric, hcen] at this
      simp only [ConditionRadial]
      rw [hlD] at this ⊢
      exact ⟨fun h => (this.1 h).symm, fun h => (this.2 h).symm⟩
    | dielectric =>
      obtain ⟨a, rfl⟩ := hnn.2 (by simp)
      refine ⟨fun h hK => ?_, fun h hK => ?_⟩
      · have := ((hp2 k hkl (Or.inl hty) (by rw [hval _ ht2]; exact hK) (q.getD · 0) 0).1 h).1 (by rw [hr]; simp [rhsElectric])
        rw [hval _ ht2, add_zero] at this
        exact this
      · have := ((hp2 k hkl (Or.inl hty) (by rw [hval _ ht2]; exact hK) (q.getD · 0) 0).2 h).1 (by rw [hr]; simp [rhsElectric])
        rw [hval _ ht2, add_zero] at this
        exact this
    | current => simp [typeCheck, ExcType.isElectrostatic] at hkind
    | magnetostaticPot => simp [typeCheck, ExcType.isElectrostatic] at hkind
    | magnetizable => simp [typeCheck, ExcType.isElectrostatic] at hkind
  | magnetostatic =>
    rw [rhs_magneto ht1 ht2] at hr
    cases ty with
    | magnetostaticPot =>
      obtain ⟨a, rfl⟩ := hnn.2 (by simp)
      have := hp1 k hkl (Or.inr (Or.inr hty)) (q.getD · 0)
      rw [hr] at this
      exact ⟨fun h => (this.1 h).symm, fun h => (this.2 h).symm⟩
    | magnetizable =>
      obtain ⟨a, rfl⟩ := hnn.2 (by simp)
      have hrw : rhsMagnetic st.fluxTerm k ExcType.magnetizable a = -fluxDensityToChargeFactor a * V3.dot (elemNormal l) (currentField (elemPoint l 0) st.coils) := by
        simp only [rhsMagnetic, SolverState.fluxTerm, hls, hlk, fluxTermRadial, hc']
        rw [elemNormal_eq (hplane l (List.mem_of_getElem? hlk))]
        simp only [V3.dot]
        ring
      refine ⟨fun h hK => ?_, fun h hK => ?_⟩
      · have := ((hp2 k hkl (Or.inr hty) (by rw [hval _ ht2]; exact hK) (q.getD · 0)
          (V3.dot (elemNormal l) (currentField (elemPoint l 0) st.coils))).1 h).1 (by rw [hr, hval _ ht2]; exact hrw)
        rw [hval _ ht2] at this
        simp only [hlD] at this ⊢
        exact this
      · have := ((hp2 k hkl (Or.inr hty) (by rw [hval _ ht2]; exact hK) (q.getD · 0)
          (V3.dot (elemNormal l) (currentField (elemPoint l 0) st.coils))).2 h).1 (by rw [hr, hval _ ht2]; exact hrw)
        rw [hval _ ht2] at this
        simp only [hlD] at this ⊢
        exact this
    | voltageFixed => simp [typeCheck] at hkind
    | voltageFun => simp [typeCheck] at hkind
    | dielectric => simp [typeCheck] at hkind
    | current => simp [typeCheck] at hkind

/-- What the two solvers return in radial symmetry. -/
theorem solveStatics_lines_on {x : Excitation ℝ V3} {s : Statics} {env : SolveEnv} {f : PyObj} (hv : Valid x.mesh) (hn : x.types.keys.Nodup) (h2 : x.symmetry = .radial)
    (hho : x.mesh.is2d realThirds = true ∨ x.mesh.isHigherOrder = true) (he : FaithfulEnv env x)
    (hplane : ∀ e ∈ x.mesh.lines, ∀ l, toLine4 (coords x.mesh.points e) = some l → 0 ≤ (elemPoint l 0).x) (hf : x.solveStatics env s = some f) :
    ∃ e coils, e.Wf ∧ e.nquad = 16 ∧ SolvesRadialOn env.threads x s coils e ∧ f = toFieldRadial s coils e ∧
      (s = .electrostatic → coils = .empty3d) ∧ (s = .magnetostatic → x.currentCharges = some coils) := by
  unfold solveStatics at hf
  cases hst : x.solverInit s with
  | none => rw [hst] at hf; cases hf
  | some st =>
    rw [hst] at hf
    simp only [Option.bind_eq_bind, Option.bind_some] at hf
    obtain ⟨idx, hI⟩ := solverInit_spec hv hn hst
    have henv := he.2 s st hst
    cases hel : st.elems with
    | tris ts =>
      have := hI.elems
      rw [hel] at this
      rw [this.1, this.2.1] at hho; simp at hho
    | lines ls =>
      rw [hel] at henv
      simp only at henv
      have hels : x.elements = x.mesh.lines := by unfold Excitation.elements; rw [h2]; rfl
      have hel' := hI.elems
      rw [hel] at hel'
      simp only at hel'
      obtain ⟨h2d, _, hlen, hget⟩ := hel'
      have hpl : ∀ l ∈ ls, InHalfPlane l := by
        intro l hl
        obtain ⟨k, hk⟩ := List.mem_iff_getElem?.1 hl
        have hkl : k < idx.length := by rw [← hlen]; exact (List.getElem?_eq_some_iff.1 hk).1
        have hki := List.getElem?_eq_getElem hkl
        have := hget k _ hki
        rw [hk, hels] at this
        cases hli : x.mesh.lines[idx[k]]? with
        | none => rw [hli] at this; cases this
        | some e =>
          rw [hli, Option.bind_some] at this
          refine ⟨?_, hplane e (List.mem_of_getElem? hli) l this.symm⟩
          have hy : ∀ p ∈ coords x.mesh.points e, p.y = 0 := by
            intro p hp
            unfold coords at hp
            obtain ⟨i, _, hi⟩ := List.mem_filterMap.1 hp
            have := List.all_eq_true.1 h2d p (List.mem_of_getElem? hi)
            simpa [realThirds] using this
          revert this hy
          generalize coords x.mesh.points e = c
          intro this hy
          match c, this with
          | [a, b, c, d], this =>
            cases this
            exact ⟨hy _ (by simp), hy _ (by simp), hy _ (by simp), hy _ (by simp)⟩
      unfold SolverState.solve at hf
      cases hq : st.charges env s with
      | none => rw [hq] at hf; cases hf
      | some q =>
        rw [hq, hel] at hf
        simp only [Option.bind_eq_bind, Option.bind_some] at hf
        cases hnew : EffCharges.new 16 q (ls.map lineJacRow) (ls.map linePosRow) with
        | none => rw [hnew] at hf; cases hf
        | some e =>
          rw [hnew] at hf
          simp only [Option.map_some] at hf
          obtain ⟨e1, e2⟩ := EffCharges.new_eq hnew
          refine ⟨e, st.coils, e2, by rw [e1], ?_, ?_⟩
          · have := solve_lines_on hv hI hel h2 he.1 hpl henv hq
            rw [e1]
            exact this
          · have hc := hI.coils
            refine ⟨(Option.some.inj hf).symm, ?_, ?_⟩ <;> (rintro rfl; exact hc)

/-- **C80**, radial symmetry, for any number of lines and threads. Take any sequence of calls that builds an excitation on a valid mesh, and any number of threads and schedule; `x'` is the excitation on the mesh
used for solving. Let the centres of its lines have `r ≥ 0`. If `solve_direct` returns, then it returns a radial field. Its charges are charges on the lines which carry an excitation of the kind. If these are
`n` lines, the first `2 (n - threads)` of them (all, if there are at least twice as many lines as threads) do what their excitation asks for; the others would if there were no other lines. -/
theorem C80_radial {G : Geo V3} (hG : G.Lawful) {m : Mesh V3} (hv : Valid m) {inXZ : V3 → Bool} (hxz : ∀ p, inXZ p = true ↔ p.y = 0) {x0 x x' : Excitation ℝ V3}
    (h0 : Excitation.new m .radial inXZ = some x0) (cs : List (Excitation.Call ℝ V3)) (hx : x = x0.calls G cs) (hx' : x.upgraded G = some x') {env : SolveEnv} (he : FaithfulEnv env x')
    (hplane : ∀ e ∈ x'.mesh.lines, ∀ l, toLine4 (coords x'.mesh.points e) = some l → 0 ≤ (elemPoint l 0).x) {f : PyObj}
    (hf : x.solveField G env = some f) :
    x'.types = x.types ∧ ∃ F, f = .radial F ∧
      (x.isElectrostatic → SolvesRadialOn env.threads x' .electrostatic .empty3d F.elec) ∧ (x.isElectrostatic = false → F.elec.len = 0) ∧
      (x.isMagnetostatic → x'.currentCharges = some F.cur ∧ SolvesRadialOn env.threads x' .magnetostatic F.cur F.mag) ∧
      (x.isMagnetostatic = false → F.mag.len = 0 ∧ F.cur.len = 0) := by
  obtain ⟨e1, e2, e3, e4, _⟩ := calls_facts (G := G) hv h0 cs
  rw [← hx] at e1 e2 e3 e4
  have hpts : ∀ p ∈ m.points, p.y = 0 := by
    unfold Excitation.new at h0
    split at h0 <;> rename_i h
    · cases h0
    · intro p hp
      simp only [true_and, not_not, List.all_eq_true] at h
      exact (hxz p).1 (h p hp)
  have h2 : x.mesh.is2d realThirds = true := by
    unfold Mesh.is2d
    rw [e3, List.all_eq_true]
    intro p hp
    simpa [realThirds] using hpts p hp
  unfold upgraded at hx'
  cases hM : x.mesh.solverMesh G realThirds with
  | none => rw [hM] at hx'; cases hx'
  | some M =>
    rw [hM] at hx'
    simp only [Option.map_some, Option.some.injEq] at hx'
    have hMv : Valid M ∧ M.isHigherOrder = true := by
      unfold Mesh.solverMesh at hM
      rw [h2] at hM
      cases hho : x.mesh.isHigherOrder with
      | true =>
        rw [hho] at hM
        simp only [Bool.not_true, Bool.and_false, Bool.false_eq_true, if_false, Option.some.injEq] at hM
        rw [← hM]
        exact ⟨e2, hho⟩
      | false =>
        rw [hho] at hM
        simp only [Bool.not_false, Bool.and_true, if_true] at hM
        have hcols : x.mesh.lineCols = 2 := by
          rcases e2.cols with h | h
          · exact h
          · simp [Mesh.isHigherOrder, h] at hho
        obtain ⟨M', k1, k2, k3, _⟩ := C12_upgrade hG realThirds x.mesh e2 hcols
        rw [k1] at hM
        cases hM
        exact ⟨k2, by simp [Mesh.isHigherOrder, k3]⟩
    have hxs : x'.symmetry = .radial := by rw [← hx']; exact e1
    have hxt : x'.types = x.types := by rw [← hx']
    have hxm : x'.mesh = M := by rw [← hx']
    have hxe : x'.isElectrostatic = x.isElectrostatic := by unfold isElectrostatic; rw [hxt]
    have hxg : x'.isMagnetostatic = x.isMagnetostatic := by unfold isMagnetostatic; rw [hxt]
    refine ⟨hxt, ?_⟩
    have hst : ∀ {s f}, x'.solveStatics env s = some f → _ := fun {s f} hf =>
      solveStatics_lines_on (x := x') (s := s) (by rw [hxm]; exact hMv.1) (by rw [hxt]; exact e4) hxs (Or.inr (by rw [hxm]; exact hMv.2)) he hplane hf
    unfold solveField upgraded at hf
    rw [hM] at hf
    simp only [Option.map_some, hx', Option.bind_eq_bind, Option.bind_some, hxe, hxg] at hf
    cases hel : x.isElectrostatic <;> cases hma : x.isMagnetostatic <;> rw [hel, hma] at hf <;> simp only [if_true, if_false, Bool.false_eq_true] at hf
    · cases hf
    · obtain ⟨e, c, _, _, h1, rfl, _, h3⟩ := hst hf
      exact ⟨_, rfl, by simp, fun _ => rfl, fun _ => ⟨h3 rfl, h1⟩, by simp⟩
    · obtain ⟨e, c, _, _, h1, rfl, h3, _⟩ := hst hf
      rw [h3 rfl] at h1
      exact ⟨_, rfl, fun _ => h1, by simp, by simp, fun _ => ⟨rfl, rfl⟩⟩
    · cases he1 : x'.solveStatics env .electrostatic with
      | none => rw [he1] at hf; cases hf
      | some a =>
        cases he2 : x'.solveStatics env .magnetostatic with
        | none => rw [he1, he2] at hf; cases hf
        | some b =>
          rw [he1, he2] at hf
          simp only [Option.bind_some] at hf
          obtain ⟨e, c, w1, n1, h1, rfl, h3, _⟩ := hst he1
          obtain ⟨e', c', w2, n2, h1', rfl, _, h3'⟩ := hst he2
          rw [h3 rfl] at h1
          obtain ⟨w3, n3⟩ := currentCharges_wf (h3' rfl)
          have hadd : PyObj.add (toFieldRadial .electrostatic c e) (toFieldRadial .magnetostatic c' e') = some (.radial ⟨e, e', c', none⟩) := by
            simp [toFieldRadial, PyObj.add, PyObj.binary, PyObj.method, PyObj.bemBinary, PyObj.attr, PyObj.effMethod, EffCharges.empty2d, EffCharges.empty3d,
              EffCharges.add_nil_right w1 n1, EffCharges.add_nil_left w2 n2, EffCharges.add_nil_left w3 n3, PyObj.construct3]
          rw [hadd] at hf
          cases hf
          exact ⟨_, rfl, fun _ => h1, by simp, fun _ => ⟨h3' rfl, h1'⟩, by simp⟩

end Traceon
