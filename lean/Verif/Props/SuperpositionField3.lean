import Verif.Props.SuperpositionField2

/-!
# C35 for the fields: the theorems
-/
namespace Traceon
open Spec Excitation

section
variable {x y : Excitation ℝ V3}

theorem alike_unit (hn : x.types.keys.Nodup) (hx : OnlyVoltages x) {n : String} {v : ℝ} (h : x.types.get n = some (.voltageFixed, .num v)) :
    Alike x { x with types := x.unitTypes n } := by
  have hs := unit_sameKinds x n
  refine ⟨rfl, rfl, unitTypes_keys x n, hn, hx, unit_only hx n, hs.kinds, fun m w hm => ?_⟩
  show (x.unitTypes n).get m = _
  rw [unitTypes_get, hm, Option.map_some, if_neg]
  · simp
  · rintro rfl
    rw [h] at hm
    cases hm

theorem unit_get (hn : x.types.keys.Nodup) {n m : String} {v w : ℝ} (h : x.types.get m = some (.voltageFixed, .num v)) (h' : (x.unitTypes n).get m = some (.voltageFixed, .num w)) :
    w = if m = n then 1 else 0 := by
  rw [unitTypes_get, h, Option.map_some] at h'
  by_cases e : m = n
  · rw [if_pos e] at h' ⊢; cases h'; rfl
  · rw [if_neg e] at h' ⊢; simp at h'; exact h'.symm

theorem unitOf_eq (hn : x.types.keys.Nodup) (hx : OnlyVoltages x) {n : String} (h : UnitOf x n y) : y = { x with types := x.unitTypes n } := by
  have hk : y.types = x.unitTypes n := by
    apply Dict.ext_get (by rw [unitTypes_keys]; exact hn) (by rw [unitTypes_keys, h.names])
    intro m hm
    rw [unitTypes_keys] at hm
    obtain ⟨tv, htv⟩ := Option.isSome_iff_exists.1 (Dict.get_isSome_iff.2 hm)
    rw [unitTypes_get, htv, Option.map_some]
    obtain ⟨hty, v, hv⟩ := hx m tv htv
    obtain ⟨t, w⟩ := tv
    simp only at hty hv
    subst hv
    by_cases e : m = n
    · subst e
      rw [if_pos rfl]
      rcases hty with rfl | rfl
      · exact h.one
      · have := h.same m _ htv
        rw [h.one] at this
        cases this
    · rw [if_neg e]
      rcases hty with rfl | rfl
      · rw [h.zero m _ e htv]; simp
      · rw [h.same m _ htv]; simp
  rw [h.rest, hk]

theorem unitOf_unit {n : String} {v : ExcVal ℝ V3} (h : x.types.get n = some (.voltageFixed, v)) : UnitOf x n { x with types := x.unitTypes n } := by
  refine ⟨rfl, unitTypes_keys x n, ?_, fun m w hm hw => ?_, fun m w hw => ?_⟩ <;> show (x.unitTypes n).get _ = _
  · rw [unitTypes_get, h]; simp
  · rw [unitTypes_get, hw]; simp [hm]
  · rw [unitTypes_get, hw]
    have : ¬ m = n := by rintro rfl; rw [h] at hw; cases hw
    simp [this]

theorem only_electro (hn : x.types.keys.Nodup) {n : String} {v : ExcVal ℝ V3} (h : x.types.get n = some (.voltageFixed, v)) : x.isElectrostatic = true := by
  unfold isElectrostatic
  rw [List.any_eq_true]
  exact ⟨(n, _), Dict.mem_of_get h, by simp⟩

/-- `solve_direct` of fixed voltages and dielectrics. -/
theorem solveField_only {G : Geo V3} {env : SolveEnv} {x' : Excitation ℝ V3} (u : x.upgraded G = some x') (hn : x'.types.keys.Nodup) (hx : OnlyVoltages x')
    (hel : x'.isElectrostatic = true) : x.solveField G env = x'.solveStatics env .electrostatic := by
  unfold solveField
  rw [u]
  simp only [Option.bind_eq_bind, Option.bind_some]
  have : Inhabited V3 := ⟨0⟩
  rw [if_pos hel, only_notMag hn hx, if_neg (by simp)]

theorem only_split (hn : x.types.keys.Nodup) (hx : OnlyVoltages x) :
    x.splitForSuperposition = some (x.nonZeroFixed.map (fun n => (n, { x with types := x.unitTypes n }))) := by
  unfold Excitation.splitForSuperposition
  rw [if_neg]
  rintro ⟨_, h⟩
  rw [List.any_eq_true] at h
  obtain ⟨nv, h1, h2⟩ := h
  rcases (hx nv.1 nv.2 (Dict.get_of_mem hn h1)).1 with h3 | h3 <;> simp [h3] at h2

theorem only_magInit (hv : Valid x.mesh) (hn : x.types.keys.Nodup) (hx : OnlyVoltages x) {st : SolverState} (h : x.solverInit .electrostatic = some st) :
    ∃ st', x.solverInit .magnetostatic = some st' ∧ st'.size = 0 := by
  have hnk : ∀ n, ¬ HasKind x .magnetostatic n := by
    rintro n ⟨tv, h1, h2⟩
    rcases (hx n tv h1).1 with h3 | h3 <;> rw [h3] at h2 <;> simp [typeCheck] at h2
  obtain ⟨verts, names, idx, ha⟩ := active_spec (s := .magnetostatic) hv hn (fun n tv h1 h2 => absurd ⟨tv, h1, h2⟩ (hnk n))
  have hidx : idx = [] := by
    apply List.eq_nil_iff_forall_not_mem.2
    intro i hi
    obtain ⟨n, g, _, _, h3⟩ := excited_iff.1 ((ha.mem i).1 hi).2
    exact hnk n h3
  subst hidx
  have hverts : verts = [] := List.length_eq_zero_iff.1 ha.len
  subst hverts
  obtain ⟨ts, vs, a1, _⟩ := solver_arrays hv (only_numeric hx _) ha (fun k => elementCentre x.mesh (([] : List (List V3)).getD k []))
  rw [solverInit_eq] at h
  obtain ⟨vn, -, h⟩ := Option.bind_eq_some_iff.1 h
  obtain ⟨tv, -, h⟩ := Option.bind_eq_some_iff.1 h
  obtain ⟨el, h1, -⟩ := Option.bind_eq_some_iff.1 h
  rw [solverInit_eq, ha.eq, Option.bind_some, a1, Option.bind_some, only_coils hn hx]
  unfold elemsOf at h1 ⊢
  cases h2 : x.mesh.is2d realThirds <;> cases h3 : x.mesh.isHigherOrder <;> rw [h2, h3] at h1
  · exact ⟨_, rfl, rfl⟩
  · cases h1
  · cases h1
  · exact ⟨_, rfl, rfl⟩

theorem rhs_length {s : Statics} {st : SolverState} (hv : Valid x.mesh) (hn : x.types.keys.Nodup) (h : x.solverInit s = some st) : (st.rhs s).length = st.size := by
  obtain ⟨idx, I⟩ := solverInit_spec hv hn h
  rw [I.size_eq]
  unfold SolverState.rhs
  cases s <;> simp [I.typesLen, I.valuesLen]

/-- The fields of the unit excitations. -/
theorem unitFields_eq (hv : Valid x.mesh) (hn : x.types.keys.Nodup) (hx : OnlyVoltages x) {env : SolveEnv} (he : FaithfulEnv env x) (hE : EnoughLines env x) {f : PyObj}
    (hf : x.solveStatics env .electrostatic = some f) {L : List String} (hL : L ≠ []) (hLv : ∀ n ∈ L, ∃ v, x.types.get n = some (.voltageFixed, .num v)) :
    ∃ g : String → PyObj, x.unitFields env .electrostatic (L.map fun n => (n, { x with types := x.unitTypes n })) = some (L.map fun n => (n, g n)) ∧
      ∀ n ∈ L, ∀ env', FaithfulEnv env' { x with types := x.unitTypes n } → EnoughLines env' { x with types := x.unitTypes n } →
        Excitation.solveStatics { x with types := x.unitTypes n } env' .electrostatic = some (g n) := by
  unfold solveStatics at hf
  obtain ⟨st, hst, hf⟩ := Option.bind_eq_some_iff.1 hf
  have hr := (matrixReady hv hn he hE hst).1
  have key : ∀ n ∈ L, ∃ st' g, Excitation.solverInit { x with types := x.unitTypes n } .electrostatic = some st' ∧ (st'.rhs .electrostatic).length = st.size ∧
      SolvesTo st env .electrostatic (st'.rhs .electrostatic) g ∧
      ∀ env', FaithfulEnv env' { x with types := x.unitTypes n } → EnoughLines env' { x with types := x.unitTypes n } →
        Excitation.solveStatics { x with types := x.unitTypes n } env' .electrostatic = some g := by
    intro n hnL
    obtain ⟨v, hnv⟩ := hLv n hnL
    have hA := alike_unit hn hx hnv
    obtain ⟨st', e1, e2, e3, e4, e5⟩ := hA.solvers hv hst
    obtain ⟨g, hg1, hg2⟩ := solvesTo e2 e3 e4 e5 hr hf
    refine ⟨st', g, e1, ?_, hg1, fun env' he' hE' => ?_⟩
    · rw [rhs_length (x := { x with types := x.unitTypes n }) hv hA.nodup₂ e1]
      unfold SolverState.size; rw [e2]
    · unfold solveStatics
      rw [e1]
      exact hg2 env' (matrixReady (x := { x with types := x.unitTypes n }) hv hA.nodup₂ he' hE' e1).1
  have : Inhabited SolverState := ⟨st⟩
  have : Inhabited PyObj := ⟨f⟩
  choose! S g h1 h2 h3 h4 using key
  refine ⟨g, ?_, h4⟩
  unfold unitFields
  have hF : (L.map fun n => (n, ({ x with types := x.unitTypes n } : Excitation ℝ V3))).mapM (fun p => (p.2.solverInit .electrostatic).map fun st => st.rhs .electrostatic) =
      some (L.map fun n => (S n).rhs .electrostatic) := by
    rw [mapM_eq_some_iff, List.map_map, List.map_map]
    apply List.map_congr_left
    intro n hnL
    simp [Function.comp, h1 n hnL]
  rw [hF]
  simp only [Option.bind_eq_bind, Option.bind_some]
  rw [hst, Option.bind_some]
  have hM : st.solveMany env .electrostatic (L.map fun n => (S n).rhs .electrostatic) = some (L.map g) := by
    apply solveMany_eq (Or.inl (by simpa using hL)) (by simp)
    · intro F hF
      obtain ⟨n, hnL, rfl⟩ := List.mem_map.1 hF
      exact h2 n hnL
    · intro k F G e1 e2
      rw [List.getElem?_map, Option.map_eq_some_iff] at e1 e2
      obtain ⟨n, hk, rfl⟩ := e1
      obtain ⟨m, hk', rfl⟩ := e2
      rw [hk] at hk'
      cases hk'
      exact h3 n (List.mem_of_getElem? hk)
  rw [hM, Option.bind_some]
  simp only [List.map_map, Function.comp_def, List.map_id', Option.pure_def, Option.some.injEq]
  rw [← List.zip_map']
  simp

end
end Traceon
