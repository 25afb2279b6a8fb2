import Verif.Props.SuperpositionField5

/-!
# C35 for coils and magnetizable materials: sums of unit fields
-/
namespace Traceon
open Spec Excitation

theorem materialField_radial (f : FieldRadialBEM) (p : V3) : materialField (.radial f) p = some (fieldRadial p f.mag) := by
  simp only [materialField, PyObj.magnetostaticField, PyObj.currentFieldAtPoint, Option.map_some, Option.getD_some, Option.some.injEq]
  ext <;> simp

theorem materialField_threeD (f : Field3DBEM) (p : V3) : materialField (.threeD f) p = some (field3d p f.mag) := by
  simp only [materialField, PyObj.magnetostaticField, PyObj.currentFieldAtPoint, Option.map_some, Option.getD_none, Option.some.injEq]
  ext <;> simp

theorem FieldLin.material {a b : ℝ} {f₁ f₂ f : PyObj} (h : FieldLin a b f₁ f₂ f) (p : V3) :
    materialField f p = CombinedV a b (materialField f₁ p) (materialField f₂ p) := by
  cases f₁ <;> cases f₂ <;> cases f <;> try exact h.elim
  · simp only [materialField_radial, CombinedV, Option.bind_some, Option.map_some, h.2.1.fieldRadial]
  · simp only [materialField_threeD, CombinedV, Option.bind_some, Option.map_some, h.2.field3d]

/-- Two fields of the same magnetized materials, beside coils which may be different. -/
def Twin (g u : PyObj) : Prop := ∀ p, g.magnetostaticPotential p = u.magnetostaticPotential p ∧ materialField g p = materialField u p

/-- The field of the coils of a solver. -/
noncomputable def SolverState.coilField (st : SolverState) (p : V3) : Option V3 :=
  match st.elems with
  | .lines _ => some (currentField p st.coils)
  | .tris _ => none

theorem toField_twin {st st' : SolverState} (hel : st'.elems = st.elems) {q : List ℝ} {g : PyObj} (h : st.toField .magnetostatic q = some g) :
    (∃ u, st'.toField .magnetostatic q = some u ∧ Twin g u) ∧ ∀ p, g.currentFieldAtPoint p = st.coilField p := by
  unfold SolverState.toField at h ⊢
  unfold SolverState.coilField
  rw [hel]
  cases he : st.elems with
  | lines ls =>
    rw [he] at h
    simp only at h ⊢
    obtain ⟨e, h1, rfl⟩ := Option.map_eq_some_iff.1 h
    rw [h1]
    exact ⟨⟨_, rfl, fun p => ⟨rfl, by rw [toFieldRadial, toFieldRadial, materialField_radial, materialField_radial]⟩⟩, fun p => rfl⟩
  | tris ts =>
    rw [he] at h
    simp only at h ⊢
    obtain ⟨e, h1, rfl⟩ := Option.map_eq_some_iff.1 h
    rw [h1]
    exact ⟨⟨_, rfl, fun p => ⟨rfl, rfl⟩⟩, fun p => rfl⟩

theorem solvesToC {st st' : SolverState} {env : SolveEnv} {f : PyObj} (hel : st'.elems = st.elems) (hty : st'.types = st.types)
    (hm : SameMaterial st st') (hr : MatrixReady st env .magnetostatic) (hf : st.solve env .magnetostatic = some f) :
    ∃ g u, SolvesTo st env .magnetostatic (st'.rhs .magnetostatic) g ∧ (∀ env', MatrixReady st' env' .magnetostatic → st'.solve env' .magnetostatic = some u) ∧ Twin g u ∧
      ∀ p, g.currentFieldAtPoint p = st.coilField p := by
  have hsz : st'.size = st.size := by unfold SolverState.size; rw [hel]
  rw [solve_eq] at hf
  by_cases h0 : st.size = 0
  · obtain ⟨⟨u, hu, ht⟩, hc⟩ := toField_twin (st' := st') hel (toField_nil (s := .magnetostatic) h0)
    refine ⟨_, u, Or.inl ⟨h0, rfl⟩, fun env' _ => ?_, ht, hc⟩
    rw [solve_eq, show st'.charges env' .magnetostatic = some [] by unfold SolverState.charges; rw [if_pos (hsz.trans h0)], Option.bind_some, hu]
  · obtain ⟨q, h1, h2⟩ := Option.bind_eq_some_iff.1 hf
    unfold SolverState.charges at h1
    rw [if_neg h0] at h1
    obtain ⟨A, hA, h1⟩ := Option.bind_eq_some_iff.1 h1
    obtain ⟨q', h3, h4, h5⟩ := linSolve_some h1 (st'.rhs .magnetostatic)
    obtain ⟨g, hg⟩ := toField_some (h4.trans h5.symm) h2
    obtain ⟨⟨u, hu, ht⟩, hc⟩ := toField_twin (st' := st') hel hg
    refine ⟨g, u, Or.inr ⟨h0, A, q', hA, h3, hg⟩, fun env' hr' => ?_, ht, hc⟩
    obtain ⟨B, B', e1, e2, e3⟩ := matrix_values hel hty hm hr hr' h0
    rw [hA] at e1
    cases e1
    rw [solve_eq]
    have : st'.charges env' .magnetostatic = some q' := by
      unfold SolverState.charges
      rw [if_neg (by rw [hsz]; exact h0), e2]
      simp only [Option.bind_eq_bind, Option.bind_some]
      rw [← h3]
      have key : ∀ (n : Nat) (hn : n = st.size) (F : List ℝ), linSolve (Matrix.of fun i j : Fin n => B' i j) F = linSolve (Matrix.of fun i j : Fin st.size => A i j) F := by
        rintro n rfl F
        congr 1
        ext i j
        exact e3 i j i.2 j.2
      exact key _ hsz _
    rw [this, Option.bind_some, hu]

theorem solveStatics_current {x : Excitation ℝ V3} {env : SolveEnv} {f : PyObj} {st : SolverState} (hst : x.solverInit .magnetostatic = some st) (hf : st.solve env .magnetostatic = some f) (p : V3) :
    f.currentFieldAtPoint p = st.coilField p := by
  rw [solve_eq] at hf
  obtain ⟨q, -, h2⟩ := Option.bind_eq_some_iff.1 hf
  exact (toField_twin (st' := st) rfl h2).2 p

section
variable {x y : Excitation ℝ V3}

theorem unit_onlyC (h : OnlyCurrents x) (name : String) : OnlyCurrents { x with types := x.unitTypes name } := by
  intro n tv htv
  have htv : (x.unitTypes name).get n = some tv := htv
  rw [unitTypes_get] at htv
  obtain ⟨tv', h1, rfl⟩ := Option.map_eq_some_iff.1 htv
  obtain ⟨h2, h3⟩ := h n tv' h1
  split
  · exact ⟨h2, _, rfl⟩
  · split
    · exact ⟨h2, _, rfl⟩
    · split
      · exact ⟨h2, _, rfl⟩
      · exact ⟨h2, h3⟩

theorem alikeC_unit (hn : x.types.keys.Nodup) (hx : OnlyCurrents x) {n : String} {v : ℝ} (h : x.types.get n = some (.current, .num v)) :
    AlikeC x { x with types := x.unitTypes n } := by
  have hs := unit_sameKinds x n
  refine ⟨rfl, rfl, unitTypes_keys x n, hn, hx, unit_onlyC hx n, hs.kinds, fun m w hm => ?_⟩
  show (x.unitTypes n).get m = _
  rw [unitTypes_get, hm, Option.map_some, if_neg]
  · simp
  · rintro rfl
    rw [h] at hm
    cases hm

theorem unit_getC {n m : String} {v w : ℝ} (h : x.types.get m = some (.current, .num v)) (h' : (x.unitTypes n).get m = some (.current, .num w)) :
    w = if m = n then 1 else 0 := by
  rw [unitTypes_get, h, Option.map_some] at h'
  by_cases e : m = n
  · rw [if_pos e] at h' ⊢; cases h'; rfl
  · rw [if_neg e] at h' ⊢; simp at h'; exact h'.symm

theorem onlyC_isMag (hn : x.types.keys.Nodup) {n : String} {v : ExcVal ℝ V3} (h : x.types.get n = some (.current, v)) : x.isMagnetostatic = true := by
  unfold Excitation.isMagnetostatic
  rw [List.any_eq_true]
  exact ⟨_, Dict.mem_of_get h, by simp⟩

theorem onlyC_notElec (hn : x.types.keys.Nodup) (hx : OnlyCurrents x) : x.isElectrostatic = false := by
  unfold Excitation.isElectrostatic
  rw [List.any_eq_false]
  intro nv hnv
  rcases (hx nv.1 nv.2 (Dict.get_of_mem hn hnv)).1 with h1 | h1 <;> simp [h1]

theorem solveField_onlyC {G : Geo V3} {env : SolveEnv} {x' : Excitation ℝ V3} (u : x.upgraded G = some x') (hn : x'.types.keys.Nodup) (hx : OnlyCurrents x')
    (hmag : x'.isMagnetostatic = true) : x.solveField G env = x'.solveStatics env .magnetostatic := by
  unfold solveField
  rw [u]
  simp only [Option.bind_eq_bind, Option.bind_some]
  rw [onlyC_notElec hn hx, if_neg (by simp), if_pos hmag]

theorem onlyC_split (hn : x.types.keys.Nodup) (hx : OnlyCurrents x) :
    x.splitForSuperposition = some (x.nonZeroFixed.map (fun n => (n, { x with types := x.unitTypes n }))) := by
  unfold Excitation.splitForSuperposition
  rw [if_neg]
  rintro ⟨_, h⟩
  rw [List.any_eq_true] at h
  obtain ⟨nv, h1, h2⟩ := h
  rcases (hx nv.1 nv.2 (Dict.get_of_mem hn h1)).1 with h3 | h3 <;> simp [h3] at h2

theorem mem_nonZeroFixedC (hn : x.types.keys.Nodup) (h : OnlyCurrents x) {n : String} :
    n ∈ x.nonZeroFixed ↔ ∃ v, v ≠ 0 ∧ x.types.get n = some (.current, .num v) := by
  unfold nonZeroFixed
  rw [List.mem_map]
  constructor
  · rintro ⟨⟨k, t, v⟩, h1, rfl⟩
    obtain ⟨h1, h2⟩ := List.mem_filter.1 h1
    have hg := Dict.get_of_mem hn h1
    obtain ⟨h3, v', h4⟩ := h k _ hg
    simp only at h3 h4 hg
    subst h4
    rcases h3 with rfl | rfl
    · refine ⟨v', ?_, hg⟩
      simpa [nonZero] using h2
    · simp at h2
  · rintro ⟨v, h1, h2⟩
    exact ⟨_, List.mem_filter.2 ⟨Dict.mem_of_get h2, by simp [nonZero, h1]⟩, rfl⟩

theorem onlyC_elecInit (hv : Valid x.mesh) (hn : x.types.keys.Nodup) (hx : OnlyCurrents x) {st : SolverState} (h : x.solverInit .magnetostatic = some st) :
    ∃ st', x.solverInit .electrostatic = some st' ∧ st'.size = 0 := by
  have hnk : ∀ n, ¬ HasKind x .electrostatic n := by
    rintro n ⟨tv, h1, h2⟩
    rcases (hx n tv h1).1 with h3 | h3 <;> rw [h3] at h2 <;> cases h2
  obtain ⟨verts, names, idx, ha⟩ := active_spec (s := .electrostatic) hv hn (fun n tv h1 h2 => absurd ⟨tv, h1, h2⟩ (hnk n))
  have hidx : idx = [] := by
    apply List.eq_nil_iff_forall_not_mem.2
    intro i hi
    obtain ⟨n, g, _, _, h3⟩ := excited_iff.1 ((ha.mem i).1 hi).2
    exact hnk n h3
  subst hidx
  have hverts : verts = [] := List.length_eq_zero_iff.1 ha.len
  subst hverts
  obtain ⟨ts, vs, a1, _⟩ := solver_arrays hv (onlyC_numeric hx _) ha (fun k => elementCentre x.mesh (([] : List (List V3)).getD k []))
  rw [solverInit_eq] at h
  obtain ⟨vn, -, h⟩ := Option.bind_eq_some_iff.1 h
  obtain ⟨tv, -, h⟩ := Option.bind_eq_some_iff.1 h
  obtain ⟨el, h1, -⟩ := Option.bind_eq_some_iff.1 h
  rw [solverInit_eq, ha.eq, Option.bind_some, a1, Option.bind_some]
  unfold elemsOf at h1 ⊢
  cases h2 : x.mesh.is2d realThirds <;> cases h3 : x.mesh.isHigherOrder <;> rw [h2, h3] at h1
  · exact ⟨_, rfl, rfl⟩
  · cases h1
  · cases h1
  · exact ⟨_, rfl, rfl⟩

theorem alikeC_setZero (hn : y.types.keys.Nodup) (hy : OnlyCurrents y) {n : String} {v : ℝ} (h : y.types.get n = some (.current, .num v)) : AlikeC y (setZero y n) := by
  refine ⟨rfl, rfl, ?_, hn, hy, fun m tv htv => ?_, fun m => ?_, fun m w hm => ?_⟩
  · unfold setZero Dict.keys
    rw [List.map_map]
    rfl
  · rw [setZero_get] at htv
    obtain ⟨tv', h1, rfl⟩ := Option.map_eq_some_iff.1 htv
    obtain ⟨h2, h3⟩ := hy m tv' h1
    split
    · exact ⟨h2, 0, rfl⟩
    · exact ⟨h2, h3⟩
  · rw [setZero_get, Option.map_map]
    congr 1
    funext tv
    simp only [Function.comp]
    split <;> rfl
  · rw [setZero_get, hm, Option.map_some, if_neg]
    rintro rfl
    rw [h] at hm
    cases hm

theorem solveStatics_valuesC {env : SolveEnv} {f : PyObj} (hf : x.solveStatics env .magnetostatic = some f) (p : V3) :
    ∃ u w, f.magnetostaticPotential p = some u ∧ materialField f p = some w := by
  rcases solveStatics_shape hf with ⟨ts, q, rfl⟩ | ⟨E, c, rfl, -⟩
  · exact ⟨_, _, rfl, rfl⟩
  · exact ⟨_, _, rfl, materialField_radial _ _⟩

theorem sum_unitsC (hv : Valid x.mesh) (hn : x.types.keys.Nodup) (hx : OnlyCurrents x) {env : SolveEnv} (he : FaithfulEnv env x) (hE : EnoughLines env x) {f : PyObj}
    (hf : x.solveStatics env .magnetostatic = some f) (g : String → PyObj) {L : List String} (hnd : L.Nodup)
    (hg : ∀ n ∈ L, (∃ v, x.types.get n = some (.current, .num v)) ∧ Excitation.solveStatics { x with types := x.unitTypes n } env .magnetostatic = some (g n)) :
    ∀ y, AlikeC x y → (∀ n, n ∉ L → currentOf y n = 0 ∨ ∃ v, y.types.get n = some (.magnetizable, v)) → ∀ env', FaithfulEnv env' y → EnoughLines env' y →
      ∃ f', y.solveStatics env' .magnetostatic = some f' ∧ ∀ p,
        f'.magnetostaticPotential p = some ((L.map fun n => currentOf y n * ((g n).magnetostaticPotential p).getD 0).sum) ∧
        materialField f' p = some ((L.map fun n => currentOf y n * (materialField (g n) p).getD 0).sum) := by
  induction L with
  | nil =>
    intro y hA hz env' he' hE'
    have hc : Combination 0 0 x x y := hA.combination hA fun n u v w e1 e2 e3 => by
      rcases hz n (by simp) with h | ⟨v, h⟩
      · unfold currentOf at h
        rw [e3] at h
        simp only at h
        rw [h]; ring
      · rw [e3] at h; cases h
    obtain ⟨f', h1, h2⟩ := solveStatics_lin hc (by rw [hA.mesh]; exact hv) hA.nodup₂ he he he' hE hE hE' hf hf
    refine ⟨f', h1, fun p => ?_⟩
    obtain ⟨u, w, hu, hw⟩ := solveStatics_valuesC hf p
    obtain ⟨-, -, k1, -⟩ := h2.fields p
    rw [k1, h2.material p, hu, hw]
    simp only [Combined, CombinedV, Option.bind_some, Option.map_some, List.map_nil, List.sum_nil, Option.some.injEq]
    exact ⟨by ring, by ext <;> simp⟩
  | cons n L ih =>
    intro y hA hz env' he' hE'
    obtain ⟨hnL, hnd'⟩ := List.nodup_cons.1 hnd
    obtain ⟨⟨v, hxn⟩, hgn⟩ := hg n (by simp)
    obtain ⟨w, hyn⟩ : ∃ w, y.types.get n = some (.current, .num w) := by
      cases hyn : y.types.get n with
      | none =>
        have := hA.kinds n
        rw [hxn, hyn] at this
        cases this
      | some tv =>
        rcases hA.cases hxn hyn with ⟨v, w, e1, e2⟩ | ⟨v, e1, e2⟩
        · exact ⟨w, by rw [e2]⟩
        · cases e1
    have hZ := alikeC_setZero hA.nodup₂ hA.only₂ hyn
    have hxZ := hA.trans hZ
    have hU := alikeC_unit hn hx hxn
    have hvol : ∀ m, m ≠ n → currentOf (setZero y n) m = currentOf y m := by
      intro m hm
      unfold currentOf
      rw [setZero_get]
      simp [hm]
    have hvoln : currentOf y n = w := by unfold currentOf; rw [hyn]
    obtain ⟨f0, h1, h2⟩ := ih hnd' (fun m hm => hg m (by simp [hm])) (setZero y n) hxZ (fun m hm => by
      by_cases e : m = n
      · subst e
        refine Or.inl ?_
        unfold currentOf
        rw [setZero_get, hyn]
        simp
      · rw [hvol m e]
        rcases hz m (by simp [e, hm]) with h | ⟨v, h⟩
        · exact Or.inl h
        · exact Or.inr ⟨v, by rw [setZero_get, h]; simp [e]⟩) env (hxZ.faithful hv he) (hxZ.enough hE)
    have hc : Combination 1 w (setZero y n) { x with types := x.unitTypes n } y := hZ.symm.combination (hU.symm.trans hA) fun m u u' w' e1 e2 e3 => by
      rw [setZero_get, e3, Option.map_some] at e1
      have hxm : ∃ v, x.types.get m = some (.current, .num v) := by
        cases hxm : x.types.get m with
        | none =>
          have := hA.kinds m
          rw [e3, hxm] at this
          cases this
        | some tv =>
          rcases hA.cases hxm e3 with ⟨v, w, e, -⟩ | ⟨v, -, e⟩
          · exact ⟨v, by rw [e]⟩
          · cases e
      obtain ⟨v', hxm⟩ := hxm
      have e4 := unit_getC hxm e2
      by_cases e : m = n
      · subst e
        rw [hyn] at e3
        cases e3
        rw [if_pos rfl] at e1 e4
        cases e1
        rw [e4]; ring
      · rw [if_neg e] at e1 e4
        cases e1
        rw [e4]; ring
    obtain ⟨f', k1, k2⟩ := solveStatics_lin hc (by rw [hA.mesh]; exact hv) hA.nodup₂ (hxZ.faithful hv he) (hU.faithful hv he) he' (hxZ.enough hE) (hU.enough hE) hE' h1 hgn
    refine ⟨f', k1, fun p => ?_⟩
    obtain ⟨-, -, j1, -⟩ := k2.fields p
    obtain ⟨i1, i2⟩ := h2 p
    obtain ⟨u, u', hu, hu'⟩ := solveStatics_valuesC hgn p
    rw [j1, k2.material p, i1, i2, hu, hu']
    have hs : ∀ m ∈ L, currentOf (setZero y n) m = currentOf y m := fun m hm => hvol m (fun e => hnL (e ▸ hm))
    rw [List.map_congr_left (g := fun n => currentOf y n * ((g n).magnetostaticPotential p).getD 0) (fun m hm => by rw [hs m hm]),
      List.map_congr_left (g := fun n => currentOf y n * (materialField (g n) p).getD 0) (fun m hm => by rw [hs m hm])]
    simp only [Combined, CombinedV, Option.bind_some, Option.map_some, List.map_cons, List.sum_cons, Option.some.injEq, hvoln, hu, hu', Option.getD_some]
    exact ⟨by ring, by ext <;> simp <;> ring⟩

theorem unitFields_eqC (hv : Valid x.mesh) (hn : x.types.keys.Nodup) (hx : OnlyCurrents x) {env : SolveEnv} (he : FaithfulEnv env x) (hE : EnoughLines env x) {f : PyObj}
    (hf : x.solveStatics env .magnetostatic = some f) {L : List String} (hL : L ≠ []) (hLv : ∀ n ∈ L, ∃ v, x.types.get n = some (.current, .num v)) :
    ∃ g u : String → PyObj, x.unitFields env .magnetostatic (L.map fun n => (n, { x with types := x.unitTypes n })) = some (L.map fun n => (n, g n)) ∧
      ∀ n ∈ L, Excitation.solveStatics { x with types := x.unitTypes n } env .magnetostatic = some (u n) ∧ Twin (g n) (u n) ∧
        ∀ p, (g n).currentFieldAtPoint p = f.currentFieldAtPoint p := by
  unfold solveStatics at hf
  obtain ⟨st, hst, hf⟩ := Option.bind_eq_some_iff.1 hf
  have hr := (matrixReady hv hn he hE hst).1
  have key : ∀ n ∈ L, ∃ st' g u, Excitation.solverInit { x with types := x.unitTypes n } .magnetostatic = some st' ∧ (st'.rhs .magnetostatic).length = st.size ∧
      SolvesTo st env .magnetostatic (st'.rhs .magnetostatic) g ∧
      Excitation.solveStatics { x with types := x.unitTypes n } env .magnetostatic = some u ∧ Twin g u ∧ ∀ p, g.currentFieldAtPoint p = f.currentFieldAtPoint p := by
    intro n hnL
    obtain ⟨v, hnv⟩ := hLv n hnL
    have hA := alikeC_unit hn hx hnv
    obtain ⟨st', e1, e2, e3, e5⟩ := hA.solvers hv hst
    obtain ⟨g, u, hg1, hg2, hg3, hg4⟩ := solvesToC e2 e3 e5 hr hf
    refine ⟨st', g, u, e1, ?_, hg1, ?_, hg3, fun p => by rw [hg4, solveStatics_current hst hf]⟩
    · rw [rhs_length (x := { x with types := x.unitTypes n }) hv hA.nodup₂ e1]
      unfold SolverState.size; rw [e2]
    · unfold solveStatics
      rw [e1]
      exact hg2 env (matrixReady (x := { x with types := x.unitTypes n }) hv hA.nodup₂ (hA.faithful hv he) (hA.enough hE) e1).1
  have : Inhabited SolverState := ⟨st⟩
  have : Inhabited PyObj := ⟨f⟩
  choose! S g u h1 h2 h3 h4 h5 h6 using key
  refine ⟨g, u, ?_, fun n hnL => ⟨h4 n hnL, h5 n hnL, h6 n hnL⟩⟩
  unfold unitFields
  have hF : (L.map fun n => (n, ({ x with types := x.unitTypes n } : Excitation ℝ V3))).mapM (fun p => (p.2.solverInit .magnetostatic).map fun st => st.rhs .magnetostatic) =
      some (L.map fun n => (S n).rhs .magnetostatic) := by
    rw [mapM_eq_some_iff, List.map_map, List.map_map]
    apply List.map_congr_left
    intro n hnL
    simp [Function.comp, h1 n hnL]
  rw [hF]
  simp only [Option.bind_eq_bind, Option.bind_some]
  rw [hst, Option.bind_some]
  have hM : st.solveMany env .magnetostatic (L.map fun n => (S n).rhs .magnetostatic) = some (L.map g) := by
    apply solveMany_eq (Or.inl (by simpa using hL)) (by simp)
    · intro F hF
      obtain ⟨n, hnL, rfl⟩ := List.mem_map.1 hF
      exact h2 n hnL
    · intro k F G e1 e2
      rw [List.getElem?_map, Option.map_eq_some_iff] at e1 e2
      obtain ⟨n, hk, rfl⟩ := e1
      obtain ⟨m, hk', rfl⟩ := e2
      rw [hk] at hk'
      cases hk'
      exact h3 n (List.mem_of_getElem? hk)
  rw [hM, Option.bind_some]
  simp only [List.map_map, Function.comp_def, List.map_id', Option.pure_def, Option.some.injEq]
  rw [← List.zip_map']
  simp

theorem partsC_magneto (hn : x.types.keys.Nodup) (hx : OnlyCurrents x) {L : List String} (h : ∀ n ∈ L, ∃ v, x.types.get n = some (.current, .num v)) :
    (L.map (fun n => (n, ({ x with types := x.unitTypes n } : Excitation ℝ V3)))).filter (fun p => p.2.isMagnetostatic) = L.map (fun n => (n, { x with types := x.unitTypes n })) := by
  rw [List.filter_eq_self]
  intro p hp
  obtain ⟨n, h1, rfl⟩ := List.mem_map.1 hp
  obtain ⟨v, h2⟩ := h n h1
  refine onlyC_isMag (x := { x with types := x.unitTypes n }) (n := n) (v := .num 1) (by show (Dict.keys (x.unitTypes n)).Nodup; rw [unitTypes_keys]; exact hn) ?_
  show (x.unitTypes n).get n = _
  rw [unitTypes_get, h2]
  simp

theorem partsC_electro (hn : x.types.keys.Nodup) (hx : OnlyCurrents x) {L : List String} :
    (L.map (fun n => (n, ({ x with types := x.unitTypes n } : Excitation ℝ V3)))).filter (fun p => p.2.isElectrostatic) = [] := by
  rw [List.filter_eq_nil_iff]
  intro p hp
  obtain ⟨n, h1, rfl⟩ := List.mem_map.1 hp
  rw [onlyC_notElec (x := { x with types := x.unitTypes n })
    (by show (Dict.keys (x.unitTypes n)).Nodup; rw [unitTypes_keys]; exact hn) (unit_onlyC hx n)]
  simp

end
end Traceon
