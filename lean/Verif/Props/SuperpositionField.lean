import Verif.Spec.SuperpositionField
import Verif.Props.Linear4

/-!
# C35 for the fields: what `solve_direct_superposition` returns
-/
namespace Traceon
open Spec Excitation

theorem linSolve_some {n : Nat} {A : Matrix (Fin n) (Fin n) ℝ} {F q : List ℝ} (h : linSolve A F = some q) (F' : List ℝ) :
    ∃ q', linSolve A F' = some q' ∧ q'.length = n ∧ q.length = n := by
  unfold linSolve at h ⊢
  split at h <;> rename_i hd
  · cases h
  · cases h
    rw [if_neg hd]
    exact ⟨_, rfl, by simp, by simp⟩

theorem new_some {P : Type} {nq : Nat} {q q' : List ℝ} {j : List (List ℝ)} {p : List (List P)} {e : EffCharges P} (hl : q'.length = q.length)
    (h : EffCharges.new nq q j p = some e) : ∃ e', EffCharges.new nq q' j p = some e' := by
  obtain ⟨rfl, w⟩ := EffCharges.new_eq h
  refine ⟨⟨nq, q', j, p⟩, ?_⟩
  unfold EffCharges.new
  rw [if_pos]
  exact ⟨w.1.trans hl.symm, w.2.1, w.2.2.1.trans hl.symm, w.2.2.2⟩

theorem solve_eq (st : SolverState) (env : SolveEnv) (s : Statics) : st.solve env s = (st.charges env s).bind (st.toField s) := by
  unfold SolverState.solve SolverState.toField
  rfl

theorem toField_some {st : SolverState} {s : Statics} {q q' : List ℝ} {f : PyObj} (hl : q'.length = q.length) (h : st.toField s q = some f) :
    ∃ f', st.toField s q' = some f' := by
  unfold SolverState.toField at h ⊢
  cases he : st.elems <;> rw [he] at h <;> simp only [Option.map_eq_some_iff] at h ⊢
  all_goals
    obtain ⟨e, h1, -⟩ := h
    obtain ⟨e', h2⟩ := new_some hl h1
    exact ⟨_, e', h2, rfl⟩

theorem toField_nil {st : SolverState} {s : Statics} (h0 : st.size = 0) : st.toField s [] = some (st.emptyField s) := by
  unfold SolverState.size at h0
  unfold SolverState.toField SolverState.emptyField
  cases he : st.elems <;> rw [he] at h0 <;> simp only [List.length_eq_zero_iff] at h0 <;> subst h0
  all_goals
    simp only [List.map_nil, EffCharges.new]
    rw [if_pos (by simp [EffCharges.Wf])]
    rfl

theorem toField_congr {st st' : SolverState} (hel : st'.elems = st.elems) (hc : st'.coils = st.coils) (s : Statics) (q : List ℝ) : st'.toField s q = st.toField s q := by
  unfold SolverState.toField
  rw [hel, hc]

/-- The field that the solver `st` computes for the right hand side `F`. -/
def SolvesTo (st : SolverState) (env : SolveEnv) (s : Statics) (F : List ℝ) (g : PyObj) : Prop :=
  (st.size = 0 ∧ g = st.emptyField s) ∨
    (st.size ≠ 0 ∧ ∃ A q, st.matrix env s = some A ∧ linSolve (Matrix.of fun i j : Fin st.size => A i j) F = some q ∧ st.toField s q = some g)

/-- A solver `st` that can be used finds for the right hand side of another one what the other finds itself. -/
theorem solvesTo {st st' : SolverState} {env : SolveEnv} {s : Statics} {f : PyObj} (hel : st'.elems = st.elems) (hty : st'.types = st.types) (hc : st'.coils = st.coils)
    (hm : SameMaterial st st') (hr : MatrixReady st env s) (hf : st.solve env s = some f) :
    ∃ g, SolvesTo st env s (st'.rhs s) g ∧ ∀ env', MatrixReady st' env' s → st'.solve env' s = some g := by
  have hsz : st'.size = st.size := by unfold SolverState.size; rw [hel]
  rw [solve_eq] at hf
  by_cases h0 : st.size = 0
  · refine ⟨st.emptyField s, Or.inl ⟨h0, rfl⟩, fun env' _ => ?_⟩
    rw [solve_eq, show st'.charges env' s = some [] by unfold SolverState.charges; rw [if_pos (hsz.trans h0)], Option.bind_some, toField_congr hel hc, toField_nil h0]
  · obtain ⟨q, h1, h2⟩ := Option.bind_eq_some_iff.1 hf
    unfold SolverState.charges at h1
    rw [if_neg h0] at h1
    obtain ⟨A, hA, h1⟩ := Option.bind_eq_some_iff.1 h1
    obtain ⟨q', h3, h4, h5⟩ := linSolve_some h1 (st'.rhs s)
    obtain ⟨g, hg⟩ := toField_some (h4.trans h5.symm) h2
    refine ⟨g, Or.inr ⟨h0, A, q', hA, h3, hg⟩, fun env' hr' => ?_⟩
    obtain ⟨B, B', e1, e2, e3⟩ := matrix_values hel hty hm hr hr' h0
    rw [hA] at e1
    cases e1
    rw [solve_eq]
    have : st'.charges env' s = some q' := by
      unfold SolverState.charges
      rw [if_neg (by rw [hsz]; exact h0), e2]
      simp only [Option.bind_eq_bind, Option.bind_some]
      rw [← h3]
      have key : ∀ (n : Nat) (hn : n = st.size) (F : List ℝ), linSolve (Matrix.of fun i j : Fin n => B' i j) F = linSolve (Matrix.of fun i j : Fin st.size => A i j) F := by
        rintro n rfl F
        congr 1
        ext i j
        exact e3 i j i.2 j.2
      exact key _ hsz _
    rw [this, Option.bind_some, toField_congr hel hc, hg]

theorem solveMany_eq {st : SolverState} {env : SolveEnv} {s : Statics} {Fs : List (List ℝ)} {gs : List PyObj} (hne : Fs ≠ [] ∨ st.size = 0) (hl : gs.length = Fs.length)
    (hF : ∀ F ∈ Fs, F.length = st.size) (h : ∀ (k : Nat) F g, Fs[k]? = some F → gs[k]? = some g → SolvesTo st env s F g) : st.solveMany env s Fs = some gs := by
  unfold SolverState.solveMany
  by_cases h0 : st.size = 0
  · rw [if_pos h0, Option.some.injEq]
    apply List.ext_getElem (by simpa using hl.symm)
    intro k h1 h2
    have hk : k < Fs.length := by rw [← hl]; exact h2
    rcases h k Fs[k] gs[k] (by simp [hk]) (by simp [h2]) with ⟨-, e⟩ | ⟨e, -⟩
    · simp [e]
    · exact absurd h0 e
  · have hne' : Fs ≠ [] := hne.resolve_right h0
    rw [if_neg h0, if_neg hne', if_pos (by simpa [List.all_eq_true] using hF)]
    have hpos : 0 < Fs.length := List.length_pos_iff.2 hne'
    have hmat : ∃ A, st.matrix env s = some A := by
      rcases h 0 Fs[0] gs[0] (by simp [hpos]) (by simp [hl, hpos]) with ⟨e, -⟩ | ⟨-, A, q, e, -⟩
      · exact absurd e h0
      · exact ⟨A, e⟩
    obtain ⟨A, hA⟩ := hmat
    have key : ∀ (k : Nat) F g, Fs[k]? = some F → gs[k]? = some g → ∃ q, linSolve (Matrix.of fun i j : Fin st.size => A i j) F = some q ∧ st.toField s q = some g := by
      intro k F g e1 e2
      rcases h k F g e1 e2 with ⟨e, -⟩ | ⟨-, A', q, e, e3, e4⟩
      · exact absurd e h0
      · rw [hA] at e; cases e
        exact ⟨q, e3, e4⟩
    rw [hA]
    simp only [Option.bind_eq_bind, Option.bind_some]
    obtain ⟨qs, hqs⟩ : ∃ qs, Fs.mapM (fun F => linSolve (Matrix.of fun i j : Fin st.size => A i j) F) = some qs := by
      obtain ⟨q0, hq0, -⟩ := key 0 Fs[0] gs[0] (by simp [hpos]) (by simp [hl, hpos])
      refine ⟨Fs.map fun F => (linSolve (Matrix.of fun i j : Fin st.size => A i j) F).getD [], ?_⟩
      rw [mapM_eq_some_iff, List.map_map]
      apply List.map_congr_left
      intro F _
      obtain ⟨q', e, -⟩ := linSolve_some hq0 F
      simp [e]
    rw [hqs, Option.bind_some, mapM_eq_some_iff]
    apply List.ext_getElem?
    intro k
    rw [List.getElem?_map, List.getElem?_map, mapM_getElem? hqs]
    by_cases hk : k < Fs.length
    · obtain ⟨q, e1, e2⟩ := key k Fs[k] gs[k] (by simp [hk]) (by simp [hl, hk])
      have hk' : k < gs.length := by omega
      simp [hk, hk', e1, e2]
    · rw [List.getElem?_eq_none (by omega), List.getElem?_eq_none (by omega)]
      rfl

/-! ## Excitations of the same kinds -/

theorem Dict.ext_get {α : Type} {d d' : Dict α} (hn : d.keys.Nodup) (hk : d'.keys = d.keys) (h : ∀ n ∈ d.keys, d'.get n = d.get n) : d' = d := by
  induction d generalizing d' with
  | nil => cases d' with
    | nil => rfl
    | cons a d' => simp [Dict.keys] at hk
  | cons a d ih =>
    cases d' with
    | nil => simp [Dict.keys] at hk
    | cons a' d' =>
      obtain ⟨k, v⟩ := a
      obtain ⟨k', v'⟩ := a'
      have hk1 : k' = k ∧ Dict.keys d' = Dict.keys d := by simpa [Dict.keys] using hk
      obtain ⟨rfl, hk2⟩ := hk1
      have hnd : k' ∉ Dict.keys d ∧ (Dict.keys d).Nodup := by simpa [Dict.keys] using hn
      have h0 := h k' (by simp [Dict.keys])
      rw [Dict.get_cons, Dict.get_cons] at h0
      simp at h0
      subst h0
      rw [ih hnd.2 hk2]
      intro n hm
      have := h n (by simp only [Dict.keys, List.map_cons, List.mem_cons]; exact Or.inr hm)
      rw [Dict.get_cons, Dict.get_cons] at this
      have hne : ¬ k' = n := fun e => hnd.1 (e ▸ hm)
      simpa [hne] using this

theorem only_noCurrent {x : Excitation ℝ V3} (hn : x.types.keys.Nodup) (h : OnlyVoltages x) : x.hasCurrent = false := by
  unfold hasCurrent
  rw [List.any_eq_false]
  intro nv hnv
  rcases (h nv.1 nv.2 (Dict.get_of_mem hn hnv)).1 with h1 | h1 <;> simp [h1]

theorem only_coils {x : Excitation ℝ V3} (hn : x.types.keys.Nodup) (h : OnlyVoltages x) (s : Statics) : coilsIn x s = some EffCharges.empty3d := by
  cases s with
  | electrostatic => rfl
  | magnetostatic =>
    unfold coilsIn currentCharges
    rw [only_noCurrent hn h]
    simp

/-- The constructor accepts an excitation if it accepts one of the same kinds. -/
theorem solverInit_kinds {x y : Excitation ℝ V3} (hv : Valid x.mesh) (hn : x.types.keys.Nodup) (hx : OnlyVoltages x) (hk : SameKinds x y) (hny : y.types.keys.Nodup) (hy : OnlyVoltages y)
    {s : Statics} {st : SolverState} (h : x.solverInit s = some st) : ∃ st', y.solverInit s = some st' := by
  obtain ⟨idx, hI⟩ := solverInit_spec hv hn h
  have hvy : Valid y.mesh := by rw [hk.mesh]; exact hv
  obtain ⟨verts, names, idx1, ha⟩ := active_spec hv hn hI.proper
  obtain ⟨verts', names', idx', hb⟩ := active_spec hvy hny (sameKinds_proper hk hI.proper)
  obtain ⟨rfl, rfl, rfl⟩ := sameKinds_active hk ha hb
  obtain ⟨ts', vs', b1, b2, b3, b4⟩ := solver_arrays hvy (only_numeric hy _) hb (fun k => elementCentre y.mesh (verts'.getD k []))
  rw [solverInit_eq, ha.eq, Option.bind_some] at h
  obtain ⟨tv, -, h⟩ := Option.bind_eq_some_iff.1 h
  obtain ⟨el, h1, h⟩ := Option.bind_eq_some_iff.1 h
  rw [solverInit_eq, hb.eq, Option.bind_some, b1, Option.bind_some]
  simp only at h1 ⊢
  rw [hk.mesh, h1, only_coils hny hy]
  exact ⟨_, rfl⟩

end Traceon
