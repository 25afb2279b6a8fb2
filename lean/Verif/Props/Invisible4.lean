import Verif.Props.Invisible3

/-!
# C88: an example
-/
namespace Traceon
open Spec Excitation

/-- Three discs. -/
def filmMesh : Mesh V3 :=
  { points := [⟨1, 0, 0⟩, ⟨4, 0, 0⟩, ⟨2, 0, 0⟩, ⟨3, 0, 0⟩, ⟨1, 0, 1⟩, ⟨4, 0, 1⟩, ⟨2, 0, 1⟩, ⟨3, 0, 1⟩, ⟨1, 0, 2⟩, ⟨4, 0, 2⟩, ⟨2, 0, 2⟩, ⟨3, 0, 2⟩], lineCols := 4
    lines := [[0, 1, 2, 3], [4, 5, 6, 7], [8, 9, 10, 11]], physLines := [("disc", [0]), ("glass", [1]), ("film", [2])] }

/-- A disc at 10 V between two dielectrics of relative permittivity one, the second of which is removed below. -/
def filmExc : Excitation ℝ V3 :=
  { mesh := filmMesh, electrodes := ["disc", "glass", "film"], symmetry := .radial
    types := [("disc", .voltageFixed, .num 10), ("film", .dielectric, .num 1), ("glass", .dielectric, .num 1)] }

theorem film_is2d : filmMesh.is2d realThirds = true := by
  unfold Mesh.is2d
  simp [filmMesh, realThirds]

theorem film_valid : Valid filmMesh := by
  refine ⟨Or.inr rfl, ?_, ?_, ?_, ?_, ?_, ?_⟩ <;> simp [filmMesh]

theorem film_types : (without filmExc ["film"]).types = [("disc", .voltageFixed, .num 10), ("glass", .dielectric, .num 1)] := by
  simp [without, filmExc, List.filter_cons]

theorem film_eq : without filmExc ["film"] = { filmExc with types := [("disc", .voltageFixed, .num 10), ("glass", .dielectric, .num 1)] } := by
  have := film_types
  unfold without at this ⊢
  simp only at this
  rw [this]

theorem filmExc_electric : (without filmExc ["film"]).solverInit .electrostatic = some ⟨.lines [discLine 0, discLine 1], [some .voltageFixed, some .dielectric], [10, 1], .empty3d⟩ := by
  rw [film_eq]
  have ha : ({ filmExc with types := [("disc", .voltageFixed, .num 10), ("glass", .dielectric, .num 1)] } : Excitation ℝ V3).activeElements .electrostatic =
      some ([[⟨1, 0, 0⟩, ⟨4, 0, 0⟩, ⟨2, 0, 0⟩, ⟨3, 0, 0⟩], [⟨1, 0, 1⟩, ⟨4, 0, 1⟩, ⟨2, 0, 1⟩, ⟨3, 0, 1⟩]], [("disc", [0]), ("glass", [1])]) := by rfl
  unfold solverInit
  rw [ha]
  have ht : ∀ centre, ({ filmExc with types := [("disc", .voltageFixed, .num 10), ("glass", .dielectric, .num 1)] } : Excitation ℝ V3).typesAndValues [("disc", [0]), ("glass", [1])]
      [[(⟨1, 0, 0⟩ : V3), ⟨4, 0, 0⟩, ⟨2, 0, 0⟩, ⟨3, 0, 0⟩], [⟨1, 0, 1⟩, ⟨4, 0, 1⟩, ⟨2, 0, 1⟩, ⟨3, 0, 1⟩]].length centre =
      some ([some .voltageFixed, some .dielectric], [10, 1]) := fun _ => rfl
  simp only [Option.bind_eq_bind, Option.bind_some, ht]
  rw [show filmExc.mesh = filmMesh from rfl, film_is2d]
  rfl

theorem film_excited : Excited filmExc .electrostatic 0 ∧ Excited filmExc .electrostatic 1 ∧ Excited (without filmExc ["film"]) .electrostatic 0 ∧
    Excited (without filmExc ["film"]) .electrostatic 1 := by
  refine ⟨⟨"disc", [0], (.voltageFixed, .num 10), rfl, by simp, rfl, rfl⟩, ⟨"glass", [1], (.dielectric, .num 1), rfl, by simp, rfl, rfl⟩,
    ⟨"disc", [0], (.voltageFixed, .num 10), rfl, by simp, ?_, rfl⟩, ⟨"glass", [1], (.dielectric, .num 1), rfl, by simp, ?_, rfl⟩⟩ <;> rw [without_get] <;> rfl

theorem film_excited_mag (i : Nat) : ¬Excited filmExc .magnetostatic i := by
  rintro ⟨n, g, tv, -, -, h3, h4⟩
  have := Dict.mem_of_get h3
  simp only [filmExc, List.mem_cons, Prod.mk.injEq, List.not_mem_nil, or_false] at this
  rcases this with ⟨-, rfl⟩ | ⟨-, rfl⟩ | ⟨-, rfl⟩ <;> cases h4

theorem film_enough {x : Excitation ℝ V3} (hm : x.mesh = filmMesh) (h0 : Excited x .electrostatic 0) (h1 : Excited x .electrostatic 1) (hmag : ∀ i, ¬Excited x .magnetostatic i)
    {env : SolveEnv} (h : env.threads = 1) : EnoughLines env x := by
  intro _ s hs
  cases s with
  | electrostatic =>
    refine ⟨[0, 1], by simp, ?_, by rw [h]; simp⟩
    intro i hi
    have : i = 0 ∨ i = 1 := by simpa using hi
    rw [hm]
    rcases this with rfl | rfl
    · exact ⟨by simp [filmMesh], h0⟩
    · exact ⟨by simp [filmMesh], h1⟩
  | magnetostatic =>
    obtain ⟨i, -, hi⟩ := hs
    exact absurd hi (hmag i)

/-- The solver for a disc at 10 V and a surface that does nothing. -/
theorem disc_state_solves {env : SolveEnv} (hM : MatrixReady ⟨.lines [discLine 0, discLine 1], [some .voltageFixed, some .dielectric], [10, 1], .empty3d⟩ env .electrostatic) :
    ∃ f, SolverState.solve ⟨.lines [discLine 0, discLine 1], [some .voltageFixed, some .dielectric], [10, 1], .empty3d⟩ env .electrostatic = some f := by
  obtain ⟨A, hA, hp⟩ := matrix_lines (ls := [discLine 0, discLine 1]) rfl hM (by simp)
  have hq : ∃ q, SolverState.charges ⟨.lines [discLine 0, discLine 1], [some .voltageFixed, some .dielectric], [10, 1], .empty3d⟩ env .electrostatic = some q ∧ q.length = 2 := by
    unfold SolverState.charges
    rw [if_neg (by simp [SolverState.size]), hA]
    simp only [Option.bind_eq_bind, Option.bind_some]
    unfold linSolve
    rw [if_neg]
    · exact ⟨_, rfl, by simp [SolverState.size]⟩
    · show Matrix.det (Matrix.of fun i j : Fin 2 => A i j) ≠ 0
      rw [Matrix.det_fin_two]
      simp only [Matrix.of_apply, Fin.val_zero, Fin.val_one]
      have a00 : A 0 0 = ∫ α in (-1 : ℝ)..1, selfPotentialRadial α (discLine 0) := by
        rw [hp 0 0 (by simp) (by simp)]
        simp [entryRadial, diagRadial]
      have a10 : A 1 0 = 0 := by
        rw [hp 1 0 (by simp) (by simp), entryRadial_one (Or.inl (by simp)) (by simp)]
        simp
      have a11 : A 1 1 = -1 := by
        rw [hp 1 1 (by simp) (by simp), entryRadial_one (Or.inl (by simp)) (by simp)]
        simp
      rw [a00, a10, a11]
      have := disc_self 0
      simp only [mul_zero, sub_zero]
      exact mul_ne_zero this.ne' (by norm_num)
  obtain ⟨q, hq, hlen⟩ := hq
  unfold SolverState.solve
  rw [hq]
  simp only [Option.bind_eq_bind, Option.bind_some]
  unfold EffCharges.new
  rw [if_pos]
  · exact ⟨_, rfl⟩
  · refine ⟨by simp [hlen], ?_, by simp [hlen], ?_⟩ <;> simp [lineJacRow, linePosRow, gaussRule]

/-- **C88**: the hypotheses of `C88_invisible` are met, and a field is returned. -/
theorem C88_example (G : Geo V3) (hG : G.Lawful) : ∃ env env' f f', Valid filmExc.mesh ∧ filmExc.types.keys.Nodup ∧ filmExc.upgraded G = some filmExc ∧ Shaped filmExc ∧
    UnitMaterials filmExc ["film"] ∧ Apart filmExc ["film"] ∧ FaithfulEnv env filmExc ∧ EnoughLines env filmExc ∧
    FaithfulEnv env' (without filmExc ["film"]) ∧ EnoughLines env' (without filmExc ["film"]) ∧ Excited filmExc .electrostatic 2 ∧
    filmExc.solveField G env = some f ∧ (without filmExc ["film"]).solveField G env' = some f' := by
  have hlines : ∀ (x : Excitation ℝ V3), Valid x.mesh → x.types.keys.Nodup → x.mesh.is2d realThirds = true → ∀ s st, x.solverInit s = some st → ∃ ls, st.elems = .lines ls := by
    intro x hv hn h2 s st hst
    obtain ⟨idx, hI⟩ := solverInit_spec hv hn hst
    cases he : st.elems with
    | lines ls => exact ⟨ls, rfl⟩
    | tris ts =>
      have := hI.elems
      rw [he] at this
      rw [h2] at this
      exact absurd this.1 (by simp)
  have hn : filmExc.types.keys.Nodup := by simp [filmExc, Dict.keys]
  have hn' := without_keys (N := ["film"]) hn
  have hup : filmExc.upgraded G = some filmExc := by
    unfold upgraded Mesh.solverMesh
    rw [if_neg (by simp [Mesh.isHigherOrder, filmExc, filmMesh])]
    rfl
  have hN : UnitMaterials filmExc ["film"] := by
    intro n h tv ht
    simp only [List.mem_singleton] at h
    subst h
    have : tv = (.dielectric, .num 1) := Option.some.inj (ht.symm.trans rfl)
    exact ⟨Or.inl this, [2], rfl⟩
  have hA : Apart filmExc ["film"] := by
    intro s n n' g g' h h' _ _ hg hg' i hi
    simp only [List.mem_singleton] at h h'
    subst h
    have e1 : g = [2] := Option.some.inj (hg.symm.trans rfl)
    have e2 : (n', g') ∈ [("disc", [0]), ("glass", [1]), ("film", [2])] := Dict.mem_of_get hg'
    simp only [List.mem_cons, Prod.mk.injEq, List.not_mem_nil, or_false] at e2
    subst e1
    have : i = 2 := by simpa using hi
    subst this
    rcases e2 with ⟨-, rfl⟩ | ⟨-, rfl⟩ | ⟨rfl, -⟩
    · simp
    · simp
    · exact absurd rfl h'
  have hs : Shaped filmExc := by
    refine Or.inl ⟨rfl, ?_, rfl⟩
    have := film_is2d
    unfold Mesh.is2d at this
    rw [List.all_eq_true] at this
    intro p hp
    simpa [realThirds] using this p hp
  obtain ⟨env, t1, he⟩ := exists_env (hlines filmExc film_valid hn film_is2d)
  obtain ⟨env', t1', he'⟩ := exists_env (hlines (without filmExc ["film"]) film_valid hn' film_is2d)
  obtain ⟨x0, x1, y0, y1⟩ := film_excited
  have hE := film_enough (x := filmExc) rfl x0 x1 film_excited_mag t1
  have hmag' : ∀ i, ¬Excited (without filmExc ["film"]) .magnetostatic i := fun i h => film_excited_mag i (without_excited h)
  have hE' := film_enough (x := without filmExc ["film"]) rfl y0 y1 hmag' t1'
  have hsol : ∃ f', (without filmExc ["film"]).solveField G env' = some f' := by
    have hup' : (without filmExc ["film"]).upgraded G = some (without filmExc ["film"]) := by
      unfold upgraded Mesh.solverMesh
      rw [if_neg (by simp [Mesh.isHigherOrder, without, filmExc, filmMesh])]
      rfl
    have hM := (matrixReady (x := without filmExc ["film"]) film_valid hn' he' hE' filmExc_electric).1
    unfold solveField
    rw [hup']
    obtain ⟨w1, w2, -⟩ := without_electro hN hn
    have e1 : (without filmExc ["film"]).isElectrostatic = true := by rw [w1]; rfl
    have e2 : (without filmExc ["film"]).isMagnetostatic = false := by rw [w2]; rfl
    simp only [Option.bind_eq_bind, Option.bind_some, e1, e2, if_true, Bool.false_eq_true, if_false]
    unfold solveStatics
    rw [filmExc_electric]
    exact disc_state_solves hM
  obtain ⟨f', hf'⟩ := hsol
  obtain ⟨f, hf⟩ := (C88_invisible hG film_valid hn hup hs hN hA he he' hE hE').1.2 ⟨f', hf'⟩
  exact ⟨env, env', f, f', film_valid, hn, hup, hs, hN, hA, he, hE, he', hE', ⟨"film", [2], (.dielectric, .num 1), rfl, by simp, rfl, rfl⟩, hf, hf'⟩

end Traceon
