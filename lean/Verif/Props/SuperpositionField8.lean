import Verif.Props.SuperpositionField7
import Verif.Props.Similar7

/-!
# C35 for coils: a concrete case
-/
namespace Traceon
open Spec Excitation

/-- Two discs, the surfaces of magnetizable materials, and two coils. -/
def coilMesh : Mesh V3 :=
  { points := [⟨1, 0, 0⟩, ⟨4, 0, 0⟩, ⟨2, 0, 0⟩, ⟨3, 0, 0⟩, ⟨1, 0, 1⟩, ⟨4, 0, 1⟩, ⟨2, 0, 1⟩, ⟨3, 0, 1⟩, ⟨5, 0, 0⟩, ⟨7, 0, 0⟩, ⟨5, 0, 2⟩, ⟨7, 0, 2⟩], lineCols := 4
    lines := [[0, 1, 2, 3], [4, 5, 6, 7]], triangles := [[8, 9, 10], [9, 11, 10]]
    physLines := [("iron", [0]), ("air", [1])], physTris := [("coil1", [0]), ("coil2", [1])] }

/-- Currents `a` and `b`, materials with relative permeability 1. -/
def coilExc (a b : ℝ) : Excitation ℝ V3 :=
  { mesh := coilMesh, electrodes := ["iron", "air", "coil1", "coil2"], symmetry := .radial
    types := [("iron", .magnetizable, .num 1), ("air", .magnetizable, .num 1), ("coil1", .current, .num a), ("coil2", .current, .num b)] }

theorem coil_is2d : coilMesh.is2d realThirds = true := by
  unfold Mesh.is2d
  simp [coilMesh, realThirds]

theorem coil_valid : Valid coilMesh := by
  refine ⟨Or.inr rfl, ?_, ?_, ?_, ?_, ?_, ?_⟩ <;> simp [coilMesh]

theorem coil_get {a b : ℝ} {n : String} {tv : ExcType × ExcVal ℝ V3} (h : (coilExc a b).types.get n = some tv) :
    ((n = "iron" ∨ n = "air") ∧ tv = (.magnetizable, .num 1)) ∨ (n = "coil1" ∧ tv = (.current, .num a)) ∨ (n = "coil2" ∧ tv = (.current, .num b)) := by
  have := Dict.mem_of_get h
  simp only [coilExc, List.mem_cons, Prod.mk.injEq, List.not_mem_nil, or_false] at this
  rcases this with ⟨rfl, rfl⟩ | ⟨rfl, rfl⟩ | ⟨rfl, rfl⟩ | ⟨rfl, rfl⟩ <;> simp

theorem coil_only (a b : ℝ) : OnlyCurrents (coilExc a b) := by
  intro n tv h
  rcases coil_get h with ⟨-, rfl⟩ | ⟨-, rfl⟩ | ⟨-, rfl⟩
  · exact ⟨Or.inr rfl, _, rfl⟩
  · exact ⟨Or.inl rfl, _, rfl⟩
  · exact ⟨Or.inl rfl, _, rfl⟩

theorem coil_excited {a b : ℝ} (i : Nat) (h : i = 0 ∨ i = 1) : Excited (coilExc a b) .magnetostatic i := by
  rcases h with rfl | rfl
  · exact ⟨"iron", [0], (.magnetizable, .num 1), rfl, by simp, rfl, rfl⟩
  · exact ⟨"air", [1], (.magnetizable, .num 1), rfl, by simp, rfl, rfl⟩

theorem coil_currents (a b : ℝ) : ∃ c, (coilExc a b).currentCharges = some c := by
  unfold currentCharges
  rw [if_neg (by simp [coilExc, coilMesh, hasCurrent])]
  have hv : (coilExc a b).mesh.triangles.mapM (triVerts (coilExc a b).mesh.points) =
      some [⟨⟨5, 0, 0⟩, ⟨7, 0, 0⟩, ⟨5, 0, 2⟩⟩, ⟨⟨7, 0, 0⟩, ⟨7, 0, 2⟩, ⟨5, 0, 2⟩⟩] := rfl
  rw [hv]
  simp only [Option.bind_eq_bind, Option.bind_some, List.map_cons, List.map_nil]
  generalize hj₁ : jacRow ⟨⟨5, 0, 0⟩, ⟨7, 0, 0⟩, ⟨5, 0, 2⟩⟩ = j₁
  generalize hj₂ : jacRow ⟨⟨7, 0, 0⟩, ⟨7, 0, 2⟩, ⟨5, 0, 2⟩⟩ = j₂
  generalize hp₁ : posRow ⟨⟨5, 0, 0⟩, ⟨7, 0, 0⟩, ⟨5, 0, 2⟩⟩ = p₁
  generalize hp₂ : posRow ⟨⟨7, 0, 0⟩, ⟨7, 0, 2⟩, ⟨5, 0, 2⟩⟩ = p₂
  have hfold : (coilExc a b).types.foldlM ((coilExc a b).currentStep [j₁, j₂] [p₁, p₂]) ([], [], []) =
      some ([a / ([j₁].map List.sum).sum, b / ([j₂].map List.sum).sum], [j₁, j₂], [p₁, p₂]) := rfl
  rw [hfold]
  simp only [Option.bind_some]
  rw [if_neg (by simp)]
  unfold EffCharges.new
  rw [if_pos]
  · exact ⟨_, rfl⟩
  · subst hj₁ hj₂ hp₁ hp₂
    refine ⟨by simp, ?_, by simp, ?_⟩ <;> simp [jacRow, posRow, quadRule]

theorem coil_magnetic (a b : ℝ) : ∃ c, (coilExc a b).solverInit .magnetostatic = some ⟨.lines [discLine 0, discLine 1], [some .magnetizable, some .magnetizable], [1, 1], c⟩ := by
  obtain ⟨c, hc⟩ := coil_currents a b
  refine ⟨c, ?_⟩
  have ha : (coilExc a b).activeElements .magnetostatic =
      some ([[⟨1, 0, 0⟩, ⟨4, 0, 0⟩, ⟨2, 0, 0⟩, ⟨3, 0, 0⟩], [⟨1, 0, 1⟩, ⟨4, 0, 1⟩, ⟨2, 0, 1⟩, ⟨3, 0, 1⟩]], [("iron", [0]), ("air", [1])]) := by rfl
  rw [solverInit_eq, ha, Option.bind_some]
  have ht : ∀ centre, (coilExc a b).typesAndValues [("iron", [0]), ("air", [1])] [[(⟨1, 0, 0⟩ : V3), ⟨4, 0, 0⟩, ⟨2, 0, 0⟩, ⟨3, 0, 0⟩], [⟨1, 0, 1⟩, ⟨4, 0, 1⟩, ⟨2, 0, 1⟩, ⟨3, 0, 1⟩]].length centre =
      some ([some .magnetizable, some .magnetizable], [1, 1]) := fun _ => rfl
  rw [ht, Option.bind_some]
  have hel : elemsOf (coilExc a b).mesh [[(⟨1, 0, 0⟩ : V3), ⟨4, 0, 0⟩, ⟨2, 0, 0⟩, ⟨3, 0, 0⟩], [⟨1, 0, 1⟩, ⟨4, 0, 1⟩, ⟨2, 0, 1⟩, ⟨3, 0, 1⟩]] = some (.lines [discLine 0, discLine 1]) := by
    unfold elemsOf
    rw [show (coilExc a b).mesh = coilMesh from rfl, coil_is2d]
    rfl
  simp only
  rw [hel, Option.bind_some, show coilsIn (coilExc a b) .magnetostatic = some c from hc]
  rfl

theorem coil_enough {a b : ℝ} {env : SolveEnv} (h : env.threads = 1) : EnoughLines env (coilExc a b) := by
  intro _ s hs
  cases s with
  | magnetostatic =>
    refine ⟨[0, 1], by simp, ?_, by rw [h]; simp⟩
    intro i hi
    have : i = 0 ∨ i = 1 := by simpa using hi
    refine ⟨?_, coil_excited i this⟩
    show i < 2
    omega
  | electrostatic =>
    obtain ⟨i, -, n, g, tv, -, -, h3, h4⟩ := hs
    rcases coil_get h3 with ⟨-, rfl⟩ | ⟨-, rfl⟩ | ⟨-, rfl⟩ <;> cases h4

theorem coil_upgraded (G : Geo V3) (a b : ℝ) : (coilExc a b).upgraded G = some (coilExc a b) := by
  unfold upgraded Mesh.solverMesh
  rw [if_neg (by simp [Mesh.isHigherOrder, coilExc, coilMesh])]
  rfl

theorem coil_nodup (a b : ℝ) : (coilExc a b).types.keys.Nodup := by simp [coilExc, Dict.keys]

theorem coil_solves (G : Geo V3) {a b : ℝ} {env : SolveEnv} (he : FaithfulEnv env (coilExc a b)) (hE : EnoughLines env (coilExc a b)) : ∃ f, (coilExc a b).solveField G env = some f := by
  obtain ⟨c, hst⟩ := coil_magnetic a b
  have hM := (matrixReady (x := coilExc a b) coil_valid (coil_nodup a b) he hE hst).1
  rw [solveField_onlyC (coil_upgraded G a b) (coil_nodup a b) (coil_only a b) rfl]
  unfold solveStatics
  rw [hst]
  simp only [Option.bind_eq_bind, Option.bind_some]
  obtain ⟨A, hA, hp⟩ := matrix_lines (ls := [discLine 0, discLine 1]) rfl hM (by simp)
  have hq : ∃ q, SolverState.charges ⟨.lines [discLine 0, discLine 1], [some .magnetizable, some .magnetizable], [1, 1], c⟩ env .magnetostatic = some q ∧ q.length = 2 := by
    unfold SolverState.charges
    rw [if_neg (by simp [SolverState.size]), hA]
    simp only [Option.bind_eq_bind, Option.bind_some]
    unfold linSolve
    rw [if_neg]
    · exact ⟨_, rfl, by simp [SolverState.size]⟩
    · show Matrix.det (Matrix.of fun i j : Fin 2 => A i j) ≠ 0
      rw [Matrix.det_fin_two]
      simp only [Matrix.of_apply, Fin.val_zero, Fin.val_one]
      have a00 : A 0 0 = -1 := by
        rw [hp 0 0 (by simp) (by simp)]
        unfold entryRadial
        rw [if_pos rfl, diagRadial_flux (Or.inr (by simp)) (by simpa using disc_plane 0)]
        simp [fluxDensityToChargeFactor]
      have a10 : A 1 0 = 0 := by
        rw [hp 1 0 (by simp) (by simp)]
        unfold entryRadial
        rw [if_neg (by norm_num), entryRadial_flux (Or.inr (by simp))]
        simp [fluxDensityToChargeFactor]
      have a11 : A 1 1 = -1 := by
        rw [hp 1 1 (by simp) (by simp)]
        unfold entryRadial
        rw [if_pos rfl, diagRadial_flux (Or.inr (by simp)) (by simpa using disc_plane 1)]
        simp [fluxDensityToChargeFactor]
      rw [a00, a10, a11]
      norm_num
  obtain ⟨q, hq, hlen⟩ := hq
  unfold SolverState.solve
  rw [hq]
  simp only [Option.bind_eq_bind, Option.bind_some]
  unfold EffCharges.new
  rw [if_pos]
  · exact ⟨_, rfl⟩
  · refine ⟨by simp [hlen], ?_, by simp [hlen], ?_⟩ <;> simp [lineJacRow, linePosRow, gaussRule]

/-- **C35**: the hypotheses of `C35_currents_partial` are met by two coils with currents 3 and 2 beside magnetizable materials, and other currents are settings of it. -/
theorem C35_currents_example (G : Geo V3) : ∃ env f, Valid (coilExc 3 2).mesh ∧ (coilExc 3 2).types.keys.Nodup ∧ OnlyCurrents (coilExc 3 2) ∧
    (∃ n v, v ≠ 0 ∧ (coilExc 3 2).types.get n = some (.current, .num v)) ∧ (coilExc 3 2).upgraded G = some (coilExc 3 2) ∧ FaithfulEnv env (coilExc 3 2) ∧ EnoughLines env (coilExc 3 2) ∧
    (coilExc 3 2).solveField G env = some f ∧ ∀ a b, CurrentSettingOf (coilExc 3 2) (coilExc a b) := by
  obtain ⟨env, ht, he⟩ := exists_env (x := coilExc 3 2) (fun s st hst => by
    obtain ⟨idx, hI⟩ := solverInit_spec (x := coilExc 3 2) coil_valid (coil_nodup 3 2) hst
    have := hI.elems
    cases hel : st.elems with
    | lines ls => exact ⟨ls, rfl⟩
    | tris ts =>
      rw [hel] at this
      have h2 := this.1
      rw [show (coilExc 3 2).mesh = coilMesh from rfl, coil_is2d] at h2
      cases h2)
  obtain ⟨f, hf⟩ := coil_solves G he (coil_enough ht)
  refine ⟨env, f, coil_valid, coil_nodup 3 2, coil_only 3 2, ⟨"coil1", 3, by norm_num, rfl⟩, coil_upgraded G 3 2, he, coil_enough ht, hf, fun a b =>
    ⟨rfl, rfl, rfl, fun m v h => ?_, fun m h => ?_, fun m v h => ?_⟩⟩
  · rcases coil_get h with ⟨-, e⟩ | ⟨rfl, e⟩ | ⟨rfl, e⟩
    · cases e
    · exact ⟨a, rfl⟩
    · exact ⟨b, rfl⟩
  · rcases coil_get h with ⟨-, e⟩ | ⟨-, e⟩ | ⟨-, e⟩
    · cases e
    · simp at e
    · simp at e
  · rcases coil_get h with ⟨rfl | rfl, e⟩ | ⟨-, e⟩ | ⟨-, e⟩
    · rw [show v = ExcVal.num 1 by simpa using e]; rfl
    · rw [show v = ExcVal.num 1 by simpa using e]; rfl
    · cases e
    · cases e

end Traceon
