import Verif.Props.Similar6
import Verif.Props.MatrixRadial2

/-!
# C86: an example in radial symmetry
-/
namespace Traceon
open Spec Excitation V3 MeasureTheory

theorem ellipkm1_pos {p : ℝ} (hp : 0 < p) (h1 : p ≤ 1) : 0 < ellipkm1 p := by
  have h := (C75_elliptic hp h1).1
  have hpos : ∀ θ : ℝ, 0 < Real.cos θ ^ 2 + p * Real.sin θ ^ 2 := by
    intro θ
    have := Real.sin_sq_add_cos_sq θ
    nlinarith [sq_nonneg (Real.sin θ), sq_nonneg (Real.cos θ), mul_nonneg (sub_nonneg.2 h1) (sq_nonneg (Real.cos θ))]
  have hle : ∀ θ : ℝ, Real.cos θ ^ 2 + p * Real.sin θ ^ 2 ≤ 1 := by
    intro θ
    have := Real.sin_sq_add_cos_sq θ
    nlinarith [sq_nonneg (Real.sin θ), mul_nonneg (sub_nonneg.2 h1) (sq_nonneg (Real.sin θ))]
  have hint : (∫ _ in (0 : ℝ)..Real.pi / 2, (1 : ℝ)) ≤ ∫ θ in (0 : ℝ)..Real.pi / 2, 1 / √(Real.cos θ ^ 2 + p * Real.sin θ ^ 2) := by
    refine intervalIntegral.integral_mono_on (by positivity) (by simp) ?_ ?_
    · apply Continuous.intervalIntegrable
      refine Continuous.div continuous_const (by fun_prop) fun θ => (Real.sqrt_pos.2 (hpos θ)).ne'
    · intro θ _
      rw [le_div_iff₀ (Real.sqrt_pos.2 (hpos θ)), one_mul]
      exact Real.sqrt_le_one.2 (hle θ)
  rw [intervalIntegral.integral_const, smul_eq_mul, mul_one, sub_zero] at hint
  have := abs_le.1 h
  have hpi := Real.pi_gt_three
  linarith [this.1]

/-- A ring-shaped disc, `1 ≤ r ≤ 4`, at height `z`. -/
def discLine (z : ℝ) : Line4 := ⟨⟨1, 0, z⟩, ⟨4, 0, z⟩, ⟨2, 0, z⟩, ⟨3, 0, z⟩⟩

theorem disc_pos (z α : ℝ) : linePos (discLine z) α = (5 / 2 + 3 / 2 * α, z) := by
  simp only [linePos, curvePos, curvePos1, discLine]
  refine Prod.ext ?_ ?_ <;> simp only <;> ring

theorem disc_jac (z α : ℝ) : lineJac (discLine z) α = 3 / 2 := by
  unfold lineJac curveJac
  simp only [discLine]
  ring_nf
  rw [show (576 : ℝ) = 24 ^ 2 by norm_num, Real.sqrt_sq (by norm_num)]
  norm_num

theorem disc_plane (z : ℝ) : InHalfPlane (discLine z) := by
  have h := congrArg Prod.fst (elemPoint_linePos (discLine z) 0)
  rw [disc_pos] at h
  refine ⟨⟨rfl, rfl, rfl, rfl⟩, ?_⟩
  simp only at h
  rw [← h]
  norm_num

theorem disc_regular (z : ℝ) : Regular (discLine z) := by
  have hx : ∀ α, (elemPoint (discLine z) α).x = 5 / 2 + 3 / 2 * α := by
    intro α
    have := elemPoint_linePos (discLine z) α
    rw [disc_pos] at this
    exact (congrArg Prod.fst this).symm
  refine ⟨disc_plane z, ?_, ?_, ?_, ?_⟩
  · intro α hα
    rw [hx]
    linarith [hα.1]
  · rw [hx]; norm_num
  · intro α _ h
    have := congrArg V3.x h
    rw [hx, hx] at this
    linarith
  · intro h
    have := elemTangent_norm (disc_plane z) 0
    rw [disc_jac, h] at this
    simp [V3.norm, V3.dot] at this
    norm_num at this

/-- The potential of the disc at its own centre. -/
theorem disc_self (z : ℝ) : 0 < ∫ α in (-1 : ℝ)..1, selfPotentialRadial α (discLine z) := by
  have hI := C72_own_potential_integrable (disc_regular z)
  have hpos : ∀ α ∈ Set.Icc (-1 : ℝ) 1, α ≠ 0 → 0 < selfPotentialRadial α (discLine z) := by
    intro α hα h0
    unfold selfPotentialRadial
    simp only
    rw [disc_jac, disc_pos, disc_pos]
    simp only
    have hα1 := hα.1
    have hα2 := hα.2
    have hs : 0 < α ^ 2 := by positivity
    refine mul_pos (by norm_num) ?_
    unfold potentialRadialRing potentialRingWith
    simp only
    refine div_pos (mul_pos (mul_pos (by positivity) (ellipkm1_pos ?_ ?_)) (by linarith)) (Real.sqrt_pos.2 ?_)
    · apply div_pos <;> nlinarith
    · rw [div_le_one (by nlinarith)]
      nlinarith
    · nlinarith
  have i1 : IntervalIntegrable (fun α => selfPotentialRadial α (discLine z)) volume (-1) 0 := hI.mono_set (by
    rw [Set.uIcc_of_le (by norm_num), Set.uIcc_of_le (by norm_num)]
    exact Set.Icc_subset_Icc le_rfl (by norm_num))
  have i2 : IntervalIntegrable (fun α => selfPotentialRadial α (discLine z)) volume 0 1 := hI.mono_set (by
    rw [Set.uIcc_of_le (by norm_num), Set.uIcc_of_le (by norm_num)]
    exact Set.Icc_subset_Icc (by norm_num) le_rfl)
  rw [← intervalIntegral.integral_add_adjacent_intervals i1 i2]
  refine add_pos ?_ ?_
  · refine intervalIntegral.intervalIntegral_pos_of_pos_on i1 (fun α hα => hpos α ⟨hα.1.le, by linarith [hα.2]⟩ hα.2.ne) (by norm_num)
  · refine intervalIntegral.intervalIntegral_pos_of_pos_on i2 (fun α hα => hpos α ⟨by linarith [hα.1], hα.2.le⟩ hα.1.ne') (by norm_num)

/-- With one thread there is a schedule in which it finishes. -/
theorem exists_env {x : Excitation ℝ V3} (h : ∀ s st, x.solverInit s = some st → ∃ ls, st.elems = .lines ls) : ∃ env, env.threads = 1 ∧ FaithfulEnv env x := by
  have hone : ∀ (n : Nat) (ops : Nat → Nat → List (EntryOp ℝ)), ∃ sched, Joined sched (matrixProgs true n 1 ops) := by
    intro n ops
    refine exists_joined _ 1 fun t ht => ?_
    unfold matrixProgs arraySplit
    rw [if_neg (by norm_num)]
    simp only [Option.getD_some]
    rw [List.getD_eq_getElem?_getD, List.getElem?_eq_none (by rw [chop_length, splitSizes_length _ _ (by norm_num)]; simpa using ht)]
    simp [fillProg]
  have : ∀ s, ∃ sched, ∀ st, x.solverInit s = some st → ∃ ls, st.elems = .lines ls ∧
      Joined sched (matrixProgs true ls.length 1 (fillOpsRadial (ls.getD · ⟨0, 0, 0, 0⟩) (fun i => (st.types[i]?).join) (st.values.getD · 0))) := by
    intro s
    cases hst : x.solverInit s with
    | none => exact ⟨[], by simp⟩
    | some st =>
      obtain ⟨ls, hls⟩ := h s st hst
      obtain ⟨sched, hs⟩ := hone ls.length (fillOpsRadial (ls.getD · ⟨0, 0, 0, 0⟩) (fun i => (st.types[i]?).join) (st.values.getD · 0))
      refine ⟨sched, fun st' h' => ?_⟩
      cases h'
      exact ⟨ls, hls, hs⟩
  choose sched hs using this
  refine ⟨⟨1, sched, ⟨fun _ _ => 0, fun _ _ _ => 0⟩⟩, rfl, by norm_num, fun s st hst => ?_⟩
  obtain ⟨ls, h1, h2⟩ := hs s st hst
  rw [h1]
  exact h2

/-- Two discs. -/
def discMesh : Mesh V3 :=
  { points := [⟨1, 0, 0⟩, ⟨4, 0, 0⟩, ⟨2, 0, 0⟩, ⟨3, 0, 0⟩, ⟨1, 0, 1⟩, ⟨4, 0, 1⟩, ⟨2, 0, 1⟩, ⟨3, 0, 1⟩], lineCols := 4, lines := [[0, 1, 2, 3], [4, 5, 6, 7]]
    physLines := [("disc", [0]), ("glass", [1])] }

/-- One of the discs is at 10 V, the other is the surface of a material with relative permittivity 1. -/
def discExc : Excitation ℝ V3 :=
  { mesh := discMesh, electrodes := ["disc", "glass"], symmetry := .radial, types := [("disc", .voltageFixed, .num 10), ("glass", .dielectric, .num 1)] }

theorem disc_is2d : discMesh.is2d realThirds = true := by
  unfold Mesh.is2d
  simp [discMesh, realThirds]

theorem discExc_electric : discExc.solverInit .electrostatic = some ⟨.lines [discLine 0, discLine 1], [some .voltageFixed, some .dielectric], [10, 1], .empty3d⟩ := by
  have ha : discExc.activeElements .electrostatic =
      some ([[⟨1, 0, 0⟩, ⟨4, 0, 0⟩, ⟨2, 0, 0⟩, ⟨3, 0, 0⟩], [⟨1, 0, 1⟩, ⟨4, 0, 1⟩, ⟨2, 0, 1⟩, ⟨3, 0, 1⟩]], [("disc", [0]), ("glass", [1])]) := by rfl
  unfold solverInit
  rw [ha]
  have ht : ∀ centre, discExc.typesAndValues [("disc", [0]), ("glass", [1])] [[(⟨1, 0, 0⟩ : V3), ⟨4, 0, 0⟩, ⟨2, 0, 0⟩, ⟨3, 0, 0⟩], [⟨1, 0, 1⟩, ⟨4, 0, 1⟩, ⟨2, 0, 1⟩, ⟨3, 0, 1⟩]].length centre =
      some ([some .voltageFixed, some .dielectric], [10, 1]) := fun _ => rfl
  simp only [Option.bind_eq_bind, Option.bind_some, ht]
  rw [show discExc.mesh = discMesh from rfl, disc_is2d]
  rfl

theorem discExc_magnetic : discExc.solverInit .magnetostatic = some ⟨.lines [], [], [], .empty3d⟩ := by
  have ha : discExc.activeElements .magnetostatic = some ([], []) := by rfl
  unfold solverInit
  rw [ha]
  have ht : ∀ centre, discExc.typesAndValues [] ([] : List (List V3)).length centre = some ([], []) := fun _ => rfl
  simp only [Option.bind_eq_bind, Option.bind_some, ht]
  rw [show discExc.mesh = discMesh from rfl, disc_is2d]
  rfl

theorem disc_valid : Valid discMesh := by
  refine ⟨Or.inr rfl, ?_, ?_, ?_, ?_, ?_, ?_⟩ <;> simp [discMesh]

theorem disc_excited (i : Nat) : Excited discExc .electrostatic i ↔ i = 0 ∨ i = 1 := by
  unfold Excited
  constructor
  · rintro ⟨n, g, tv, h1, h2, -, -⟩
    have h3 : (n, g) ∈ [("disc", [0]), ("glass", [1])] := Dict.mem_of_get h1
    simp only [List.mem_cons, Prod.mk.injEq, List.not_mem_nil, or_false] at h3
    rcases h3 with ⟨-, rfl⟩ | ⟨-, rfl⟩
    · left; simpa using h2
    · right; simpa using h2
  · rintro (rfl | rfl)
    · exact ⟨"disc", [0], (.voltageFixed, .num 10), rfl, by simp, rfl, rfl⟩
    · exact ⟨"glass", [1], (.dielectric, .num 1), rfl, by simp, rfl, rfl⟩

theorem disc_excited_mag (i : Nat) : ¬Excited discExc .magnetostatic i := by
  rintro ⟨n, g, tv, -, -, h3, h4⟩
  have := Dict.mem_of_get h3
  simp only [discExc, List.mem_cons, Prod.mk.injEq, List.not_mem_nil, or_false] at this
  rcases this with ⟨-, rfl⟩ | ⟨-, rfl⟩ <;> cases h4

theorem disc_enough {env : SolveEnv} (h : env.threads = 1) : EnoughLines env discExc := by
  intro _ s hs
  cases s with
  | electrostatic =>
    refine ⟨[0, 1], by simp, ?_, by rw [h]; simp⟩
    intro i hi
    have : i = 0 ∨ i = 1 := by simpa using hi
    refine ⟨?_, (disc_excited i).2 this⟩
    show i < 2
    omega
  | magnetostatic =>
    obtain ⟨i, -, hi⟩ := hs
    exact absurd hi (disc_excited_mag i)

theorem disc_solves (G : Geo V3) {env : SolveEnv} (he : FaithfulEnv env discExc) (hE : EnoughLines env discExc) : ∃ f, discExc.solveField G env = some f := by
  have hup : discExc.upgraded G = some discExc := by
    unfold upgraded Mesh.solverMesh
    rw [if_neg (by simp [Mesh.isHigherOrder, discExc, discMesh])]
    rfl
  have hn : discExc.types.keys.Nodup := by simp [discExc, Dict.keys]
  have hM := (matrixReady (x := discExc) disc_valid hn he hE discExc_electric).1
  unfold solveField
  rw [hup]
  have e1 : discExc.isElectrostatic = true := rfl
  have e2 : discExc.isMagnetostatic = false := rfl
  simp only [Option.bind_eq_bind, Option.bind_some, e1, e2, if_true, Bool.false_eq_true, if_false]
  unfold solveStatics
  rw [discExc_electric]
  simp only [Option.bind_eq_bind, Option.bind_some]
  obtain ⟨A, hA, hp⟩ := matrix_lines (ls := [discLine 0, discLine 1]) rfl hM (by simp)
  have hq : ∃ q, SolverState.charges ⟨.lines [discLine 0, discLine 1], [some .voltageFixed, some .dielectric], [10, 1], .empty3d⟩ env .electrostatic = some q ∧ q.length = 2 := by
    unfold SolverState.charges
    rw [if_neg (by simp [SolverState.size]), hA]
    simp only [Option.bind_eq_bind, Option.bind_some]
    unfold linSolve
    rw [if_neg]
    · exact ⟨_, rfl, by simp [SolverState.size]⟩
    · show Matrix.det (Matrix.of fun i j : Fin 2 => A i j) ≠ 0
      rw [Matrix.det_fin_two]
      simp only [Matrix.of_apply, Fin.val_zero, Fin.val_one]
      have a00 : A 0 0 = ∫ α in (-1 : ℝ)..1, selfPotentialRadial α (discLine 0) := by
        rw [hp 0 0 (by simp) (by simp)]
        simp [entryRadial, diagRadial]
      have a10 : A 1 0 = 0 := by
        rw [hp 1 0 (by simp) (by simp)]
        unfold entryRadial
        rw [if_neg (by norm_num), entryRadial_flux (Or.inl (by simp))]
        simp [fluxDensityToChargeFactor]
      have a11 : A 1 1 = -1 := by
        rw [hp 1 1 (by simp) (by simp)]
        unfold entryRadial
        rw [if_pos rfl, diagRadial_flux (Or.inl (by simp)) (by simpa using disc_plane 1)]
        simp [fluxDensityToChargeFactor]
      rw [a00, a10, a11]
      have := disc_self 0
      simp only [mul_zero, sub_zero]
      exact mul_ne_zero this.ne' (by norm_num)
  obtain ⟨q, hq, hlen⟩ := hq
  unfold SolverState.solve
  rw [hq]
  simp only [Option.bind_eq_bind, Option.bind_some]
  unfold EffCharges.new
  rw [if_pos]
  · exact ⟨_, rfl⟩
  · refine ⟨by simp [hlen], ?_, by simp [hlen], ?_⟩ <;> simp [lineJacRow, linePosRow, gaussRule]

/-- **C86**: the hypotheses of `C86_similar` are met by a disc at 10 V and the surface of a dielectric, moved anywhere along the axis, reflected, and enlarged by any factor. -/
theorem C86_example (G : Geo V3) (S : Similarity) (hS : 1 ≤ S.scale) : ∃ env env' f, Valid discExc.mesh ∧ discExc.types.keys.Nodup ∧ discExc.symmetry = .radial ∧ discExc.mesh.lineCols = 4 ∧
    (∀ p ∈ discExc.mesh.points, p.y = 0) ∧ S.KeepsAxisOf discExc ∧
    FaithfulEnv env discExc ∧ FaithfulEnv env' (S.excitation discExc) ∧ EnoughLines env discExc ∧ EnoughLines env' (S.excitation discExc) ∧ discExc.solveField G env = some f := by
  have hlines : ∀ {x : Excitation ℝ V3}, Valid x.mesh → x.types.keys.Nodup → x.mesh.is2d realThirds = true → ∀ s st, x.solverInit s = some st → ∃ ls, st.elems = .lines ls := by
    intro x hv hn h2 s st hst
    obtain ⟨idx, hI⟩ := solverInit_spec hv hn hst
    have := hI.elems
    cases hel : st.elems with
    | lines ls => exact ⟨ls, rfl⟩
    | tris ts => rw [hel] at this; rw [this.1] at h2; cases h2
  have hn : discExc.types.keys.Nodup := by simp [discExc, Dict.keys]
  have hy : ∀ p ∈ discExc.mesh.points, p.y = 0 := by simp [discExc, discMesh]
  have hv' : Valid (S.excitation discExc).mesh := similar_valid disc_valid rfl
  have hn' : (S.excitation discExc).types.keys.Nodup := by simp [Similarity.excitation, discExc, Dict.keys]
  have h2' : (S.excitation discExc).mesh.is2d realThirds = true := by
    unfold Mesh.is2d
    simp [Similarity.excitation, Similarity.move, discExc, discMesh, realThirds]
  obtain ⟨env, ht, he⟩ := exists_env (hlines (x := discExc) disc_valid hn disc_is2d)
  obtain ⟨env', ht', he'⟩ := exists_env (hlines hv' hn' h2')
  obtain ⟨f, hf⟩ := disc_solves G he (disc_enough ht)
  refine ⟨env, env', f, disc_valid, hn, rfl, rfl, hy, ⟨?_, ?_⟩, he, he', disc_enough ht, ?_, hf⟩
  · intro i l hl
    have hx : (elemPoint l 0).x = 5 / 2 := by
      have hl2 : l = discLine 0 ∨ l = discLine 1 := by
        match i, hl with
        | 0, hl => left; exact (Option.some.inj hl).symm
        | 1, hl => right; exact (Option.some.inj hl).symm
        | i + 2, hl => cases hl
      have := congrArg Prod.fst (elemPoint_linePos l 0)
      simp only at this
      rw [← this]
      rcases hl2 with rfl | rfl <;> rw [disc_pos] <;> norm_num
    rw [hx]
    refine ⟨⟨fun h => ?_, fun h => ?_⟩, ⟨fun h => ?_, fun h => ?_⟩⟩
    · nlinarith
    · norm_num at h
    · rw [abs_of_pos (by norm_num)] at h; nlinarith
    · rw [abs_of_pos (by norm_num)] at h; norm_num at h
  · intro i t ht
    cases ht
  · have := disc_enough ht'
    intro hs s h
    obtain ⟨idx, a, b, c⟩ := this hs s (by obtain ⟨i, h1, h2⟩ := h; exact ⟨i, similar_length S discExc ▸ h1, (similar_excited S discExc s i).1 h2⟩)
    exact ⟨idx, a, fun i hi => ⟨similar_length S discExc ▸ (b i hi).1, (similar_excited S discExc s i).2 (b i hi).2⟩, c⟩

/-- **C80**: the hypotheses of `C80_radial_partial` are met by the disc at 10 V and the dielectric. -/
theorem C80_example_radial (G : Geo V3) (inXZ : V3 → Bool) (hxz : ∀ p, inXZ p = true ↔ p.y = 0) : ∃ x0 x env f, Valid discMesh ∧ Excitation.new discMesh .radial inXZ = some x0 ∧
    x = x0.calls G [.voltage [("disc", .num 10)], .dielectric [("glass", .num 1)]] ∧ x.upgraded G = some x ∧ FaithfulEnv env x ∧
    (∀ s, (∃ i, i < x.mesh.lines.length ∧ Excited x s i) → ∃ idx : List Nat, idx.Nodup ∧ (∀ i ∈ idx, i < x.mesh.lines.length ∧ Excited x s i) ∧ 2 * env.threads ≤ idx.length) ∧
    (∀ e ∈ x.mesh.lines, ∀ l, toLine4 (coords x.mesh.points e) = some l → 0 ≤ (elemPoint l 0).x) ∧ x.solveField G env = some f := by
  obtain ⟨env, _, f, hv, hn, h1, h2, h3, h4, h6, -, h8, -, h9⟩ := C86_example G (Similarity.along 0) le_rfl
  have hnew : Excitation.new discMesh .radial inXZ = some ({ mesh := discMesh, electrodes := ["disc", "glass"], symmetry := .radial } : Excitation ℝ V3) := by
    unfold Excitation.new
    rw [if_neg (by simp [discMesh, hxz])]
    rfl
  refine ⟨_, discExc, env, f, disc_valid, hnew, rfl, ?_, h6, h8 rfl, ?_, h9⟩
  · unfold upgraded Mesh.solverMesh
    rw [if_neg (by simp [Mesh.isHigherOrder, discExc, discMesh])]
    rfl
  · intro e he l hl
    have : l = discLine 0 ∨ l = discLine 1 := by
      have he : e ∈ [[0, 1, 2, 3], [4, 5, 6, 7]] := he
      simp only [List.mem_cons, List.not_mem_nil, or_false] at he
      rcases he with rfl | rfl
      · left; exact (Option.some.inj hl).symm
      · right; exact (Option.some.inj hl).symm
    rcases this with rfl | rfl
    · exact (disc_plane 0).2
    · exact (disc_plane 1).2

end Traceon
