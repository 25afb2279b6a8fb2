import Verif.Props.Rigid4
import Verif.Props.HigherOrder

/-!
# C81: examples, and a mesh in the plane y = 0
-/
namespace Traceon
open Spec V3 Excitation

/-- A faithful environment exists for any problem with one triangle at a voltage, if the integral of its potential over itself is known. -/
theorem one_triangle_env {x : Excitation ℝ V3} {t : Tri3} {r v : ℝ} (hr : PotentialTriangleReturns t.v0 t.v1 t.v2 (centroid t) r)
    (hel : x.solverInit .electrostatic = some ⟨.tris [t], [some .voltageFixed], [v], .empty3d⟩)
    (hmag : x.solverInit .magnetostatic = some ⟨.tris [], [], [], ⟨12, [], [], []⟩⟩) : ∃ env, FaithfulEnv env x := by
  let o : TriRoutines := ⟨fun _ _ => r, fun _ _ _ => 0⟩
  let ops := fillOps3d o ([t].getD · ⟨0, 0, 0⟩) (fun i => ([some ExcType.voltageFixed][i]?).join) (([v] : List ℝ).getD · 0)
  have hprog : ∀ t, 1 ≤ t → matrixProgs false 1 1 ops t = [] := by
    intro t ht
    unfold matrixProgs
    have : (((arraySplit (List.range 1) (1 : Int)).getD []).getD t []) = [] := by
      have e : (arraySplit (List.range 1) (1 : Int)).getD [] = [[0]] := by decide
      rw [e]
      match t, ht with
      | t + 1, _ => rfl
    rw [this]
    rfl
  obtain ⟨sched, hs⟩ := exists_joined (matrixProgs false 1 1 ops) 1 hprog
  let env : SolveEnv := ⟨1, fun _ => sched, o⟩
  have hco : o.Correct 1 ([t].getD · ⟨0, 0, 0⟩) (fun i => ([some ExcType.voltageFixed][i]?).join) := by
    intro i hi j hj _
    obtain rfl : i = 0 := by omega
    obtain rfl : j = 0 := by omega
    simp only [List.getElem?_cons_zero, Option.join_some, List.getD_cons_zero]
    rw [triTarget_eq]
    exact hr
  refine ⟨env, by norm_num, fun s st hst => ?_⟩
  cases s with
  | electrostatic =>
    rw [hel, Option.some.injEq] at hst
    subst hst
    exact ⟨hco, hs⟩
  | magnetostatic =>
    rw [hmag, Option.some.injEq] at hst
    subst hst
    refine ⟨fun i hi => by simp at hi, ?_⟩
    intro t
    unfold matrixProgs
    have : ((((arraySplit (List.range ([] : List Tri3).length) env.threads).getD []).getD t [])) = [] := by
      have e : (arraySplit (List.range ([] : List Tri3).length) env.threads).getD [] = [[]] := by
        show (arraySplit (List.range 0) (1 : Int)).getD [] = [[]]
        decide
      rw [e]
      match t with
      | 0 => rfl
      | t + 1 => rfl
    rw [this]
    simp [fillProg]

/-- **C81**: the hypotheses of `C81_rigid` are met by the triangle of C80 moved anywhere, except into the plane `y = 0`. -/
theorem C81_example (G : Geo V3) (R : RigidMotion) (inv : V3 → V3) (hy' : ∃ p ∈ plateMesh.points, (R.move p).y ≠ 0) :
    ∃ env env' f, Valid plateExc.mesh ∧ plateExc.types.keys.Nodup ∧ plateExc.symmetry = .threeD ∧ plateExc.hasCurrent = false ∧ plateExc.mesh.lineCols = 2 ∧
      (∃ p ∈ plateExc.mesh.points, p.y ≠ 0) ∧ FaithfulEnv env plateExc ∧ FaithfulEnv env' (R.excitation inv plateExc) ∧ NoInterfaces plateExc ∧
      plateExc.solveField G env = some f := by
  obtain ⟨x0, x, env, f, hv, h0, hx, hy, he, hf⟩ := C80_example G (fun _ => true)
  have : x = plateExc := by
    have hnew : Excitation.new plateMesh .threeD (fun _ => true) = some ({ mesh := plateMesh, electrodes := ["plate"], symmetry := .threeD } : Excitation ℝ V3) := by
      unfold Excitation.new
      rw [if_neg (by simp)]
      rfl
    rw [hnew] at h0
    cases h0
    exact hx
  subst this
  obtain ⟨r, hr0, hr⟩ := plate_returns
  have h2 : (R.excitation inv plateExc).mesh.is2d realThirds = false := by
    unfold Mesh.is2d
    rw [List.all_eq_false]
    obtain ⟨p, hp, h⟩ := hy'
    exact ⟨R.move p, List.mem_map_of_mem hp, by simpa [realThirds] using h⟩
  have hel : (R.excitation inv plateExc).solverInit .electrostatic = some ⟨.tris [R.tri plate], [some .voltageFixed], [10], .empty3d⟩ := by
    have ha : (R.excitation inv plateExc).activeElements .electrostatic = some ([[R.move ⟨0, 0, 0⟩, R.move ⟨2, 0, 0⟩, R.move ⟨1, 1, 0⟩]], [("plate", [0])]) := by
      rfl
    unfold solverInit
    rw [ha]
    have ht : ∀ centre, (R.excitation inv plateExc).typesAndValues [("plate", [0])] [[R.move ⟨0, 0, 0⟩, R.move ⟨2, 0, 0⟩, R.move ⟨1, 1, 0⟩]].length centre = some ([some .voltageFixed], [10]) := by
      intro c
      rfl
    simp only [Option.bind_eq_bind, Option.bind_some, ht]
    rw [h2]
    rfl
  have hmag : (R.excitation inv plateExc).solverInit .magnetostatic = some ⟨.tris [], [], [], ⟨12, [], [], []⟩⟩ := by
    have ha : (R.excitation inv plateExc).activeElements .magnetostatic = some ([], []) := by rfl
    unfold solverInit
    rw [ha]
    have ht : ∀ centre, (R.excitation inv plateExc).typesAndValues [] ([] : List (List V3)).length centre = some ([], []) := fun _ => rfl
    simp only [Option.bind_eq_bind, Option.bind_some, ht]
    rw [h2]
    rfl
  have hr' : PotentialTriangleReturns (R.tri plate).v0 (R.tri plate).v1 (R.tri plate).v2 (centroid (R.tri plate)) r := by
    rw [← triTarget_eq, R.triTarget_tri, triTarget_eq]
    exact R.potentialReturns_move.2 hr
  obtain ⟨env', he'⟩ := one_triangle_env hr' hel hmag
  refine ⟨env, env', f, hv, by simp [Dict.keys, plateExc], rfl, rfl, rfl, hy, he, he', ?_, hf⟩
  intro n tv h
  have : tv.1 = .voltageFixed := by
    unfold Dict.get plateExc at h
    simp only [List.find?_cons, List.find?_nil] at h
    split at h
    · cases h; rfl
    · cases h
  rw [this]
  exact ⟨by decide, by decide⟩

/-- **C81**, an excited triangle in three dimensions, the whole mesh being in the plane `y = 0`: the mesh is taken to be two dimensional and `solve_direct` raises an exception. -/
theorem C81_plane {G : Geo V3} (hG : G.Lawful) {x : Excitation ℝ V3} (hv : Valid x.mesh) (hn : x.types.keys.Nodup) (h3 : x.symmetry = .threeD)
    (hnd : ∀ e ∈ x.mesh.triangles, NonDegenerate G x.mesh.points e) (hy : ∀ p ∈ x.mesh.points, p.y = 0) (hel : x.isElectrostatic)
    (hex : ∃ i, i < x.mesh.triangles.length ∧ Excited x .electrostatic i) (env : SolveEnv) : x.solveField G env = none := by
  obtain ⟨i, hi, hexi⟩ := hex
  have h2 : x.mesh.is2d realThirds = true := by
    unfold Mesh.is2d
    rw [List.all_eq_true]
    intro p hp
    simpa [realThirds] using hy p hp
  have key : ∀ M : Mesh V3, Valid M → M.lineCols = 4 → M.physTris = x.mesh.physTris → M.triangles.length = x.mesh.triangles.length →
      ({ x with mesh := M } : Excitation ℝ V3).solveStatics env .electrostatic = none := by
    intro M hvM hc hp hl
    cases hst : ({ x with mesh := M } : Excitation ℝ V3).solverInit .electrostatic with
    | none => unfold solveStatics; rw [hst]; rfl
    | some st =>
      exfalso
      obtain ⟨idx, hI⟩ := solverInit_spec (x := { x with mesh := M }) hvM hn hst
      have hels : ({ x with mesh := M } : Excitation ℝ V3).elements = M.triangles := by unfold Excitation.elements; rw [h3]; rfl
      have hphys : ({ x with mesh := M } : Excitation ℝ V3).physicals = x.physicals := by
        unfold Excitation.physicals
        rw [h3]
        exact hp
      have hmem : i ∈ idx := by
        rw [hI.mem, hels, hl]
        refine ⟨hi, ?_⟩
        obtain ⟨n, g, tv, a1, a2, a3, a4⟩ := hexi
        exact ⟨n, g, tv, by rw [hphys]; exact a1, a2, a3, a4⟩
      obtain ⟨k, hk, rfl⟩ := List.getElem_of_mem hmem
      have he := hI.elems
      cases hE : st.elems with
      | tris ts =>
        rw [hE] at he
        simp [Mesh.isHigherOrder, hc] at he
      | lines ls =>
        rw [hE] at he
        obtain ⟨-, -, hlen, hls⟩ := he
        have := hls k idx[k] (by simp [hk])
        rw [hels] at this
        have hi' : idx[k] < M.triangles.length := by rw [hl]; exact hi
        rw [List.getElem?_eq_getElem (by rw [hlen]; exact hk), List.getElem?_eq_getElem hi', Option.bind_some] at this
        obtain ⟨hl3, hb⟩ := hvM.tris _ (List.getElem_mem hi')
        generalize M.triangles[idx[k]] = e at this hl3 hb
        match e, hl3 with
        | [a, b, c], _ =>
          have ha := hb a (by simp)
          have hb' := hb b (by simp)
          have hc := hb c (by simp)
          simp [coords, List.filterMap_cons, ha, hb', hc, toLine4] at this
  have hup : ∀ x', x.upgraded G = some x' → ∃ M : Mesh V3, x' = { x with mesh := M } ∧ Valid M ∧ M.lineCols = 4 ∧ M.physTris = x.mesh.physTris ∧
      M.triangles.length = x.mesh.triangles.length := by
    intro x' hx'
    unfold upgraded Mesh.solverMesh at hx'
    rw [h2, Bool.true_and] at hx'
    rcases hv.cols with hc | hc
    · rw [if_pos (by simp [Mesh.isHigherOrder, hc])] at hx'
      obtain ⟨R, h1, hvR, hcR, hpts, hpl, htr, hpt, hm, ht⟩ := C12_upgrade_raw realThirds x.mesh hv hc
      obtain ⟨M, hb, r⟩ := Mesh.build_shapes hG R hvR true
      have hM : x.mesh.toHigherOrder G realThirds = some M := by unfold Mesh.toHigherOrder; rw [h1]; exact hb
      rw [hM] at hx'
      have hall : ∀ e ∈ R.triangles, NonDegenerate G R.points e := by
        intro e he
        rw [← Mesh.nonDegShape_iff (hvR.tris e he)]
        have hmem : coords R.points e ∈ triShapes x.mesh := by
          rw [← ht]; exact List.mem_map_of_mem he
        obtain ⟨e', he', hh⟩ := List.mem_map.1 hmem
        rw [← hh, Mesh.nonDegShape_iff (hv.tris e' he')]
        exact hnd e' he'
      refine ⟨M, (Option.some.inj hx').symm, r.valid, r.cols.trans hcR, ?_, ?_⟩
      · rw [r.physTris hall]
        first | exact hpt | exact htr
      · have hlen := r.tris.1
        have hfil : (triShapes R).filter (nonDegShape G) = triShapes R := by
          rw [List.filter_eq_self]
          intro s hs
          obtain ⟨e, he, rfl⟩ := List.mem_map.1 hs
          exact (Mesh.nonDegShape_iff (hvR.tris e he)).2 (hall e he)
        rw [hfil, ht] at hlen
        simpa [triShapes] using hlen.symm
    · rw [if_neg (by simp [Mesh.isHigherOrder, hc])] at hx'
      exact ⟨x.mesh, (Option.some.inj hx').symm, hv, hc, rfl, rfl⟩
  unfold solveField
  cases hx' : x.upgraded G with
  | none => rfl
  | some x' =>
    obtain ⟨M, rfl, a1, a2, a3, a4⟩ := hup x' hx'
    simp only [Option.bind_eq_bind, Option.bind_some]
    have he' : ({ x with mesh := M } : Excitation ℝ V3).isElectrostatic = true := hel
    rw [he', if_pos rfl, key M a1 a2 a3 a4]
    split <;> rfl

theorem rotC_inv (i : Fin 3) (α : ℝ) (o p : V3) : rotC i (-α) o (rotC i α o p) = p := by
  have h := Real.sin_sq_add_cos_sq α
  fin_cases i <;> simp only [rotC, Real.cos_neg, Real.sin_neg] <;> ext <;> simp
  · linear_combination (p.y - o.y) * h
  · linear_combination (p.z - o.z) * h
  · linear_combination (p.x - o.x) * h
  · linear_combination (p.z - o.z) * h
  · linear_combination (p.x - o.x) * h
  · linear_combination (p.y - o.y) * h

/-- **C81**: a quarter turn about the z-axis is such a motion. -/
theorem C81_example_turn : (∀ p, rotC 2 (-(Real.pi / 2)) 0 ((rotationMotion 2 (Real.pi / 2) 0).move p) = p) ∧
    ∃ p ∈ plateMesh.points, ((rotationMotion 2 (Real.pi / 2) 0).move p).y ≠ 0 := by
  refine ⟨fun p => by rw [rotationMotion_move, rotC_inv], ⟨2, 0, 0⟩, by simp [plateMesh], ?_⟩
  rw [rotationMotion_move]
  simp [rotC]

/-- **C81** does not hold for all rotations: the triangle of C80 can be solved, but not after a quarter turn about the x-axis. -/
theorem C81_plane_refuted (trunc : V3 → V3) : ∃ (R : RigidMotion) (inv : V3 → V3), (∀ p, R.move p = rotC 0 (Real.pi / 2) 0 p) ∧ (∀ p, inv (R.move p) = p) ∧
    (∃ env f, FaithfulEnv env plateExc ∧ plateExc.solveField (realGeo trunc) env = some f) ∧
    ∀ env, (R.excitation inv plateExc).solveField (realGeo trunc) env = none := by
  have hmove : ∀ p, (rotationMotion 0 (Real.pi / 2) 0).move p = ⟨p.x, -p.z, p.y⟩ := by
    intro p
    rw [rotationMotion_move]
    simp only [rotC]
    ext <;> simp
  refine ⟨rotationMotion 0 (Real.pi / 2) 0, rotC 0 (-(Real.pi / 2)) 0, fun p => rotationMotion_move _ _ _ _, fun p => by rw [rotationMotion_move, rotC_inv], ?_, fun env => ?_⟩
  · obtain ⟨env, _, f, -, -, -, -, -, -, h1, -, -, h2⟩ := C81_example (realGeo trunc) RigidMotion.id (fun p => p) ⟨⟨1, 1, 0⟩, by simp [plateMesh], by rw [RigidMotion.id_move]; norm_num⟩
    exact ⟨env, f, h1, h2⟩
  · refine C81_plane (realGeo_lawful trunc) ?_ ?_ rfl ?_ ?_ rfl ?_ env
    · refine ⟨Or.inl rfl, ?_, ?_, ?_, ?_, ?_, ?_⟩ <;> simp [plateMesh, plateExc, RigidMotion.excitation]
    · simp [Dict.keys, plateExc, RigidMotion.excitation]
    · intro e he
      have he' : e = [0, 1, 2] := by simpa [plateMesh, plateExc, RigidMotion.excitation] using he
      subst he'
      refine ⟨0, 1, 2, ⟨0, 0, 0⟩, ⟨2, 0, 0⟩, ⟨1, 0, 1⟩, rfl, ?_, ?_, ?_, ?_⟩
      · show some ((rotationMotion 0 (Real.pi / 2) 0).move ⟨0, 0, 0⟩) = _
        rw [hmove]; simp
      · show some ((rotationMotion 0 (Real.pi / 2) 0).move ⟨2, 0, 0⟩) = _
        rw [hmove]; simp
      · show some ((rotationMotion 0 (Real.pi / 2) 0).move ⟨1, 1, 0⟩) = _
        rw [hmove]; simp
      · have hc : cross ((⟨2, 0, 0⟩ : V3) - ⟨0, 0, 0⟩) (⟨1, 0, 1⟩ - ⟨0, 0, 0⟩) = ⟨0, -2, 0⟩ := by ext <;> simp [cross]
        have hn : V3.norm (⟨0, -2, 0⟩ : V3) = 2 := norm_eq_of_sq (by norm_num) (by simp [dot])
        simp only [realGeo, hc, hn]
        norm_num
    · intro p hp
      obtain ⟨q, hq, rfl⟩ := List.mem_map.1 hp
      rw [hmove]
      have : q.z = 0 := by
        simp [plateMesh, plateExc] at hq
        rcases hq with rfl | rfl | rfl <;> rfl
      simp [this]
    · exact ⟨0, by simp [plateMesh, plateExc, RigidMotion.excitation], "plate", [0], (.voltageFixed, .num 10), rfl, by simp, rfl, rfl⟩

end Traceon
