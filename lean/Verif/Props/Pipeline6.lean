import Verif.Props.Pipeline5

/-!
# C91: an example

Two triangles, of which one is named `plate`; it is put at 10 V.
-/
namespace Traceon
open Spec V3 Excitation

/-- Any problem with one excited triangle at a voltage is solved, if the integral of its potential over itself is known and positive. -/
theorem one_triangle_solves {G : Geo V3} {x : Excitation ℝ V3} {t : Tri3} {r v : ℝ} (hr0 : 0 < r) (hr : PotentialTriangleReturns t.v0 t.v1 t.v2 (centroid t) r)
    (hel : x.solverInit .electrostatic = some ⟨.tris [t], [some .voltageFixed], [v], .empty3d⟩)
    (hmag : x.solverInit .magnetostatic = some ⟨.tris [], [], [], ⟨12, [], [], []⟩⟩) (hup : x.upgraded G = some x) (he : x.isElectrostatic = true) (hm : x.isMagnetostatic = false) :
    ∃ env f, FaithfulEnv env x ∧ x.solveField G env = some f := by
  let o : TriRoutines := ⟨fun _ _ => r, fun _ _ _ => 0⟩
  let ops := fillOps3d o ([t].getD · ⟨0, 0, 0⟩) (fun i => ([some ExcType.voltageFixed][i]?).join) (([v] : List ℝ).getD · 0)
  have hprog : ∀ t, 1 ≤ t → matrixProgs false 1 1 ops t = [] := by
    intro t ht
    unfold matrixProgs
    have : (((arraySplit (List.range 1) (1 : Int)).getD []).getD t []) = [] := by
      have e : (arraySplit (List.range 1) (1 : Int)).getD [] = [[0]] := by decide
      rw [e]
      match t, ht with
      | t + 1, _ => rfl
    rw [this]
    rfl
  obtain ⟨sched, hs⟩ := exists_joined (matrixProgs false 1 1 ops) 1 hprog
  let env : SolveEnv := ⟨1, fun _ => sched, o⟩
  have hco : o.Correct 1 ([t].getD · ⟨0, 0, 0⟩) (fun i => ([some ExcType.voltageFixed][i]?).join) := by
    intro i hi j hj _
    obtain rfl : i = 0 := by omega
    obtain rfl : j = 0 := by omega
    simp only [List.getElem?_cons_zero, Option.join_some, List.getD_cons_zero]
    rw [triTarget_eq]
    exact hr
  have hfe : FaithfulEnv env x := by
    refine ⟨by norm_num, fun s st hst => ?_⟩
    cases s with
    | electrostatic =>
      rw [hel, Option.some.injEq] at hst
      subst hst
      exact ⟨hco, hs⟩
    | magnetostatic =>
      rw [hmag, Option.some.injEq] at hst
      subst hst
      refine ⟨fun i hi => by simp at hi, ?_⟩
      intro t
      unfold matrixProgs
      have : ((((arraySplit (List.range ([] : List Tri3).length) env.threads).getD []).getD t [])) = [] := by
        have e : (arraySplit (List.range ([] : List Tri3).length) env.threads).getD [] = [[]] := by
          show (arraySplit (List.range 0) (1 : Int)).getD [] = [[]]
          decide
        rw [e]
        match t with
        | 0 => rfl
        | t + 1 => rfl
      rw [this]
      simp [fillProg]
  have hs2 : ∃ f, x.solveField G env = some f := by
    unfold solveField
    rw [hup]
    simp only [Option.bind_eq_bind, Option.bind_some]
    rw [he, hm]
    simp only [if_true, if_false, Bool.false_eq_true]
    unfold solveStatics
    rw [hel]
    simp only [Option.bind_eq_bind, Option.bind_some]
    obtain ⟨A, hA, hrow⟩ := C36_threeD 1 1 (by norm_num) ops (fun _ => 0) sched hs
    have hA00 : A 0 0 = r / (4 * Real.pi) := by
      rw [hrow 0 0 (by norm_num) (by norm_num)]
      simp [ops, fillOps3d, o, EntryOp.apply]
    have hdet : (Matrix.of fun i j : Fin 1 => A i j).det ≠ 0 := by
      rw [Matrix.det_unique]
      show A 0 0 ≠ 0
      rw [hA00]
      positivity
    have hch : ∃ q, (⟨.tris [t], [some .voltageFixed], [v], .empty3d⟩ : SolverState).charges env .electrostatic = some q ∧ q.length = 1 := by
      refine ⟨List.ofFn ((Matrix.of fun i j : Fin 1 => A i j)⁻¹.mulVec fun i => ([v] : List ℝ).getD i 0), ?_, by simp⟩
      unfold SolverState.charges
      rw [if_neg (by simp [SolverState.size])]
      have hM : (⟨.tris [t], [some .voltageFixed], [v], .empty3d⟩ : SolverState).matrix env .electrostatic = some A := hA
      rw [hM]
      simp only [Option.bind_eq_bind, Option.bind_some]
      show linSolve (Matrix.of fun i j : Fin 1 => A i j) _ = _
      unfold linSolve
      rw [if_neg hdet]
      rfl
    obtain ⟨q, hq, hlen⟩ := hch
    unfold SolverState.solve
    rw [hq]
    simp only [Option.bind_eq_bind, Option.bind_some]
    have : ∃ e, EffCharges.new 12 q (([t] : List Tri3).map jacRow) (([t] : List Tri3).map posRow) = some e := by
      unfold EffCharges.new
      rw [if_pos ?_]
      · exact ⟨_, rfl⟩
      · exact ⟨by simp [hlen], by simp [jacRow, quadRule], by simp [hlen], by simp [posRow, quadRule]⟩
    obtain ⟨e, he⟩ := this
    rw [he]
    exact ⟨_, rfl⟩
  obtain ⟨f, hf⟩ := hs2
  exact ⟨env, f, hfe, hf⟩

/-- Renaming the axes and shifting by 1 along x. -/
def cyclicMotion : RigidMotion where
  lin p := ⟨p.z, p.x, p.y⟩
  shift := ⟨1, 0, 0⟩
  sign := 1
  add a b := by ext <;> simp
  smul k a := by ext <;> simp
  dot a b := by simp [V3.dot]; ring
  cross a b := by ext <;> simp [V3.cross] <;> ring
  sign_eq := .inl rfl

/-- The named triangle. -/
def partPlate : Mesh V3 := { points := [⟨1, 0, 0⟩, ⟨1, 2, 0⟩, ⟨1, 1, 1⟩], triangles := [[0, 1, 2]], physTris := [("plate", [0])] }
/-- A triangle without a name, further up. -/
def partOther : Mesh V3 := { points := [⟨1, 0, 5⟩, ⟨1, 2, 5⟩, ⟨1, 1, 6⟩], triangles := [[0, 1, 2]] }
/-- Their sum. -/
def partsSum : Mesh V3 :=
  { points := [⟨1, 0, 0⟩, ⟨1, 2, 0⟩, ⟨1, 1, 1⟩, ⟨1, 0, 5⟩, ⟨1, 2, 5⟩, ⟨1, 1, 6⟩], triangles := [[0, 1, 2], [3, 4, 5]], physTris := [("plate", [0])] }

/-- A mesh with sorted points and the group `plate`, which consists of triangle 0 facing away from the axis, is left alone by the constructor. -/
theorem build_plate {m : Mesh V3} (hv : Valid m) (hs : m.points.Pairwise (fun a b => (realGeo id).le a b = true ∧ (realGeo id).eq b a = false))
    (hn : ∀ e ∈ m.triangles, NonDegenerate (realGeo id) m.points e) (hl : m.lines = []) (hpl : m.physLines = []) (hpt : m.physTris = [("plate", [0])])
    {rest : List V3} (hp : m.points = ⟨1, 0, 0⟩ :: ⟨1, 2, 0⟩ :: ⟨1, 1, 1⟩ :: rest) {restT : List Elem} (htr : m.triangles = [0, 1, 2] :: restT) : Mesh.build (realGeo id) m = some m := by
  have h1 := Mesh.removeDegenerate_none m hv hn
  have h2 := Mesh.dedup_settled m hv hs (fun p _ => rfl)
  obtain ⟨M, h3, r⟩ := Mesh.ensureNormals_spec (G := realGeo id) true "plate" m hv
  have hM0 : M.triangles[0]? = some [0, 1, 2] := by
    have h0 : m.triangles[0]? = some [0, 1, 2] := by rw [htr]; rfl
    rcases r.tris.2 0 with h | h
    · rw [h, h0]
    · exfalso
      rw [h0] at h
      have hM1 : M.triangles[0]? = some [0, 2, 1] := h
      have hel : elemsAt M.triangles [0] = [[0, 2, 1]] := by simp [elemsAt, hM1]
      have hc : corner M.points [0, 2, 1] 0 = ⟨1, 0, 0⟩ ∧ corner M.points [0, 2, 1] 1 = ⟨1, 1, 1⟩ ∧ corner M.points [0, 2, 1] 2 = ⟨1, 2, 0⟩ := by
        rw [r.points, hp]; exact ⟨rfl, rfl, rfl⟩
      have hel2 : elemsAt [[0, 2, 1]] [0] = [[0, 2, 1]] := rfl
      have hpiece : IsPiece [[0, 2, 1]] [0] := by
        refine ⟨by simp, by simp, ?_⟩
        intro i hi j
        simp only [List.mem_singleton] at hi
        subst hi
        constructor
        · intro h; simp only [List.mem_singleton] at h; subst h; exact .refl (by simp)
        · intro h
          induction h with
          | refl _ => simp
          | step _ hsv _ =>
            obtain ⟨a, b, v, _, hb, _⟩ := hsv
            have := (List.getElem?_eq_some_iff.1 hb).1
            simp at this ⊢
            exact this
      have hsign := (C08_triangles_sign id true "plate" m M hv [0] (by rw [hpt]; rfl) (by simp) h3 [0] (by rw [hel]; exact hpiece) (by
        rw [hel, hel2]
        intro t ht
        simp only [List.mem_singleton] at ht
        subst ht
        refine ⟨rfl, ?_⟩
        rw [hc.1, hc.2.1, hc.2.2]
        intro h
        have := congrArg V3.x h
        simp [V3.cross] at this)).1
      rw [hel, hel2] at hsign
      unfold HasSign triFlux triFluxTerm at hsign
      have e0 : ∀ k : Nat, k < 3 → rpt M.points k = rpt m.points k := fun k _ => by rw [r.points]
      have p0 : rpt M.points 0 = ⟨1, 0, 0⟩ := by rw [r.points, hp]; rfl
      have p1 : rpt M.points 1 = ⟨1, 2, 0⟩ := by rw [r.points, hp]; rfl
      have p2 : rpt M.points 2 = ⟨1, 1, 1⟩ := by rw [r.points, hp]; rfl
      simp only [if_true, List.map_cons, List.map_nil, List.sum_cons, List.sum_nil, add_zero, List.getD_cons_zero, List.getD_cons_succ, p0, p1, p2] at hsign
      have hcr : V3.cross ((⟨1, 1, 1⟩ : V3) - ⟨1, 0, 0⟩) ((⟨1, 2, 0⟩ : V3) - ⟨1, 0, 0⟩) = ⟨-2, 0, 0⟩ := by ext <;> simp [V3.cross]
      rw [hcr] at hsign
      have hnorm : V3.norm (⟨-2, 0, 0⟩ : V3) = 2 := norm_eq_of_sq (by norm_num) (by norm_num [V3.dot])
      rw [hnorm] at hsign
      norm_num at hsign
  have hM : M = m := by
    have ht : M.triangles = m.triangles := by
      refine List.ext_getElem? fun k => ?_
      cases k with
      | zero => rw [hM0, htr]; rfl
      | succ k =>
        refine r.trisOut (k + 1) ?_
        rintro ⟨kv, hkv, hi⟩
        rw [hpt] at hkv
        simp only [List.mem_singleton] at hkv
        subst hkv
        simp at hi
    have hll : M.lines = m.lines := by
      rw [hl, ← List.length_eq_zero_iff, r.lines.1, hl]; rfl
    cases M; cases m
    simp only [Mesh.mk.injEq]
    exact ⟨r.points, r.cols, hll, ht, r.physLines, r.physTris⟩
  subst hM
  unfold Mesh.build
  have hel : M.electrodes = ["plate"] := by unfold Mesh.electrodes; rw [hpl, hpt]; rfl
  simp only [h1, h2, Option.bind_eq_bind, Option.bind_some, if_true, hel, List.foldlM_cons, List.foldlM_nil, h3, pure, Mesh.assertions_of_valid hv]

theorem near_nonDeg {a b c : V3} (h : V3.cross (b - a) (c - a) = ⟨2, 0, 0⟩) : (realGeo id).degenerate a b c = false := by
  have hnorm : V3.norm (⟨2, 0, 0⟩ : V3) = 2 := norm_eq_of_sq (by norm_num) (by norm_num [V3.dot])
  simp only [realGeo, h, hnorm]
  norm_num

theorem partPlate_nonDeg : (realGeo id).degenerate ⟨1, 0, 0⟩ ⟨1, 2, 0⟩ ⟨1, 1, 1⟩ = false := near_nonDeg (by ext <;> simp [V3.cross])
theorem partOther_nonDeg : (realGeo id).degenerate ⟨1, 0, 5⟩ ⟨1, 2, 5⟩ ⟨1, 1, 6⟩ = false := near_nonDeg (by ext <;> norm_num [V3.cross])

theorem partPlate_valid : Valid partPlate := by refine ⟨Or.inl rfl, ?_, ?_, ?_, ?_, ?_, ?_⟩ <;> simp [partPlate]
theorem partOther_valid : Valid partOther := by refine ⟨Or.inl rfl, ?_, ?_, ?_, ?_, ?_, ?_⟩ <;> simp [partOther]
theorem partsSum_valid : Valid partsSum := by refine ⟨Or.inl rfl, ?_, ?_, ?_, ?_, ?_, ?_⟩ <;> simp [partsSum]

theorem parts_add : [partPlate, partOther].foldlM (Mesh.add (realGeo id)) {} = some partsSum := by
  have hle : ∀ a b : V3, (a.z < b.z ∨ (a.z = b.z ∧ (a.y < b.y ∨ (a.y = b.y ∧ a.x < b.x)))) → (realGeo id).le a b = true ∧ (realGeo id).eq b a = false := by
    intro a b h
    simp only [realGeo, V3.lexLe, decide_eq_true_eq, decide_eq_false_iff_not]
    refine ⟨?_, ?_⟩
    · rcases h with h | ⟨h, h' | ⟨h', h''⟩⟩
      · exact .inl h
      · exact .inr ⟨h, .inl h'⟩
      · exact .inr ⟨h, .inr ⟨h', h''.le⟩⟩
    · rintro rfl
      rcases h with h | ⟨h, h' | ⟨h', h''⟩⟩ <;> linarith
  have b1 : Mesh.build (realGeo id) partPlate = some partPlate := by
    refine build_plate partPlate_valid ?_ ?_ rfl rfl rfl rfl rfl
    · simp only [partPlate, List.pairwise_cons, List.mem_cons, List.not_mem_nil, or_false, forall_eq_or_imp, forall_eq, List.Pairwise.nil, and_true, false_imp_iff, implies_true]
      refine ⟨⟨hle _ _ ?_, hle _ _ ?_⟩, hle _ _ ?_⟩ <;> norm_num
    · intro e he
      simp only [partPlate, List.mem_singleton] at he
      subst he
      exact ⟨0, 1, 2, _, _, _, rfl, rfl, rfl, rfl, partPlate_nonDeg⟩
  have b2 : Mesh.build (realGeo id) partsSum = some partsSum := by
    refine build_plate partsSum_valid ?_ ?_ rfl rfl rfl rfl rfl
    · simp only [partsSum, List.pairwise_cons, List.mem_cons, List.not_mem_nil, or_false, forall_eq_or_imp, forall_eq, List.Pairwise.nil, and_true, false_imp_iff, implies_true]
      refine ⟨⟨hle _ _ ?_, hle _ _ ?_, hle _ _ ?_, hle _ _ ?_, hle _ _ ?_⟩, ⟨hle _ _ ?_, hle _ _ ?_, hle _ _ ?_, hle _ _ ?_⟩, ⟨hle _ _ ?_, hle _ _ ?_, hle _ _ ?_⟩,
        ⟨hle _ _ ?_, hle _ _ ?_⟩, hle _ _ ?_⟩ <;> norm_num
    · intro e he
      simp only [partsSum, List.mem_cons, List.not_mem_nil, or_false] at he
      rcases he with rfl | rfl
      · exact ⟨0, 1, 2, _, _, _, rfl, rfl, rfl, rfl, partPlate_nonDeg⟩
      · exact ⟨3, 4, 5, _, _, _, rfl, rfl, rfl, rfl, partOther_nonDeg⟩
  have a1 : Mesh.add (realGeo id) {} partPlate = some partPlate := b1
  have a2 : Mesh.add (realGeo id) partPlate partOther = some partsSum := b2
  simp only [List.foldlM_cons, List.foldlM_nil, a1, a2, Option.bind_eq_bind, Option.bind_some, pure]

theorem parts_ok : Parts (realGeo id) [partPlate, partOther] := by
  refine ⟨2, ?_⟩
  intro m hm
  simp only [List.mem_cons, List.not_mem_nil, or_false] at hm
  rcases hm with rfl | rfl
  · exact ⟨partPlate_valid, fun _ _ => rfl, by simp [partPlate, lineShapes], Pipe.namedOnce_empty (by simp [partPlate]), Pipe.namedOnce_single (some "plate") 1⟩
  · exact ⟨partOther_valid, fun _ _ => rfl, by simp [partOther, lineShapes], Pipe.namedOnce_empty (by simp [partOther]), Pipe.namedOnce_empty (by simp [partOther])⟩

/-- The excitation after `add_voltage(plate=10)`. -/
noncomputable def partsExc : Excitation ℝ V3 := { mesh := partsSum, electrodes := ["plate"], symmetry := .threeD, types := [("plate", .voltageFixed, .num 10)] }

/-- **C91**: the hypotheses of `C91_threeD` are met by a named triangle at 10 V and another one without a name. -/
theorem C91_example (inXZ : V3 → Bool) : ∃ (G : Geo V3) (x0 : Excitation ℝ V3) (env : SolveEnv) (f : PyObj), G.Lawful ∧ G.Stable ∧ (∀ p q, G.eq p q = true ↔ p = q) ∧
    Parts G [partPlate, partOther] ∧ [partPlate, partOther].foldlM (Mesh.add G) {} = some partsSum ∧ Excitation.new partsSum .threeD inXZ = some x0 ∧ (∃ p ∈ partsSum.points, p.y ≠ 0) ∧
    FaithfulEnv env (x0.calls G [.voltage [("plate", .num 10)]]) ∧ (x0.calls G [.voltage [("plate", .num 10)]]).solveField G env = some f := by
  obtain ⟨g1, g2, g3⟩ := realGeo_ok (trunc := id) (fun _ => rfl)
  obtain ⟨r, hr0, hr⟩ := plate_returns
  have hr' : PotentialTriangleReturns (cyclicMotion.tri plate).v0 (cyclicMotion.tri plate).v1 (cyclicMotion.tri plate).v2 (centroid (cyclicMotion.tri plate)) r := by
    rw [← triTarget_eq, cyclicMotion.triTarget_tri, triTarget_eq]
    exact cyclicMotion.potentialReturns_move.2 hr
  have htri : cyclicMotion.tri plate = ⟨⟨1, 0, 0⟩, ⟨1, 2, 0⟩, ⟨1, 1, 1⟩⟩ := by
    simp only [RigidMotion.tri, RigidMotion.move, cyclicMotion, plate, Tri3.mk.injEq]
    refine ⟨?_, ?_, ?_⟩ <;> ext <;> simp
  rw [htri] at hr'
  have h2 : partsSum.is2d realThirds = false := by
    unfold Mesh.is2d
    rw [List.all_eq_false]
    exact ⟨⟨1, 1, 1⟩, by simp [partsSum], by simp [realThirds]⟩
  have hel : partsExc.solverInit .electrostatic = some ⟨.tris [⟨⟨1, 0, 0⟩, ⟨1, 2, 0⟩, ⟨1, 1, 1⟩⟩], [some .voltageFixed], [10], .empty3d⟩ := by
    have ha : partsExc.activeElements .electrostatic = some ([[⟨1, 0, 0⟩, ⟨1, 2, 0⟩, ⟨1, 1, 1⟩]], [("plate", [0])]) := by rfl
    unfold solverInit
    rw [ha]
    have ht : ∀ centre, partsExc.typesAndValues [("plate", [0])] [[(⟨1, 0, 0⟩ : V3), ⟨1, 2, 0⟩, ⟨1, 1, 1⟩]].length centre = some ([some .voltageFixed], [10]) := fun _ => rfl
    simp only [Option.bind_eq_bind, Option.bind_some, ht]
    rw [show partsExc.mesh = partsSum from rfl, h2]
    rfl
  have hmag : partsExc.solverInit .magnetostatic = some ⟨.tris [], [], [], ⟨12, [], [], []⟩⟩ := by
    have ha : partsExc.activeElements .magnetostatic = some ([], []) := by rfl
    unfold solverInit
    rw [ha]
    have ht : ∀ centre, partsExc.typesAndValues [] ([] : List (List V3)).length centre = some ([], []) := fun _ => rfl
    simp only [Option.bind_eq_bind, Option.bind_some, ht]
    rw [show partsExc.mesh = partsSum from rfl, h2]
    rfl
  have hup : partsExc.upgraded (realGeo id) = some partsExc := by
    unfold upgraded Mesh.solverMesh
    rw [show partsExc.mesh = partsSum from rfl, h2]
    rfl
  obtain ⟨env, f, h3, h4⟩ := one_triangle_solves (t := ⟨⟨1, 0, 0⟩, ⟨1, 2, 0⟩, ⟨1, 1, 1⟩⟩) hr0 hr' hel hmag hup rfl rfl
  have hnew : Excitation.new partsSum .threeD inXZ = some ({ mesh := partsSum, electrodes := ["plate"], symmetry := .threeD } : Excitation ℝ V3) := by
    unfold Excitation.new
    rw [if_neg (by simp)]
    rfl
  exact ⟨realGeo id, _, env, f, g1, g2, g3, parts_ok, parts_add, hnew, ⟨⟨1, 1, 1⟩, by simp [partsSum], by norm_num⟩, h3, h4⟩

end Traceon
