import Verif.Props.FewLines
import Verif.Props.Similar7

/-!
# C80: two discs on two threads
-/
namespace Traceon
open Spec Excitation V3 MeasureTheory

/-- With any number of threads there is a schedule in which they finish. -/
theorem exists_env_threads (T : Nat) (hT : 0 < T) {x : Excitation ℝ V3} (h : ∀ s st, x.solverInit s = some st → ∃ ls, st.elems = .lines ls) :
    ∃ env : SolveEnv, env.threads = (T : Int) ∧ FaithfulEnv env x := by
  have hone : ∀ (n : Nat) (ops : Nat → Nat → List (EntryOp ℝ)), ∃ sched, Joined sched (matrixProgs true n T ops) := by
    intro n ops
    refine exists_joined _ T fun t ht => ?_
    unfold matrixProgs arraySplit
    rw [if_neg (by omega)]
    simp only [Option.getD_some]
    rw [List.getD_eq_getElem?_getD, List.getElem?_eq_none (by rw [chop_length, splitSizes_length _ _ (by simpa using hT)]; simpa using ht)]
    simp [fillProg]
  have : ∀ s, ∃ sched, ∀ st, x.solverInit s = some st → ∃ ls, st.elems = .lines ls ∧
      Joined sched (matrixProgs true ls.length T (fillOpsRadial (ls.getD · ⟨0, 0, 0, 0⟩) (fun i => (st.types[i]?).join) (st.values.getD · 0))) := by
    intro s
    cases hst : x.solverInit s with
    | none => exact ⟨[], by simp⟩
    | some st =>
      obtain ⟨ls, hls⟩ := h s st hst
      obtain ⟨sched, hs⟩ := hone ls.length (fillOpsRadial (ls.getD · ⟨0, 0, 0, 0⟩) (fun i => (st.types[i]?).join) (st.values.getD · 0))
      refine ⟨sched, fun st' h' => ?_⟩
      cases h'
      exact ⟨ls, hls, hs⟩
  choose sched hs using this
  refine ⟨⟨(T : Int), sched, ⟨fun _ _ => 0, fun _ _ _ => 0⟩⟩, rfl, Int.natCast_pos.2 hT, fun s st hst => ?_⟩
  obtain ⟨ls, h1, h2⟩ := hs s st hst
  rw [h1]
  exact h2

/-- Both discs are at 10 V. -/
def discsExc : Excitation ℝ V3 :=
  { mesh := discMesh, electrodes := ["disc", "glass"], symmetry := .radial, types := [("disc", .voltageFixed, .num 10), ("glass", .voltageFixed, .num 10)] }

theorem discsExc_electric : discsExc.solverInit .electrostatic = some ⟨.lines [discLine 0, discLine 1], [some .voltageFixed, some .voltageFixed], [10, 10], .empty3d⟩ := by
  have ha : discsExc.activeElements .electrostatic =
      some ([[⟨1, 0, 0⟩, ⟨4, 0, 0⟩, ⟨2, 0, 0⟩, ⟨3, 0, 0⟩], [⟨1, 0, 1⟩, ⟨4, 0, 1⟩, ⟨2, 0, 1⟩, ⟨3, 0, 1⟩]], [("disc", [0]), ("glass", [1])]) := by rfl
  unfold solverInit
  rw [ha]
  have ht : ∀ centre, discsExc.typesAndValues [("disc", [0]), ("glass", [1])] [[(⟨1, 0, 0⟩ : V3), ⟨4, 0, 0⟩, ⟨2, 0, 0⟩, ⟨3, 0, 0⟩], [⟨1, 0, 1⟩, ⟨4, 0, 1⟩, ⟨2, 0, 1⟩, ⟨3, 0, 1⟩]].length centre =
      some ([some .voltageFixed, some .voltageFixed], [10, 10]) := fun _ => rfl
  simp only [Option.bind_eq_bind, Option.bind_some, ht]
  rw [show discsExc.mesh = discMesh from rfl, disc_is2d]
  rfl

theorem discs_excited (i : Nat) : Excited discsExc .electrostatic i ↔ i = 0 ∨ i = 1 := by
  unfold Excited
  constructor
  · rintro ⟨n, g, tv, h1, h2, -, -⟩
    have h3 : (n, g) ∈ [("disc", [0]), ("glass", [1])] := Dict.mem_of_get h1
    simp only [List.mem_cons, Prod.mk.injEq, List.not_mem_nil, or_false] at h3
    rcases h3 with ⟨-, rfl⟩ | ⟨-, rfl⟩
    · left; simpa using h2
    · right; simpa using h2
  · rintro (rfl | rfl)
    · exact ⟨"disc", [0], (.voltageFixed, .num 10), rfl, by simp, rfl, rfl⟩
    · exact ⟨"glass", [1], (.voltageFixed, .num 10), rfl, by simp, rfl, rfl⟩

theorem discs_decides : Decides discsExc .electrostatic "disc" 0 ∧ Decides discsExc .electrostatic "glass" 1 := by
  refine ⟨⟨[], [0], [("glass", [1])], rfl, by simp, ⟨_, rfl, rfl⟩, ?_⟩, ⟨[("disc", [0])], [1], [], rfl, by simp, ⟨_, rfl, rfl⟩, by simp⟩⟩
  intro n' g' h _
  simp only [List.mem_cons, Prod.mk.injEq, List.not_mem_nil, or_false] at h
  rw [h.2]
  simp

theorem disc_along (z : ℝ) : 0 < alongElem (discLine z) fun p => potentialRadialRing (elemPoint (discLine z) 0).x (elemPoint (discLine z) 0).z p.x p.z := by
  have h := diagRadial_voltage (l := fun _ => discLine z) (types := fun _ => some .voltageFixed) (values := fun _ => 0) (i := 0) (Or.inl rfl) (disc_plane z)
  rw [← h]
  exact disc_self z

theorem ring_pos {r0 z0 r z : ℝ} (h0 : 0 < r0) (hr : 0 < r) (hz : z ≠ z0) : 0 < potentialRadialRing r0 z0 r z := by
  have hs : 0 < (z - z0) ^ 2 := by have : z - z0 ≠ 0 := sub_ne_zero.2 hz; positivity
  have hs' : 0 < (z0 - z) ^ 2 := by have : z0 - z ≠ 0 := sub_ne_zero.2 (Ne.symm hz); positivity
  have hp := mul_pos h0 hr
  unfold potentialRadialRing potentialRingWith
  simp only
  refine div_pos (mul_pos (mul_pos (by positivity) (ellipkm1_pos ?_ ?_)) (by linarith)) (Real.sqrt_pos.2 ?_)
  · apply div_pos <;> nlinarith [sq_nonneg (r - r0), sq_nonneg (r + r0)]
  · rw [div_le_one (by nlinarith [sq_nonneg (r + r0)])]
    nlinarith
  · nlinarith [sq_nonneg (r + r0)]

/-- The potential of a charged disc at the centre of the other one. -/
theorem disc_other {q : ℝ} (hq : 0 < q) : 0 < potentialRadial (elemPoint (discLine 0) 0) (lineCharges [discLine 1] [q]) := by
  have hx : elemPoint (discLine 0) 0 = ⟨5 / 2, 0, 0⟩ := by
    have h := elemPoint_linePos (discLine 0) 0
    rw [disc_pos] at h
    have h1 := congrArg Prod.fst h
    have h2 := congrArg Prod.snd h
    ext
    · simp only at h1; rw [← h1]; norm_num
    · exact elemPoint_y (disc_plane 0) 0
    · simp only at h2; rw [← h2]
  unfold potentialRadial
  rw [EffCharges.loop_eq, show ([discLine 1] : List Line4) = [0].map (fun _ : Nat => discLine 1) from rfl, show ([q] : List ℝ) = [0].map (fun _ : Nat => q) from rfl, superpose_lineCharges, hx]
  simp only [List.map_cons, List.map_nil, List.sum_cons, List.sum_nil, add_zero]
  refine mul_pos hq ?_
  unfold lineJacRow linePosRow
  rw [List.zip_map', List.map_map, norm2d_of_nonneg (by norm_num)]
  refine List.sum_pos _ ?_ (by simp [gaussRule])
  intro v hv
  obtain ⟨g, hg, rfl⟩ := List.mem_map.1 hv
  have hg2 : 0 < g.1 ∧ -1 < g.2 := by
    have : ∀ g ∈ gaussRule, 0 < g.1 ∧ -1 < g.2 := by
      unfold gaussRule
      intro g hg
      fin_cases hg <;> norm_num
    exact this g hg
  simp only [Function.comp, disc_jac, disc_pos]
  exact mul_pos (mul_pos hg2.1 (by norm_num)) (ring_pos (by norm_num) (by linarith [hg2.2]) (by norm_num))

theorem discs_solve (G : Geo V3) {env : SolveEnv} (he : FaithfulEnv env discsExc) (h2 : env.threads = 2) : ∃ f, discsExc.solveField G env = some f := by
  have hup : discsExc.upgraded G = some discsExc := by
    unfold upgraded Mesh.solverMesh
    rw [if_neg (by simp [Mesh.isHigherOrder, discsExc, discMesh])]
    rfl
  unfold solveField
  rw [hup]
  have e1 : discsExc.isElectrostatic = true := rfl
  have e2 : discsExc.isMagnetostatic = false := rfl
  simp only [Option.bind_eq_bind, Option.bind_some, e1, e2, if_true, Bool.false_eq_true, if_false]
  unfold solveStatics
  rw [discsExc_electric]
  simp only [Option.bind_eq_bind, Option.bind_some]
  have hj := he.2 _ _ discsExc_electric
  simp only [h2] at hj
  obtain ⟨A, hA, hp⟩ := C36_radial 2 2 (by norm_num) _ (diagRadial ([discLine 0, discLine 1].getD · SolverState.noLine)
    (fun i => ([some ExcType.voltageFixed, some ExcType.voltageFixed][i]?).join) (([10, 10] : List ℝ).getD · 0)) (env.sched .electrostatic) hj
  have hq : ∃ q, SolverState.charges ⟨.lines [discLine 0, discLine 1], [some .voltageFixed, some .voltageFixed], [10, 10], .empty3d⟩ env .electrostatic = some q ∧ q.length = 2 := by
    unfold SolverState.charges
    rw [if_neg (by simp [SolverState.size])]
    have hm : SolverState.matrix ⟨.lines [discLine 0, discLine 1], [some .voltageFixed, some .voltageFixed], [10, 10], .empty3d⟩ env .electrostatic = some A := by
      unfold SolverState.matrix
      simp only [h2]
      exact hA
    rw [hm]
    simp only [Option.bind_eq_bind, Option.bind_some]
    unfold linSolve
    rw [if_neg]
    · exact ⟨_, rfl, by simp [SolverState.size]⟩
    · show Matrix.det (Matrix.of fun i j : Fin 2 => A i j) ≠ 0
      rw [Matrix.det_fin_two]
      simp only [Matrix.of_apply, Fin.val_zero, Fin.val_one]
      have a00 : A 0 0 = ∫ α in (-1 : ℝ)..1, selfPotentialRadial α (discLine 0) := by
        rw [hp 0 0 (by norm_num) (by norm_num)]
        simp [diagRadial]
      have a01 : A 0 1 = 0 := by
        rw [hp 0 1 (by norm_num) (by norm_num)]
        simp
      have a11 : A 1 1 = ∫ α in (-1 : ℝ)..1, selfPotentialRadial α (discLine 1) := by
        rw [hp 1 1 (by norm_num) (by norm_num)]
        simp [diagRadial]
      rw [a00, a01, a11, zero_mul, sub_zero]
      exact mul_ne_zero (disc_self 0).ne' (disc_self 1).ne'
  obtain ⟨q, hq, hlen⟩ := hq
  unfold SolverState.solve
  rw [hq]
  simp only [Option.bind_eq_bind, Option.bind_some]
  unfold EffCharges.new
  rw [if_pos]
  · exact ⟨_, rfl⟩
  · refine ⟨by simp [hlen], ?_, by simp [hlen], ?_⟩ <;> simp [lineJacRow, linePosRow, gaussRule]

theorem discs_lines {idx : List Nat} {ls : List Line4} (h1 : ls.length = idx.length) (h3 : idx.Pairwise (· < ·))
    (h4 : ∀ i, i ∈ idx ↔ i < discsExc.mesh.lines.length ∧ Excited discsExc .electrostatic i)
    (h5 : ∀ k i : Nat, idx[k]? = some i → ∃ a b c d l, discsExc.mesh.lines[i]? = some [a, b, c, d] ∧ discsExc.mesh.points[a]? = some l.l0 ∧ discsExc.mesh.points[b]? = some l.l1 ∧
        discsExc.mesh.points[c]? = some l.l2 ∧ discsExc.mesh.points[d]? = some l.l3 ∧ ls[k]? = some l) : idx = [0, 1] ∧ ls = [discLine 0, discLine 1] := by
  have hi : idx = [0, 1] := by
    refine sorted_ext h3 (by simp) fun i => ?_
    rw [h4, discs_excited, show discsExc.mesh.lines.length = 2 from rfl]
    simp only [List.mem_cons, List.not_mem_nil, or_false]
    omega
  subst hi
  refine ⟨rfl, ?_⟩
  obtain ⟨a, b, c, d, ⟨l0, l1, l2, l3⟩, e1, e2, e3, e4, e5, e6⟩ := h5 0 0 rfl
  obtain ⟨a', b', c', d', ⟨l0', l1', l2', l3'⟩, f1, f2, f3, f4, f5, f6⟩ := h5 1 1 rfl
  have e1 : some [0, 1, 2, 3] = some [a, b, c, d] := e1
  have f1 : some [4, 5, 6, 7] = some [a', b', c', d'] := f1
  simp only [Option.some.injEq, List.cons.injEq, and_true] at e1 f1
  obtain ⟨rfl, rfl, rfl, rfl⟩ := e1
  obtain ⟨rfl, rfl, rfl, rfl⟩ := f1
  have e2 : some (⟨1, 0, 0⟩ : V3) = some l0 := e2
  have e3 : some (⟨4, 0, 0⟩ : V3) = some l1 := e3
  have e4 : some (⟨2, 0, 0⟩ : V3) = some l2 := e4
  have e5 : some (⟨3, 0, 0⟩ : V3) = some l3 := e5
  have f2 : some (⟨1, 0, 1⟩ : V3) = some l0' := f2
  have f3 : some (⟨4, 0, 1⟩ : V3) = some l1' := f3
  have f4 : some (⟨2, 0, 1⟩ : V3) = some l2' := f4
  have f5 : some (⟨3, 0, 1⟩ : V3) = some l3' := f5
  cases e2; cases e3; cases e4; cases e5; cases f2; cases f3; cases f4; cases f5
  match ls, h1 with
  | [x, y], _ =>
    simp only [List.getElem?_cons_zero, List.getElem?_cons_succ, Option.some.injEq] at e6 f6
    rw [e6, f6]
    rfl

/-- **C80 is false** for few lines: two discs, both at 10 V, are solved with two threads. `solve_direct` returns a field, but the charges do not put the discs at 10 V: the threads fail without anybody noticing (C36),
and each disc is charged as if the other one did not exist. -/
theorem C80_radial_refuted {G : Geo V3} (hG : G.Lawful) {inXZ : V3 → Bool} (hxz : ∀ p, inXZ p = true ↔ p.y = 0) : ∃ x0 x env F, Valid discMesh ∧ Excitation.new discMesh .radial inXZ = some x0 ∧
    x = x0.calls G [.voltage [("disc", .num 10), ("glass", .num 10)]] ∧ x.upgraded G = some x ∧ FaithfulEnv env x ∧ env.threads = 2 ∧
    (∀ e ∈ x.mesh.lines, ∀ l, toLine4 (coords x.mesh.points e) = some l → 0 ≤ (elemPoint l 0).x) ∧ x.solveField G env = some (.radial F) ∧
    SolvesRadialOn 2 x .electrostatic .empty3d F.elec ∧ ¬SolvesRadial x .electrostatic .empty3d F.elec := by
  have hnew : Excitation.new discMesh .radial inXZ = some ({ mesh := discMesh, electrodes := ["disc", "glass"], symmetry := .radial } : Excitation ℝ V3) := by
    unfold Excitation.new
    rw [if_neg (by simp [discMesh, hxz])]
    rfl
  have hup : discsExc.upgraded G = some discsExc := by
    unfold upgraded Mesh.solverMesh
    rw [if_neg (by simp [Mesh.isHigherOrder, discsExc, discMesh])]
    rfl
  have hn : discsExc.types.keys.Nodup := by simp [discsExc, Dict.keys]
  have hcalls : discsExc = (({ mesh := discMesh, electrodes := ["disc", "glass"], symmetry := .radial } : Excitation ℝ V3)).calls G [.voltage [("disc", .num 10), ("glass", .num 10)]] := rfl
  obtain ⟨env, ht, he⟩ := exists_env_threads 2 (by norm_num) (x := discsExc) (by
    intro s st hst
    obtain ⟨idx, hI⟩ := solverInit_spec (x := discsExc) disc_valid hn hst
    have := hI.elems
    cases hel : st.elems with
    | lines ls => exact ⟨ls, rfl⟩
    | tris ts => rw [hel] at this; rw [show discsExc.mesh = discMesh from rfl, disc_is2d] at this; cases this.1)
  have ht' : env.threads = 2 := by rw [ht]; norm_num
  have hpl : ∀ e ∈ discsExc.mesh.lines, ∀ l, toLine4 (coords discsExc.mesh.points e) = some l → 0 ≤ (elemPoint l 0).x := by
    intro e he l hl
    have : l = discLine 0 ∨ l = discLine 1 := by
      have he : e ∈ [[0, 1, 2, 3], [4, 5, 6, 7]] := he
      simp only [List.mem_cons, List.not_mem_nil, or_false] at he
      rcases he with rfl | rfl
      · left; exact (Option.some.inj hl).symm
      · right; exact (Option.some.inj hl).symm
    rcases this with rfl | rfl
    · exact (disc_plane 0).2
    · exact (disc_plane 1).2
  obtain ⟨f, hf⟩ := discs_solve G he ht'
  obtain ⟨-, F, rfl, hS, -⟩ := C80_radial hG disc_valid hxz hnew _ hcalls hup he hpl hf
  have hS := hS rfl
  rw [ht'] at hS
  refine ⟨_, _, env, F, disc_valid, hnew, hcalls, hup, he, ht', hpl, hf, hS, ?_⟩
  rintro ⟨idx', ls', q', g0, g1, g2, g3, g4, g5⟩
  obtain ⟨idx, ls, q, h0, h1, h2, h3, h4, h5⟩ := hS
  obtain ⟨rfl, rfl⟩ := discs_lines h1 h3 h4 fun k i hk => (h5 k i hk).1
  obtain ⟨rfl, rfl⟩ := discs_lines g1 g3 g4 fun k i hk => (g5 k i hk).1
  have hq : q' = q := by
    have := h0.symm.trans g0
    exact (congrArg EffCharges.charges this).symm
  subst hq
  match q', h2 with
  | [a, b], _ =>
    have hty0 : discsExc.types.get "disc" = some (.voltageFixed, .num 10) := rfl
    have hty1 : discsExc.types.get "glass" = some (.voltageFixed, .num 10) := rfl
    have c0 : radialPotentialAtCentre 1 (fun _ => discLine 0) (fun _ => a) 0 = 10 :=
      ((h5 0 0 rfl).2 _ _ discs_decides.1 hty0).2 (by norm_num)
    have c1 : radialPotentialAtCentre 1 (fun _ => discLine 1) (fun _ => b) 0 = 10 :=
      ((h5 1 1 rfl).2 _ _ discs_decides.2 hty1).2 (by norm_num)
    have d0 : radialPotentialAtCentre 2 ([discLine 0, discLine 1].getD · ⟨0, 0, 0, 0⟩) ([a, b].getD · 0) 0 = 10 :=
      (g5 0 0 rfl).2 _ _ discs_decides.1 hty0
    rw [potential_alone] at c0 c1
    have hb : 0 < b := by
      by_contra hb
      have := mul_nonpos_of_nonpos_of_nonneg (not_lt.1 hb) (disc_along 1).le
      linarith
    have hpos := disc_other hb
    unfold radialPotentialAtCentre at d0
    have e : othersCharges 2 ([discLine 0, discLine 1].getD · ⟨0, 0, 0, 0⟩) ([a, b].getD · 0) 0 = lineCharges [discLine 1] [b] := rfl
    rw [e] at d0
    have d0 : potentialRadial (elemPoint (discLine 0) 0) (lineCharges [discLine 1] [b]) +
      a * alongElem (discLine 0) (fun p => potentialRadialRing (elemPoint (discLine 0) 0).x (elemPoint (discLine 0) 0).z p.x p.z) = 10 := d0
    linarith

end Traceon
