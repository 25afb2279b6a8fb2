import Verif.Props.SolveField2
import Verif.Props.Triangle3

/-!
# C80: a case that meets the hypotheses

A single triangle at 10 V.
-/
namespace Traceon
open V3 Spec Excitation

/-- There is always a last interval. -/
theorem partition_last {a b : ℝ} (hab : a < b) : ∀ {xs : List ℝ}, xs.head? = some a → xs.getLast? = some b → ∃ s, (s, b) ∈ intervals xs := by
  intro xs
  induction xs generalizing a with
  | nil => intro h; simp at h
  | cons x xs ih =>
    intro h1 h2
    cases xs with
    | nil =>
      simp at h1 h2
      linarith
    | cons y ys =>
      simp only [List.head?_cons, Option.some.injEq] at h1
      cases ys with
      | nil =>
        simp at h2
        exact ⟨x, by simp [intervals, h2]⟩
      | cons z zs =>
        rw [List.getLast?_cons_cons] at h2
        by_cases hy : y < b
        · obtain ⟨s, hs⟩ := ih hy rfl h2
          exact ⟨s, by
            unfold intervals at hs ⊢
            simp only [List.tail_cons, List.zip_cons_cons, List.mem_cons] at hs ⊢
            exact Or.inr hs⟩
        · by_cases hyb : y = b
          · exact ⟨x, by simp [intervals, hyb]⟩
          · obtain ⟨i, hi⟩ : ∃ i, (z :: zs)[i]? = some b := by
              rw [List.getLast?_cons_cons] at h2
              have := List.mem_of_getLast? h2
              exact List.mem_iff_getElem?.1 this
            cases i with
            | zero =>
              simp at hi
              exact ⟨y, by simp [intervals, hi]⟩
            | succ i =>
              have hlt : i < zs.length := by
                by_contra hc
                simp only [List.getElem?_cons_succ] at hi
                rw [List.getElem?_eq_none (by omega)] at hi
                cases hi
              refine ⟨(z :: zs)[i]'(by simp; omega), ?_⟩
              unfold intervals
              rw [List.mem_iff_getElem?]
              refine ⟨i + 2, ?_⟩
              simp only [List.tail_cons]
              rw [List.getElem?_zip_eq_some]
              constructor
              · simp
              · simpa using hi

/-- The triangle of the example. -/
def plate : Tri3 := ⟨⟨0, 0, 0⟩, ⟨2, 0, 0⟩, ⟨1, 1, 0⟩⟩

theorem plate_cross : cross (plate.v1 - plate.v0) (plate.v2 - plate.v0) = ⟨0, 0, 2⟩ := by
  ext <;> simp [plate, cross]

/-- The same in its own coordinates, relative to the centre. -/
noncomputable def plateN : NormTri := ⟨-1, -1 / 3, 2, 1, 1, 0, 0⟩

theorem plate_normalized : normalizeTri plate.v0 plate.v1 plate.v2 (centroid plate) 0 = plateN := by
  have n1 : V3.norm (plate.v1 - plate.v0) = 2 := norm_eq_of_sq (by norm_num) (by simp only [dot, plate, sub_x, sub_y, sub_z]; norm_num)
  have n2 : V3.norm (cross (plate.v1 - plate.v0) (plate.v2 - plate.v0)) = 2 := by
    rw [plate_cross]; exact norm_eq_of_sq (by norm_num) (by simp only [dot]; norm_num)
  have ex : (triFrame plate.v0 plate.v1 plate.v2).ex = ⟨1, 0, 0⟩ := by
    simp only [triFrame, unit, n1]
    ext <;> simp [plate]
  have ez : (triFrame plate.v0 plate.v1 plate.v2).ez = ⟨0, 0, 1⟩ := by
    simp only [triFrame, unit, n2]
    rw [plate_cross]
    ext <;> simp
  have ey : (triFrame plate.v0 plate.v1 plate.v2).ey = ⟨0, 1, 0⟩ := by
    have : (triFrame plate.v0 plate.v1 plate.v2).ey = cross (triFrame plate.v0 plate.v1 plate.v2).ez (triFrame plate.v0 plate.v1 plate.v2).ex := rfl
    rw [this, ex, ez]
    ext <;> simp [cross]
  simp only [normalizeTri, plateN, ex, ey, ez, n1, NormTri.mk.injEq]
  refine ⟨?_, ?_, trivial, ?_, ?_, ?_, ?_⟩
  · simp [dot, plate, centroid]; norm_num
  · simp [dot, plate, centroid]; norm_num
  · simp [dot, plate]
  · simp [dot, plate]
  · simp [dot, plate, centroid]
  · ext <;> simp [dot]

theorem plate_integrand {y : ℝ} (h0 : 0 ≤ y) (h1 : y ≤ 1) :
    0 ≤ plateN.potentialIntegrand y ∧
      (1 / 2 ≤ y → y < 1 → 0 < plateN.potentialIntegrand y) := by
  have e1 : plateN.xmax y = 1 - y := by simp only [NormTri.xmax, plateN]; ring
  have e2 : plateN.xmin y = -(1 - y) := by simp only [NormTri.xmin, plateN]; ring
  simp only [NormTri.potentialIntegrand, e1, e2, show plateN.y0 = -1 / 3 from rfl, show plateN.z = 0 from rfl]
  split
  · rename_i hlt
    constructor
    · rw [abs_neg, sub_self]
    · intro h2 h3
      exfalso
      have : (1 / 6 : ℝ) ≤ Real.sqrt ((y + -1 / 3) * (y + -1 / 3) + 0 * 0) := by
        apply Real.le_sqrt_of_sq_le
        nlinarith
      linarith
  · rename_i hlt
    have hd : 0 < Real.sqrt ((y + -1 / 3) * (y + -1 / 3) + 0 * 0) := by
      push Not at hlt
      linarith
    constructor
    · rw [sub_nonneg, Real.arsinh_le_arsinh]
      exact div_le_div_of_nonneg_right (by linarith) hd.le
    · intro _ h3
      rw [sub_pos, Real.arsinh_lt_arsinh]
      exact div_lt_div_of_pos_right (by linarith) hd

theorem k15_nonneg {f : ℝ → ℝ} {s e : ℝ} (hse : s ≤ e) (hf : ∀ x, s ≤ x → x ≤ e → 0 ≤ f x) : 0 ≤ intervalRule k15Table f s e := by
  have hh : 0 ≤ (e - s) / 2 := by linarith
  have nodes : ∀ t, 0 ≤ t → t ≤ 1 → 0 ≤ f ((s + e) / 2 - (e - s) / 2 * t) + f ((s + e) / 2 + (e - s) / 2 * t) := by
    intro t t0 t1
    have := mul_nonneg hh t0
    have := mul_le_of_le_one_right hh t1
    exact add_nonneg (hf _ (by linarith) (by linarith)) (hf _ (by linarith) (by linarith))
  have hm : 0 ≤ f ((s + e) / 2) := hf _ (by linarith) (by linarith)
  have key : ∀ (l : List (ℝ × ℝ)) (acc : ℝ), 0 ≤ acc → (∀ wx ∈ l, 0 ≤ wx.1 ∧ 0 ≤ wx.2 ∧ wx.2 ≤ 1) →
      0 ≤ l.foldl (fun acc wx => acc + (e - s) / 2 * wx.1 * (f ((s + e) / 2 - (e - s) / 2 * wx.2) + f ((s + e) / 2 + (e - s) / 2 * wx.2))) acc := by
    intro l
    induction l with
    | nil => intro acc h _; exact h
    | cons w l ih =>
      intro acc h hw
      obtain ⟨w1, w2, w3⟩ := hw w (by simp)
      exact ih _ (add_nonneg h (mul_nonneg (mul_nonneg hh w1) (nodes _ w2 w3))) fun x hx => hw x (List.mem_cons_of_mem _ hx)
  unfold intervalRule k15Table
  refine key _ _ (mul_nonneg (mul_nonneg hh (by norm_num)) hm) ?_
  intro wx hwx
  simp only [List.mem_cons, List.not_mem_nil, or_false] at hwx
  rcases hwx with rfl | rfl | rfl | rfl | rfl | rfl | rfl <;> norm_num

theorem kronrod_positive {f : ℝ → ℝ} {b tol r : ℝ} (hb : 0 < b) (h0 : ∀ y, 0 ≤ y → y ≤ b → 0 ≤ f y) (h1 : ∀ y, b / 2 ≤ y → y < b → 0 < f y)
    (hr : KronrodReturns f 0 b tol tol r) : 0 < r := by
  obtain ⟨xs, hp, -, hsum⟩ := C56_partition hb.le hr
  obtain ⟨hint, -⟩ := partition_intervals hp
  obtain ⟨s, hs⟩ := partition_last hb hp.head hp.last
  have hpos : 0 < intervalRule k15Table f s b := by
    obtain ⟨k1, k2, k3⟩ := hint _ hs
    dsimp only at k1 k2
    exact k15_pos k2 (fun x hx hx' => h0 x (le_trans k1 hx) hx') (h1 _ (by linarith) (by linarith))
  have hle : ∀ a ∈ (intervals xs).map (fun i => intervalRule k15Table f i.1 i.2), 0 ≤ a := by
    intro a ha
    obtain ⟨i, hi, rfl⟩ := List.mem_map.1 ha
    obtain ⟨k1, k2, k3⟩ := hint i hi
    exact k15_nonneg k2.le fun x hx hx' => h0 x (le_trans k1 hx) (le_trans hx' k3)
  rw [hsum]
  generalize intervalRule k15Table f = g at hpos hle ⊢
  have hmem : g s b ∈ (intervals xs).map fun i => g i.1 i.2 := List.mem_map_of_mem (f := fun i : ℝ × ℝ => g i.1 i.2) hs
  exact lt_of_lt_of_le hpos (List.single_le_sum hle _ hmem)

/-- The potential of the triangle at its own centre is positive. -/
theorem plate_returns : ∃ r, 0 < r ∧ PotentialTriangleReturns plate.v0 plate.v1 plate.v2 (centroid plate) r := by
  have hne : cross (plate.v1 - plate.v0) (plate.v2 - plate.v0) ≠ 0 := by
    rw [plate_cross]; intro h; have := congrArg V3.z h; simp at this
  have hn : V3.norm (⟨0, 0, 2⟩ : V3) = 2 := norm_eq_of_sq (by norm_num) (by simp [dot])
  have hn2 : V3.norm (plate.v2 - plate.v0) ≤ 2 := by
    unfold V3.norm
    rw [Real.sqrt_le_left (by norm_num)]
    simp [plate, dot]; norm_num
  have hn3 : V3.norm (plate.v2 - plate.v1) ≤ 2 := by
    unfold V3.norm
    rw [Real.sqrt_le_left (by norm_num)]
    simp [plate, dot]; norm_num
  obtain ⟨r, hr⟩ := C59_own_returns hne (by rw [plate_cross, hn]; linarith) (by rw [plate_cross, hn]; linarith)
  refine ⟨r, ?_, hr⟩
  have hr' := hr
  unfold PotentialTriangleReturns at hr'
  simp only at hr'
  have hpl : (⟨plate.v0, plate.v1, plate.v2⟩ : Tri3) = plate := rfl
  rw [hpl, plate_normalized, show plateN.c = 1 from rfl] at hr'
  clear hr
  exact kronrod_positive one_pos (fun y h h' => (plate_integrand h h').1) (fun y h h' => (plate_integrand (by linarith) h'.le).2 h h') hr'

/-- A mesh with one triangle. -/
def plateMesh : Mesh V3 := { points := [⟨0, 0, 0⟩, ⟨2, 0, 0⟩, ⟨1, 1, 0⟩], triangles := [[0, 1, 2]], physTris := [("plate", [0])] }

/-- The excitation after `add_voltage(plate=10)`. -/
noncomputable def plateExc : Excitation ℝ V3 := { mesh := plateMesh, electrodes := ["plate"], symmetry := .threeD, types := [("plate", .voltageFixed, .num 10)] }

theorem plateExc_init : plateExc.solverInit .electrostatic = some ⟨.tris [plate], [some .voltageFixed], [10], .empty3d⟩ := by
  have h2 : plateMesh.is2d realThirds = false := by
    unfold Mesh.is2d
    rw [List.all_eq_false]
    exact ⟨⟨1, 1, 0⟩, by simp [plateMesh], by simp [realThirds]⟩
  have ha : plateExc.activeElements .electrostatic = some ([[⟨0, 0, 0⟩, ⟨2, 0, 0⟩, ⟨1, 1, 0⟩]], [("plate", [0])]) := by
    rfl
  unfold solverInit
  rw [ha]
  have hm : plateExc.mesh = plateMesh := rfl
  have ht : ∀ centre, plateExc.typesAndValues [("plate", [0])] [[(⟨0, 0, 0⟩ : V3), ⟨2, 0, 0⟩, ⟨1, 1, 0⟩]].length centre = some ([some .voltageFixed], [10]) := by
    intro c
    rfl
  simp only [Option.bind_eq_bind, Option.bind_some, ht]
  rw [hm, h2]
  rfl

/-- **C80**: the hypotheses of `C80_threeD` are met by a triangle at 10 V. -/
theorem C80_example (G : Geo V3) (inXZ : V3 → Bool) : ∃ x0 x env f, Valid plateMesh ∧ Excitation.new plateMesh .threeD inXZ = some x0 ∧
    x = x0.calls G [.voltage [("plate", .num 10)]] ∧ (∃ p ∈ plateMesh.points, p.y ≠ 0) ∧ FaithfulEnv env x ∧ x.solveField G env = some f := by
  obtain ⟨r, hr0, hr⟩ := plate_returns
  have hnew : Excitation.new plateMesh .threeD inXZ = some ({ mesh := plateMesh, electrodes := ["plate"], symmetry := .threeD } : Excitation ℝ V3) := by
    unfold Excitation.new
    rw [if_neg (by simp)]
    rfl
  have hcalls : plateExc = Excitation.calls G ({ mesh := plateMesh, electrodes := ["plate"], symmetry := .threeD } : Excitation ℝ V3) [.voltage [("plate", .num 10)]] := by
    rfl
  have h2 : plateMesh.is2d realThirds = false := by
    unfold Mesh.is2d
    rw [List.all_eq_false]
    exact ⟨⟨1, 1, 0⟩, by simp [plateMesh], by simp [realThirds]⟩
  have hmag : plateExc.solverInit .magnetostatic = some ⟨.tris [], [], [], ⟨12, [], [], []⟩⟩ := by
    have ha : plateExc.activeElements .magnetostatic = some ([], []) := by rfl
    unfold solverInit
    rw [ha]
    have ht : ∀ centre, plateExc.typesAndValues [] ([] : List (List V3)).length centre = some ([], []) := fun _ => rfl
    simp only [Option.bind_eq_bind, Option.bind_some, ht]
    rw [show plateExc.mesh = plateMesh from rfl, h2]
    rfl
  let o : TriRoutines := ⟨fun _ _ => r, fun _ _ _ => 0⟩
  let ops := fillOps3d o ([plate].getD · ⟨0, 0, 0⟩) (fun i => ([some ExcType.voltageFixed][i]?).join) (([10] : List ℝ).getD · 0)
  have hprog : ∀ t, 1 ≤ t → matrixProgs false 1 1 ops t = [] := by
    intro t ht
    unfold matrixProgs
    have : (((arraySplit (List.range 1) (1 : Int)).getD []).getD t []) = [] := by
      have e : (arraySplit (List.range 1) (1 : Int)).getD [] = [[0]] := by decide
      rw [e]
      match t, ht with
      | t + 1, _ => rfl
    rw [this]
    rfl
  obtain ⟨sched, hs⟩ := exists_joined (matrixProgs false 1 1 ops) 1 hprog
  let env : SolveEnv := ⟨1, fun _ => sched, o⟩
  have hco : o.Correct 1 ([plate].getD · ⟨0, 0, 0⟩) (fun i => ([some ExcType.voltageFixed][i]?).join) := by
    intro i hi j hj _
    obtain rfl : i = 0 := by omega
    obtain rfl : j = 0 := by omega
    simp only [List.getElem?_cons_zero, Option.join_some, List.getD_cons_zero]
    rw [triTarget_eq]
    exact hr
  have hfe : FaithfulEnv env plateExc := by
    refine ⟨by norm_num, fun s st hst => ?_⟩
    cases s with
    | electrostatic =>
      rw [plateExc_init, Option.some.injEq] at hst
      subst hst
      exact ⟨hco, hs⟩
    | magnetostatic =>
      rw [hmag, Option.some.injEq] at hst
      subst hst
      refine ⟨fun i hi => by simp at hi, ?_⟩
      intro t
      unfold matrixProgs
      have : ((((arraySplit (List.range ([] : List Tri3).length) env.threads).getD []).getD t [])) = [] := by
        have e : (arraySplit (List.range ([] : List Tri3).length) env.threads).getD [] = [[]] := by
          show (arraySplit (List.range 0) (1 : Int)).getD [] = [[]]
          decide
        rw [e]
        match t with
        | 0 => rfl
        | t + 1 => rfl
      rw [this]
      simp [fillProg]
  have hv : Valid plateMesh := by
    refine ⟨Or.inl rfl, ?_, ?_, ?_, ?_, ?_, ?_⟩ <;> simp [plateMesh]
  have hs2 : ∃ f, plateExc.solveField G env = some f := by
    have hup : plateExc.upgraded G = some plateExc := by
      unfold upgraded Mesh.solverMesh
      rw [show plateExc.mesh = plateMesh from rfl, h2]
      rfl
    unfold solveField
    rw [hup]
    simp only [Option.bind_eq_bind, Option.bind_some]
    rw [show plateExc.isElectrostatic = true from rfl, show plateExc.isMagnetostatic = false from rfl]
    simp only [if_true, if_false, Bool.false_eq_true]
    unfold solveStatics
    rw [plateExc_init]
    simp only [Option.bind_eq_bind, Option.bind_some]
    obtain ⟨A, hA, hrow⟩ := C36_threeD 1 1 (by norm_num) ops (fun _ => 0) sched hs
    have hA00 : A 0 0 = r / (4 * Real.pi) := by
      rw [hrow 0 0 (by norm_num) (by norm_num)]
      simp [ops, fillOps3d, o, EntryOp.apply]
    have hdet : (Matrix.of fun i j : Fin 1 => A i j).det ≠ 0 := by
      rw [Matrix.det_unique]
      show A 0 0 ≠ 0
      rw [hA00]
      positivity
    have hch : ∃ q, (⟨.tris [plate], [some .voltageFixed], [10], .empty3d⟩ : SolverState).charges env .electrostatic = some q ∧ q.length = 1 := by
      refine ⟨List.ofFn ((Matrix.of fun i j : Fin 1 => A i j)⁻¹.mulVec fun i => ([10] : List ℝ).getD i 0), ?_, by simp⟩
      unfold SolverState.charges
      rw [if_neg (by simp [SolverState.size])]
      have hM : (⟨.tris [plate], [some .voltageFixed], [10], .empty3d⟩ : SolverState).matrix env .electrostatic = some A := hA
      rw [hM]
      simp only [Option.bind_eq_bind, Option.bind_some]
      show linSolve (Matrix.of fun i j : Fin 1 => A i j) _ = _
      unfold linSolve
      rw [if_neg hdet]
      rfl
    obtain ⟨q, hq, hlen⟩ := hch
    unfold SolverState.solve
    rw [hq]
    simp only [Option.bind_eq_bind, Option.bind_some]
    have : ∃ e, EffCharges.new 12 q (([plate] : List Tri3).map jacRow) (([plate] : List Tri3).map posRow) = some e := by
      unfold EffCharges.new
      rw [if_pos ?_]
      · exact ⟨_, rfl⟩
      · exact ⟨by simp [hlen], by simp [jacRow, quadRule], by simp [hlen], by simp [posRow, quadRule]⟩
    obtain ⟨e, he⟩ := this
    rw [he]
    exact ⟨_, rfl⟩
  obtain ⟨f, hf⟩ := hs2
  exact ⟨_, plateExc, env, f, hv, hnew, hcalls, ⟨⟨1, 1, 0⟩, by simp [plateMesh], by norm_num⟩, hfe, hf⟩

end Traceon
