import Verif.Lemmas.MaxPrinciple2
import Verif.Props.Vacuum2

/-!
# C113: in a region without charges the potential takes its extreme values on the boundary
-/
namespace Traceon
open Spec Excitation V3 Real

/-- **C113.** Take any closed and bounded region of space that contains none of the quadrature points of the charged elements of a 3D field object.
At no point of the region is the electrostatic potential larger than at every point of the boundary of the region, or smaller than at every
point of the boundary; likewise for the magnetostatic potential. -/
theorem C113_threeD (f : Field3DBEM) {K : Set (ℝ × ℝ × ℝ)} (hK : IsCompact K) :
    ((∀ v ∈ K, ∀ row ∈ f.elec.positions, pt v ∉ row) → ∃ φ, (∀ q, PyObj.electrostaticPotential q (.threeD f) = some (φ q)) ∧ ExtremesOnBoundary K φ) ∧
    ((∀ v ∈ K, ∀ row ∈ f.mag.positions, pt v ∉ row) → ∃ φ, (∀ q, PyObj.magnetostaticPotential q (.threeD f) = some (φ q)) ∧ ExtremesOnBoundary K φ) :=
  ⟨fun h => ⟨_, fun _ => rfl, (Approximable.of_harmonic fun v hv => harmonic_potential f.elec (pt v) (h v hv)).extremes hK⟩,
   fun h => ⟨_, fun _ => rfl, (Approximable.of_harmonic fun v hv => harmonic_potential f.mag (pt v) (h v hv)).extremes hK⟩⟩

/-- The same for the solution of any three dimensional problem: the region contains no point of an excited triangle. -/
theorem C113_solved {G : Geo V3} {m : Mesh V3} (hv : Valid m) {inXZ : V3 → Bool} {x0 x : Excitation ℝ V3} (h0 : Excitation.new m .threeD inXZ = some x0)
    (cs : List (Excitation.Call ℝ V3)) (hx : x = x0.calls G cs) (h3d : ∃ p ∈ m.points, p.y ≠ 0) {env : SolveEnv} (he : FaithfulEnv env x) {f : PyObj}
    (hf : x.solveField G env = some f) {K : Set (ℝ × ℝ × ℝ)} (hK : IsCompact K) :
    ((∀ v ∈ K, OffSources x .electrostatic (pt v)) → ∃ φ, (∀ q, f.electrostaticPotential q = some (φ q)) ∧ ExtremesOnBoundary K φ) ∧
    ((∀ v ∈ K, OffSources x .magnetostatic (pt v)) → ∃ φ, (∀ q, f.magnetostaticPotential q = some (φ q)) ∧ ExtremesOnBoundary K φ) := by
  obtain ⟨⟨φ, E, h1, -, h2⟩, ⟨ψ, H, h3, -, h4⟩⟩ := C93_solved hv h0 cs hx h3d he hf
  exact ⟨fun h => ⟨φ, h1, (Approximable.of_harmonic fun v hv => (h2 _ (h v hv)).1).extremes hK⟩,
    fun h => ⟨ψ, h3, (Approximable.of_harmonic fun v hv => (h4 _ (h v hv)).1).extremes hK⟩⟩

/-- Around every point there is a small cube inside any ball. -/
theorem cube_in_ball (v : ℝ × ℝ × ℝ) {ε : ℝ} (hε : 0 < ε) {w : ℝ × ℝ × ℝ} (hw : w ∈ Metric.closedBall v (ε / 2)) : V3.norm (pt w - pt v) < ε := by
  rw [Metric.mem_closedBall, Prod.dist_eq, Prod.dist_eq, max_le_iff, max_le_iff, Real.dist_eq, Real.dist_eq, Real.dist_eq] at hw
  obtain ⟨a, b, c⟩ := hw
  unfold V3.norm
  rw [Real.sqrt_lt' hε]
  simp only [dot, pt, V3.sub_x, V3.sub_y, V3.sub_z]
  have h1 := sq_le_sq' (by linarith [abs_le.1 a]) (abs_le.1 a).2
  have h2 := sq_le_sq' (by linarith [abs_le.1 b]) (abs_le.1 b).2
  have h3 := sq_le_sq' (by linarith [abs_le.1 c]) (abs_le.1 c).2
  nlinarith

/-- A harmonic function has no strict local extremum. -/
theorem no_trap {φ : V3 → ℝ} {p : V3} {ρ : ℝ} (hρ : 0 < ρ) (hφ : ∀ q, V3.norm (q - p) < ρ → Harmonic φ q) {ε : ℝ} (hε : 0 < ε) :
    ∃ a b, a ≠ p ∧ b ≠ p ∧ V3.norm (a - p) < ε ∧ V3.norm (b - p) < ε ∧ φ a ≤ φ p ∧ φ p ≤ φ b := by
  set v : ℝ × ℝ × ℝ := (p.x, p.y, p.z) with hv
  have hp : pt v = p := rfl
  set δ := min ρ ε with hδ
  have hδ0 : 0 < δ := lt_min hρ hε
  have hh : ∀ w ∈ Metric.closedBall v (δ / 2), V3.norm (pt w - p) < δ := fun w hw => hp ▸ cube_in_ball v hδ0 hw
  have hext := (Approximable.of_harmonic fun w hw => hφ (pt w) (lt_of_lt_of_le (hh w hw) (min_le_left _ _))).extremes (K := Metric.closedBall v (δ / 2)) (isCompact_closedBall _ _)
  obtain ⟨a, ha, b, hb, h1, h2⟩ := hext v (Metric.mem_closedBall_self (by linarith))
  have hne : ∀ w ∈ frontier (Metric.closedBall v (δ / 2)), pt w ≠ p ∧ V3.norm (pt w - p) < ε := by
    intro w hw
    refine ⟨fun e => ?_, lt_of_lt_of_le (hh w (Metric.isClosed_closedBall.frontier_subset hw)) (min_le_right _ _)⟩
    have : w = v := by rw [← hp] at e; simp only [pt, V3.mk.injEq] at e; exact Prod.ext e.1 (Prod.ext e.2.1 e.2.2)
    rw [this, Metric.isClosed_closedBall.frontier_eq] at hw
    exact hw.2 (Metric.ball_subset_interior_closedBall (Metric.mem_ball_self (by linarith)))
  exact ⟨pt a, pt b, (hne a ha).1, (hne b hb).1, (hne a ha).2, (hne b hb).2, h1, h2⟩

/-- **C113**, Earnshaw's theorem: no point that is not a quadrature point of a charged element is a strict local minimum or a strict local maximum of the
potential of a 3D field object. Arbitrarily close to it there is another point where the potential is at least as large and another one where it is at most as
large. -/
theorem C113_no_trap (f : Field3DBEM) (p : V3) (h : ∀ row ∈ f.elec.positions, p ∉ row) {ε : ℝ} (hε : 0 < ε) :
    ∃ a b ua up ub, a ≠ p ∧ b ≠ p ∧ V3.norm (a - p) < ε ∧ V3.norm (b - p) < ε ∧
      PyObj.electrostaticPotential a (.threeD f) = some ua ∧ PyObj.electrostaticPotential p (.threeD f) = some up ∧
      PyObj.electrostaticPotential b (.threeD f) = some ub ∧ ua ≤ up ∧ up ≤ ub := by
  obtain ⟨ρ, hρ, hroom⟩ := Vac.room f.elec.positions.flatten p (by simpa using h)
  obtain ⟨a, b, h1, h2, h3, h4, h5, h6⟩ := no_trap hρ (fun q hq => harmonic_potential f.elec q fun row hr hm => hroom q hq (List.mem_flatten.2 ⟨row, hr, hm⟩)) hε
  exact ⟨a, b, _, _, _, h1, h2, h3, h4, rfl, rfl, rfl, h5, h6⟩

/-- **C113**, errors: let `ψ` be the exact potential of the problem, or any other solution of Laplace's equation in the region that is continuous up to the
boundary. If the computed potential is within `δ` of `ψ` on the boundary of the region, it is within `δ` of `ψ` in the whole region. -/
theorem C113_boundary_error (f : Field3DBEM) {K : Set (ℝ × ℝ × ℝ)} (hK : IsCompact K) (h : ∀ v ∈ K, ∀ row ∈ f.elec.positions, pt v ∉ row)
    (ψ : V3 → ℝ) (hc : ContinuousOn (fun w => ψ (pt w)) K) (hψ : ∀ v ∈ interior K, Harmonic ψ (pt v)) (δ : ℝ)
    (hb : ∀ w ∈ frontier K, ∃ u, PyObj.electrostaticPotential (pt w) (.threeD f) = some u ∧ |u - ψ (pt w)| ≤ δ) {v : ℝ × ℝ × ℝ} (hv : v ∈ K) :
    ∃ u, PyObj.electrostaticPotential (pt v) (.threeD f) = some u ∧ |u - ψ (pt v)| ≤ δ := by
  refine ⟨_, rfl, ?_⟩
  have hφ : ∀ w ∈ K, Harmonic (fun q => potential3d q f.elec) (pt w) := fun w hw => harmonic_potential f.elec (pt w) (h w hw)
  have hext : ExtremesOnBoundary K (fun q => potential3d q f.elec + -1 * ψ q) :=
    extremes_of_harmonic hK (ContinuousOn.add (fun w hw => (hφ w hw).continuousAt.continuousWithinAt) (continuousOn_const.mul hc))
      fun w hw => (hφ w (interior_subset hw)).add ((hψ w hw).smul (-1))
  have hbd : ∀ w ∈ frontier K, |potential3d (pt w) f.elec - ψ (pt w)| ≤ δ := by
    intro w hw
    obtain ⟨u, hu, hle⟩ := hb w hw
    have : u = potential3d (pt w) f.elec := (Option.some.inj hu).symm
    rwa [this] at hle
  obtain ⟨a, ha, b, hb, h1, h2⟩ := hext v hv
  have h3 := abs_le.1 (hbd a ha)
  have h4 := abs_le.1 (hbd b hb)
  exact abs_le.2 ⟨by linarith [h3.1], by linarith [h4.2]⟩

/-- **C113**, radial symmetry: take any closed and bounded region that none of the charged rings touches; it may contain points on the axis. The exact
potential of the rings takes its extreme values on the boundary, so the potential that the methods return can exceed every value on the
boundary, or be below every value on the boundary, only by the error of the elliptic integrals (C75). -/
theorem C113_radial (f : FieldRadialBEM) {K : Set (ℝ × ℝ × ℝ)} (hK : IsCompact K) (h : ∀ v ∈ K, ClearOfRings f.elec (pt v)) :
    ExtremesOnBoundary K (ringsPotential f.elec) ∧
    ∃ u : V3 → ℝ, (∀ q, PyObj.electrostaticPotential q (.radial f) = some (u q)) ∧
      let err := fun v : ℝ × ℝ × ℝ => 4e-13 * absSuperpose (fun q => ringPotential q.1 q.2 (pt v)) f.elec
      ∀ v ∈ K, |u (pt v) - ringsPotential f.elec (pt v)| ≤ err v ∧
        ∃ a ∈ frontier K, ∃ b ∈ frontier K, u (pt a) - (err a + err v) ≤ u (pt v) ∧ u (pt v) ≤ u (pt b) + (err b + err v) := by
  have hext := (approximable_rings hK f.elec h).extremes hK
  refine ⟨hext, _, fun _ => rfl, ?_⟩
  intro err v hv
  have key : ∀ w ∈ K, |potentialRadial (pt w) f.elec - ringsPotential f.elec (pt w)| ≤ err w := fun w hw => C75_potential f.elec (pt w) (h w hw)
  refine ⟨key v hv, ?_⟩
  obtain ⟨a, ha, b, hb, h1, h2⟩ := hext v hv
  have k1 := abs_le.1 (key v hv)
  have k2 := abs_le.1 (key a (hK.isClosed.frontier_subset ha))
  have k3 := abs_le.1 (key b (hK.isClosed.frontier_subset hb))
  exact ⟨a, ha, b, hb, by linarith [k1.1, k2.2], by linarith [k1.2, k3.1]⟩

/-- The same for the magnetostatic potential of a radial field object. -/
theorem C113_radial_magnetic (f : FieldRadialBEM) {K : Set (ℝ × ℝ × ℝ)} (hK : IsCompact K) (h : ∀ v ∈ K, ClearOfRings f.mag (pt v)) :
    ∃ u : V3 → ℝ, (∀ q, PyObj.magnetostaticPotential q (.radial f) = some (u q)) ∧
      let err := fun v : ℝ × ℝ × ℝ => 4e-13 * absSuperpose (fun q => ringPotential q.1 q.2 (pt v)) f.mag
      ∀ v ∈ K, ∃ a ∈ frontier K, ∃ b ∈ frontier K, u (pt a) - (err a + err v) ≤ u (pt v) ∧ u (pt v) ≤ u (pt b) + (err b + err v) := by
  obtain ⟨-, u, hu, hall⟩ := C113_radial { f with elec := f.mag } hK h
  have e : ∀ q, PyObj.magnetostaticPotential q (.radial f) = PyObj.electrostaticPotential q (.radial { f with elec := f.mag }) := fun q => rfl
  exact ⟨u, fun q => (e q).trans (hu q), fun v hv => (hall v hv).2⟩

/-- A box with a quadrature point outside it, around the axis, and the ring of radius 1 outside a box that contains a part of the axis. -/
theorem C113_example : IsCompact (Set.Icc (-1 / 4) (1 / 4) ×ˢ Set.Icc (-1 / 4) (1 / 4) ×ˢ Set.Icc (-1) 1 : Set (ℝ × ℝ × ℝ)) ∧
    (∀ v ∈ (Set.Icc (-1 / 4) (1 / 4) ×ˢ Set.Icc (-1 / 4) (1 / 4) ×ˢ Set.Icc (-1) 1 : Set (ℝ × ℝ × ℝ)),
      (∀ row ∈ (⟨1, [1], [[2]], [[⟨1, 0, 0⟩]]⟩ : EffCharges V3).positions, pt v ∉ row) ∧ ClearOfRings ⟨1, [1], [[2]], [[(1, 0)]]⟩ (pt v)) ∧
    (0, 0, 0) ∈ interior (Set.Icc (-1 / 4) (1 / 4) ×ˢ Set.Icc (-1 / 4) (1 / 4) ×ˢ Set.Icc (-1) 1 : Set (ℝ × ℝ × ℝ)) := by
  refine ⟨isCompact_Icc.prod (isCompact_Icc.prod isCompact_Icc), fun v hv => ⟨?_, ?_⟩, ?_⟩
  · rintro row hr hm
    simp only [List.mem_singleton] at hr
    subst hr
    simp only [List.mem_singleton, pt, V3.mk.injEq] at hm
    have := hv.1.2
    rw [hm.1] at this
    norm_num at this
  · intro row hr q hq
    simp only [List.mem_singleton] at hr
    subst hr
    simp only [List.mem_singleton] at hq
    subst hq
    refine ⟨one_pos, fun φ e => ?_⟩
    have hx : cos φ = v.1 := by simpa [ringPoint, pt] using congrArg V3.x e
    have hy : sin φ = v.2.1 := by simpa [ringPoint, pt] using congrArg V3.y e
    have h1 := hv.1
    have h2 := hv.2.1
    rw [← hx] at h1
    rw [← hy] at h2
    have a : cos φ ^ 2 ≤ (1 / 4) ^ 2 := sq_le_sq' (by linarith [h1.1]) h1.2
    have b : sin φ ^ 2 ≤ (1 / 4) ^ 2 := sq_le_sq' (by linarith [h2.1]) h2.2
    linarith [sin_sq_add_cos_sq φ]
  · rw [interior_prod_eq, interior_prod_eq, interior_Icc, interior_Icc]
    exact ⟨⟨by norm_num, by norm_num⟩, ⟨by norm_num, by norm_num⟩, ⟨by norm_num, by norm_num⟩⟩

/-- A solved problem: the plate at 10 V and the box above it. -/
theorem C113_example_solved (G : Geo V3) : ∃ x0 x env f, Valid plateMesh ∧ Excitation.new plateMesh .threeD (fun _ => true) = some x0 ∧
    x = x0.calls G [.voltage [("plate", .num 10)]] ∧ (∃ p ∈ plateMesh.points, p.y ≠ 0) ∧ FaithfulEnv env x ∧ x.solveField G env = some f ∧
    IsCompact (Set.Icc 0 1 ×ˢ Set.Icc 0 1 ×ˢ Set.Icc 1 2 : Set (ℝ × ℝ × ℝ)) ∧
    ∀ v ∈ (Set.Icc 0 1 ×ˢ Set.Icc 0 1 ×ˢ Set.Icc 1 2 : Set (ℝ × ℝ × ℝ)), OffSources x .electrostatic (pt v) := by
  obtain ⟨x0, x, env, f, hv, h0, hx, h3, he, hf⟩ := C80_example G (fun _ => true)
  have hx0 : x0 = { mesh := plateMesh, electrodes := ["plate"], symmetry := .threeD } := by
    have : Excitation.new plateMesh .threeD (fun _ => true) = some ({ mesh := plateMesh, electrodes := ["plate"], symmetry := .threeD } : Excitation ℝ V3) := by
      unfold Excitation.new
      rw [if_neg (by simp)]
      rfl
    rw [this] at h0
    exact (Option.some.inj h0).symm
  have hxe : x = plateExc := by rw [hx, hx0]; rfl
  refine ⟨x0, x, env, f, hv, h0, hx, h3, he, hf, isCompact_Icc.prod (isCompact_Icc.prod isCompact_Icc), fun w hw => ?_⟩
  rw [hxe]
  intro i t ht _
  have : i = 0 := by
    cases hi : plateExc.mesh.triangles[i]? with
    | none => rw [hi] at ht; cases ht
    | some e =>
      have := (List.getElem?_eq_some_iff.1 hi).1
      simp [plateExc, plateMesh] at this
      exact this
  subst this
  have ht' : (⟨⟨0, 0, 0⟩, ⟨2, 0, 0⟩, ⟨1, 1, 0⟩⟩ : Tri3) = t := by
    simpa [plateExc, plateMesh, triVerts] using ht
  subst ht'
  rintro ⟨u, v, _, _, _, e⟩
  have h1 := congrArg V3.z e
  have h2 := hw.2.2.1
  simp [pt] at h1
  rw [h1] at h2
  norm_num at h2

end Traceon
