import Verif.Props.TracerSymmetry2
import Verif.Props.Rigid5
import Verif.Props.Linear4
import Verif.Props.Similar7

/-!
# C89 and C90 for the fields that `solve_direct` computes
-/
namespace Traceon
open Spec Excitation

/-- The field objects that `solve_direct` returns. -/
def IsBEM (f : PyObj) : Prop := (∃ g, f = .radial g) ∨ ∃ g, f = .threeD g

theorem solveStatics_bem {x : Excitation ℝ V3} {env : SolveEnv} {s : Statics} {f : PyObj} (hf : x.solveStatics env s = some f) : IsBEM f := by
  rcases solveStatics_shape hf with ⟨ts, q, rfl⟩ | ⟨E, c, rfl, -⟩ <;> cases s
  · exact Or.inr ⟨_, rfl⟩
  · exact Or.inr ⟨_, rfl⟩
  · exact Or.inl ⟨_, rfl⟩
  · exact Or.inl ⟨_, rfl⟩

theorem solveField_bem {x : Excitation ℝ V3} {G : Geo V3} {env : SolveEnv} {f : PyObj} (hf : x.solveField G env = some f) : IsBEM f := by
  unfold solveField at hf
  cases hu : x.upgraded G with
  | none => rw [hu] at hf; cases hf
  | some y =>
    rw [hu] at hf
    simp only [Option.bind_eq_bind, Option.bind_some] at hf
    split_ifs at hf
    · cases he : y.solveStatics env .electrostatic with
      | none => rw [he] at hf; cases hf
      | some e =>
        cases hm : y.solveStatics env .magnetostatic with
        | none => rw [he, hm] at hf; cases hf
        | some m =>
          rw [he, hm] at hf
          obtain ⟨E, M, c, -, -, rfl⟩ := solveStatics_add he hm hf
          exact Or.inl ⟨_, rfl⟩
    · exact solveStatics_bem hf
    · exact solveStatics_bem hf

theorem upgraded_isMagnetostatic {x y : Excitation ℝ V3} {G : Geo V3} (hu : x.upgraded G = some y) : y.isMagnetostatic = x.isMagnetostatic := by
  unfold upgraded at hu
  obtain ⟨M, -, rfl⟩ := Option.map_eq_some_iff.1 hu
  rfl

/-- Without magnetostatic excitations there is no magnetic field. -/
theorem solveField_nonmagnetic {x : Excitation ℝ V3} {G : Geo V3} {env : SolveEnv} {f : PyObj} (hm : x.isMagnetostatic = false) (hf : x.solveField G env = some f) (p : V3) :
    f.magnetostaticField p = some 0 := by
  unfold solveField at hf
  cases hu : x.upgraded G with
  | none => rw [hu] at hf; cases hf
  | some y =>
    rw [hu] at hf
    have hm' : y.isMagnetostatic = false := (upgraded_isMagnetostatic hu).trans hm
    simp only [Option.bind_eq_bind, Option.bind_some, hm', Bool.false_eq_true, if_false] at hf
    split_ifs at hf
    rcases solveStatics_shape hf with ⟨ts, q, rfl⟩ | ⟨E, c, rfl, -⟩
    · rfl
    · simp only [toFieldRadial, PyObj.magnetostaticField, Option.some.injEq]
      have a : currentField p EffCharges.empty3d = 0 := by
        unfold currentField fromRadial EffCharges.loop EffCharges.empty3d
        split <;> ext <;> simp
      have b : fieldRadial p EffCharges.empty2d = 0 := by
        unfold fieldRadial fromRadial EffCharges.loopSub EffCharges.empty2d
        split <;> ext <;> simp
      rw [a, b]
      ext <;> simp

/-- The force of the tracer in terms of the fields. -/
theorem tracerForce_eq {f : PyObj} (hf : IsBEM f) : ∃ F, f.tracerForce none = some F ∧ ∀ p : Phase, ∃ E M, f.electrostaticField p.pos = some E ∧ f.magnetostaticField p.pos = some M ∧
    F p = E + V3.cross p.vel (constMu0 * M) := by
  rcases hf with ⟨g, rfl⟩ | ⟨g, rfl⟩
  · refine ⟨_, rfl, fun p => ⟨_, _, rfl, rfl, ?_⟩⟩
    rw [tracerRadialForce_eq]
    congr 3
    ext <;> simp <;> ring
  · exact ⟨_, rfl, fun p => ⟨_, _, rfl, rfl, tracer3dForce_eq g none p⟩⟩

/-- The kinetic energy scales with the square of the velocity. -/
theorem convert_move (R : RigidMotion) {κ : ℝ} (hκ : 0 < κ) (e m : ℝ) (v : V3) : convertVelocityToSI e m (κ ^ 2 * R.lin v) = κ * R.lin (convertVelocityToSI e m v) := by
  have hnorm : V3.norm (κ ^ 2 * R.lin v) = κ ^ 2 * V3.norm v := by
    have : V3.dot (κ ^ 2 * R.lin v) (κ ^ 2 * R.lin v) = (κ ^ 2) ^ 2 * V3.dot v v := by
      rw [← R.dot v v]; simp [V3.dot]; ring
    have e : ∀ v, V3.norm v = Real.sqrt (V3.dot v v) := fun v => by unfold V3.norm V3.dot; congr 1
    rw [e, e, this, Real.sqrt_mul (by positivity), Real.sqrt_sq (by positivity)]
  unfold convertVelocityToSI
  simp only [hnorm]
  have h1 : 2 * (κ ^ 2 * V3.norm v) * e / m = κ ^ 2 * (2 * V3.norm v * e / m) := by ring
  rw [h1, Real.sqrt_mul (by positivity), Real.sqrt_sq hκ.le, R.smul, R.smul]
  have h2 : 1 / (κ ^ 2 * V3.norm v) * κ ^ 2 = 1 / V3.norm v := by
    rw [one_div, mul_inv, mul_right_comm, inv_mul_cancel₀ (by positivity), one_mul, one_div]
  have h3 : (1 / (κ ^ 2 * V3.norm v)) * ((κ ^ 2 : ℝ) * R.lin v) = (1 / V3.norm v : ℝ) * R.lin v := by
    rw [← h2]
    ext <;> simp only [V3.smul_x, V3.smul_y, V3.smul_z] <;> rw [mul_assoc]
  rw [h3]
  ext <;> simp only [V3.smul_x, V3.smul_y, V3.smul_z] <;> rw [mul_assoc]

section
variable {R : RigidMotion} {κ : ℝ} {f f' : PyObj} {bounds bounds' : Bounds}

/-- **C90** for any two field objects computed from charges, given how their fields are related. -/
theorem C90_fields (hR : R.KeepsAxes) (hκ : 0 < κ) (hf : IsBEM f) (hf' : IsBEM f')
    (hE : ∀ p, f'.electrostaticField (R.move p) = (f.electrostaticField p).map (fun E : V3 => (κ ^ 2 : ℝ) * R.lin E))
    (hM : ∀ p, f'.magnetostaticField (R.move p) = (f.magnetostaticField p).map (fun M : V3 => (R.sign * κ : ℝ) * R.lin M))
    (hb : ∀ p, InBox bounds' (R.move p) ↔ InBox bounds p) (e m atol : ℝ) (B fuel : Nat) (x v : V3) :
    f'.trace none e m bounds' atol B fuel (R.move x) (κ ^ 2 * R.lin v) = (f.trace none e m bounds atol B fuel x v).map (List.map (movedRow R κ)) := by
  obtain ⟨F, h1, h2⟩ := tracerForce_eq hf
  obtain ⟨F', h1', h2'⟩ := tracerForce_eq hf'
  unfold PyObj.trace
  rw [h1, h1', convert_move R hκ]
  refine C90_trace R hR κ hκ (fun x v => ?_) hb atol B fuel x _
  obtain ⟨E, M, a, b, c⟩ := h2 ⟨x, v⟩
  obtain ⟨E', M', a', b', c'⟩ := h2' ⟨R.move x, κ * R.lin v⟩
  simp only at a b a' b' c c'
  rw [hE, a, Option.map_some, Option.some.injEq] at a'
  rw [hM, b, Option.map_some, Option.some.injEq] at b'
  rw [c, c', ← a', ← b', R.add]
  have hs : R.sign * R.sign = 1 := by rcases R.sign_eq with h | h <;> rw [h] <;> norm_num
  have hc := R.cross v (constMu0 * M)
  rw [R.smul] at hc
  have hc2 : R.lin (V3.cross v (constMu0 * M)) = R.sign * V3.cross (R.lin v) (constMu0 * R.lin M) := by
    rw [hc]
    ext <;> simp only [V3.smul_x, V3.smul_y, V3.smul_z] <;> rw [← mul_assoc, hs, one_mul]
  rw [hc2]
  ext <;> simp [V3.cross] <;> ring

/-- **C90**, moved problems: let the 3D problem `x'` be the problem `x` moved by `R` (a motion that takes coordinate axes to coordinate axes), the bounds of the tracer being moved too. Then the electron that
starts in the moved state has the moved trajectory, row by row and at the same times. If `R` is a reflection, there must be no magnetic excitations. -/
theorem C90_moved {G : Geo V3} {σ : Statics → Nat → Nat} {x x' : Excitation ℝ V3} {env env' : SolveEnv} (hR : R.KeepsAxes)
    (h : ∀ s, SameProblem R (σ s) x x' s) (hv : Valid x.mesh) (hv' : Valid x'.mesh) (hn : x.types.keys.Nodup) (hn' : x'.types.keys.Nodup)
    (h3 : x.symmetry = .threeD) (h3' : x'.symmetry = .threeD) (hcur : x.hasCurrent = false) (hcur' : x'.hasCurrent = false)
    (hy : ∃ p ∈ x.mesh.points, p.y ≠ 0) (hy' : ∃ p ∈ x'.mesh.points, p.y ≠ 0) (hl' : x'.mesh.lineCols = 2)
    (hp' : ∀ s, Proper x s → Proper x' s) (hnum' : ∀ s, Numeric x s → Numeric x' s) (hel : x'.isElectrostatic = x.isElectrostatic) (hma : x'.isMagnetostatic = x.isMagnetostatic)
    (he : FaithfulEnv env x) (he' : FaithfulEnv env' x') (hsign : R.sign = 1 ∨ NoInterfaces x ∧ x.isMagnetostatic = false) (hf : x.solveField G env = some f)
    (hb : ∀ p, InBox bounds' (R.move p) ↔ InBox bounds p) :
    ∃ f', x'.solveField G env' = some f' ∧ ∀ (e m atol : ℝ) (B fuel : Nat) (p v : V3),
      f'.trace none e m bounds' atol B fuel (R.move p) (R.lin v) = (f.trace none e m bounds atol B fuel p v).map (List.map (movedRow R 1)) := by
  obtain ⟨f', h1, h2⟩ := C81_moved h hv hv' hn hn' h3 h3' hcur hcur' hy hy' hl' hp' hnum' hel hma he he' (hsign.imp id And.left) hf
  refine ⟨f', h1, fun e m atol B fuel p v => ?_⟩
  have hone : ∀ w : V3, ((1 : ℝ) ^ 2 : ℝ) * w = w := fun w => by ext <;> simp
  have := C90_fields (κ := 1) hR one_pos (solveField_bem hf) (solveField_bem h1) (fun q => by rw [(h2 q).2.1]; congr 1; funext E; rw [hone])
    (fun q => by
      rw [(h2 q).2.2.2.1]
      rcases hsign with hs | ⟨-, hs⟩
      · rw [hs]; congr 1; funext E; ext <;> simp
      · rw [solveField_nonmagnetic hs hf, Option.map_some, Option.map_some, lin_zero]
        congr 1
        ext <;> simp) hb e m atol B fuel p v
  rwa [hone] at this

/-- **C90**, higher voltages: let all voltages of `x'` be `κ²` times those of `x`, without magnetic excitations. Then an electron with `κ²` times the energy has the same trajectory: it passes the same points with
velocities that are `κ` times as large, at times divided by `κ`. This holds in radial symmetry and in three dimensions. -/
theorem C90_voltages {G : Geo V3} {x x' y y' : Excitation ℝ V3} {env env' : SolveEnv} (hκ : 0 < κ) (hG : G.Lawful) (h : Combination (κ ^ 2) 0 x x x') (hv : Valid x'.mesh) (hn : x'.types.keys.Nodup)
    (u : x.upgraded G = some y) (u' : x'.upgraded G = some y') (he : FaithfulEnv env y) (he' : FaithfulEnv env' y') (hE : EnoughLines env y) (hE' : EnoughLines env' y')
    (hm : x.isMagnetostatic = false) (hf : x.solveField G env = some f) :
    ∃ f', x'.solveField G env' = some f' ∧ ∀ (e m atol : ℝ) (B fuel : Nat) (p v : V3),
      f'.trace none e m bounds atol B fuel p (κ ^ 2 * v) = (f.trace none e m bounds atol B fuel p v).map (List.map fun row => (row.1 / κ, ⟨row.2.pos, κ * row.2.vel⟩)) := by
  obtain ⟨f', h1, h2⟩ := C84_linear hG h hv hn u u u' he he he' hE hE hE' hf hf
  refine ⟨f', h1, fun e m atol B fuel p v => ?_⟩
  have hR : RigidMotion.id.KeepsAxes := fun v => rfl
  have := C90_fields (R := RigidMotion.id) (κ := κ) (bounds := bounds) (bounds' := bounds) hR hκ (solveField_bem hf) (solveField_bem h1)
    (fun q => by
      rw [RigidMotion.id_move, (h2 q).2.1]
      unfold CombinedV
      cases f.electrostaticField q with
      | none => rfl
      | some E =>
        simp only [Option.bind_some, Option.map_some, Option.some.injEq]
        ext <;> simp [RigidMotion.id])
    (fun q => by
      rw [RigidMotion.id_move, (h2 q).2.2.2.1, solveField_nonmagnetic hm hf]
      simp only [CombinedV, Option.bind_some, Option.map_some, Option.some.injEq]
      ext <;> simp [RigidMotion.id]) (fun q => by rw [RigidMotion.id_move]) e m atol B fuel p v
  rw [RigidMotion.id_move] at this
  refine this.trans ?_
  congr 2
  funext row
  unfold movedRow
  rw [RigidMotion.id_move]
  rfl

/-- A translation. -/
def Spec.RigidMotion.translation (d : V3) : RigidMotion where
  lin := fun v => v
  shift := d
  sign := 1
  add := fun _ _ => rfl
  smul := fun _ _ => rfl
  dot := fun _ _ => rfl
  cross := fun a b => by ext <;> simp
  sign_eq := Or.inl rfl

/-- **C90**, radially symmetric problems: if everything is moved by `z` along the axis, then so are the trajectories. Fields from charges and coils, electrostatic, magnetostatic or both. -/
theorem C90_along {G : Geo V3} {x : Excitation ℝ V3} {env env' : SolveEnv} (z : ℝ) (hG : G.Lawful)
    (hv : Valid x.mesh) (hn : x.types.keys.Nodup) (h3 : x.symmetry = .radial) (hl : x.mesh.lineCols = 4) (hy : ∀ p ∈ x.mesh.points, p.y = 0)
    (he : FaithfulEnv env x) (he' : FaithfulEnv env' ((Similarity.along z).excitation x)) (hE : EnoughLines env x) (hE' : EnoughLines env' ((Similarity.along z).excitation x))
    (hf : x.solveField G env = some f) :
    ∃ f', ((Similarity.along z).excitation x).solveField G env' = some f' ∧ ∀ (bx by' : ℝ × ℝ) (z₁ z₂ e m atol : ℝ) (B fuel : Nat) (p v : V3),
      f'.trace none e m (bx, by', (z₁ + z, z₂ + z)) atol B fuel ⟨p.x, p.y, p.z + z⟩ v =
        (f.trace none e m (bx, by', (z₁, z₂)) atol B fuel p v).map (List.map fun row => (row.1, ⟨⟨row.2.pos.x, row.2.pos.y, row.2.pos.z + z⟩, row.2.vel⟩)) := by
  obtain ⟨f', h1, h2⟩ := C86_shift z hG hv hn h3 hl hy he he' hE hE' hf
  refine ⟨f', h1, fun bx by' z₁ z₂ e m atol B fuel p v => ?_⟩
  have hmove : ∀ q : V3, (RigidMotion.translation ⟨0, 0, z⟩).move q = ⟨q.x, q.y, q.z + z⟩ := fun q => by
    unfold RigidMotion.move RigidMotion.translation
    ext <;> simp
  have hR : (RigidMotion.translation ⟨0, 0, z⟩).KeepsAxes := fun v => rfl
  have hone : ∀ w : V3, ((1 : ℝ) ^ 2 : ℝ) * w = w := fun w => by ext <;> simp
  have := C90_fields (R := RigidMotion.translation ⟨0, 0, z⟩) (κ := 1) (bounds := (bx, by', (z₁, z₂))) (bounds' := (bx, by', (z₁ + z, z₂ + z))) hR one_pos (solveField_bem hf) (solveField_bem h1)
    (fun q => by
      rw [hmove, (h2 q).2.1]
      cases f.electrostaticField q with
      | none => rfl
      | some E => simp only [Option.map_some, Option.some.injEq, hone]; rfl)
    (fun q => by
      rw [hmove, (h2 q).2.2.1]
      cases f.magnetostaticField q with
      | none => rfl
      | some E =>
        simp only [Option.map_some, Option.some.injEq]
        ext <;> simp [RigidMotion.translation])
    (fun q => by
      rw [hmove]
      unfold InBox
      simp) e m atol B fuel p v
  rw [hone, hmove] at this
  refine this.trans ?_
  congr 2
  funext row
  unfold movedRow
  rw [hmove, div_one]
  congr 2
  show (1 : ℝ) * row.2.vel = _
  ext <;> simp

/-- **C90**, turning around the axis: in every field with radial symmetry from charges and coils the trajectory of the electron that starts in the turned state is the turned trajectory, for turns that take coordinate axes to
coordinate axes (the error of a step is measured along the coordinate axes), if the bounds of the tracer are turned too. -/
theorem C90_turn (g : FieldRadialBEM) (θ : ℝ) (hR : (rotationMotion 2 θ 0).KeepsAxes) (hb : ∀ p, InBox bounds' (rotZ θ p) ↔ InBox bounds p) (e m atol : ℝ) (B fuel : Nat) (x v : V3) :
    (PyObj.radial g).trace none e m bounds' atol B fuel (rotZ θ x) (rotZ θ v) =
      ((PyObj.radial g).trace none e m bounds atol B fuel x v).map (List.map fun row => (row.1, ⟨rotZ θ row.2.pos, rotZ θ row.2.vel⟩)) := by
  have hlin : ∀ q, (rotationMotion 2 θ 0).lin q = rotZ θ q := fun q => by
    unfold rotationMotion rotZ
    simp only [rotC]
    ext <;> simp <;> ring
  have hmove : ∀ q, (rotationMotion 2 θ 0).move q = rotZ θ q := fun q => by
    rw [rotationMotion_move]
    unfold rotZ
    simp only [rotC]
    ext <;> simp <;> ring
  have hone : ∀ w : V3, ((1 : ℝ) ^ 2 : ℝ) * w = w := fun w => by ext <;> simp
  have := C90_fields (R := rotationMotion 2 θ 0) (κ := 1) (f := .radial g) (f' := .radial g) (bounds := bounds) (bounds' := bounds') hR one_pos (Or.inl ⟨g, rfl⟩) (Or.inl ⟨g, rfl⟩)
    (fun q => by
      rw [hmove, (C58_radial_symmetry _ (Or.inl ⟨g, rfl⟩) q θ).2.2.1]
      congr 1
      funext E
      rw [hone, hlin])
    (fun q => by
      rw [hmove, (C58_radial_symmetry _ (Or.inl ⟨g, rfl⟩) q θ).2.2.2.1]
      congr 1
      funext E
      rw [hlin]
      ext <;> simp [rotationMotion])
    (fun q => by rw [hmove]; exact hb q) e m atol B fuel x v
  rw [hone, hmove, hlin] at this
  refine this.trans ?_
  congr 2
  funext row
  unfold movedRow
  rw [hmove, hlin, div_one]
  congr 2
  ext <;> simp

/-- **C89**, symmetric 3D problems: let `R` be a symmetry of the problem `x` (a reflection, or a rotation such as half a turn). An electron that starts at a point that `R` does not move, with a velocity that `R` does not change, stays at
such points: it never leaves the mirror plane, or the axis of the rotation. If `R` is a reflection, there must be no magnetic excitations. -/
theorem C89_symmetric {G : Geo V3} {σ : Statics → Nat → Nat} {x : Excitation ℝ V3} {env : SolveEnv} (h : ∀ s, SameProblem R (σ s) x x s) (hv : Valid x.mesh) (hn : x.types.keys.Nodup)
    (h3 : x.symmetry = .threeD) (hcur : x.hasCurrent = false) (hy : ∃ p ∈ x.mesh.points, p.y ≠ 0) (hl : x.mesh.lineCols = 2)
    (he : FaithfulEnv env x) (hsign : R.sign = 1 ∨ NoInterfaces x ∧ x.isMagnetostatic = false) (hf : x.solveField G env = some f)
    (e m atol : ℝ) (B fuel : Nat) (p v : V3) (hp : R.move p = p) (hvel : R.lin v = v) {rows : List Row} (hr : f.trace none e m bounds atol B fuel p v = some rows) :
    ∀ r ∈ rows, R.move r.2.pos = r.2.pos ∧ R.lin r.2.vel = r.2.vel := by
  obtain ⟨f', h1, h2⟩ := C81_moved h hv hv hn hn h3 h3 hcur hcur hy hy hl (fun _ h => h) (fun _ h => h) rfl rfl he he (hsign.imp id And.left) hf
  rw [hf, Option.some.injEq] at h1
  subst h1
  obtain ⟨F, hF, hr⟩ := trace_eq hr
  obtain ⟨F', hF', hforce⟩ := tracerForce_eq (solveField_bem hf)
  rw [hF', Option.some.injEq] at hF
  subst hF
  have hW : Directions fun v => R.lin v = v := ⟨lin_zero R, fun a b ha hb => by rw [R.add, ha, hb], fun k a ha => by rw [R.smul, ha]⟩
  have hsub : ∀ q, R.lin (q - p) = q - p ↔ R.move q = q := by
    intro q
    have e1 : q = (q - p) + p := by ext <;> simp <;> ring
    have e2 : R.move q = R.lin (q - p) + p := by
      have : R.lin q = R.lin (q - p) + R.lin p := by rw [← R.add, ← e1]
      have hp' : R.lin p + R.shift = p := hp
      have a1 := congrArg V3.x hp'
      have a2 := congrArg V3.y hp'
      have a3 := congrArg V3.z hp'
      simp only [V3.add_x, V3.add_y, V3.add_z] at a1 a2 a3
      unfold RigidMotion.move
      rw [this]
      ext
      · simp only [V3.add_x]; linear_combination a1
      · simp only [V3.add_y]; linear_combination a2
      · simp only [V3.add_z]; linear_combination a3
    rw [e2]
    constructor
    · intro h; rw [h]; exact e1.symm
    · intro h
      have h3 : R.lin (q - p) = (R.lin (q - p) + p) - p := by ext <;> simp
      rw [h3, h]
  have := C89_stays (c := p) (field := F') hW (fun x v hx hv => ?_) bounds atol B fuel p _ ((hsub p).2 hp) (convert_direction hW e m hvel) hr
  · exact fun r hr => ⟨(hsub _).1 (this r hr).1, (this r hr).2⟩
  · rw [hsub] at hx
    obtain ⟨E, M, a, b, c⟩ := hforce ⟨x, v⟩
    simp only at a b c
    obtain ⟨-, i1, -, i2, -⟩ := h2 x
    rw [hx, a, Option.map_some, Option.some.injEq] at i1
    rw [hx, b, Option.map_some, Option.some.injEq] at i2
    rw [c, R.add, ← i1]
    congr 1
    have hc := R.cross v (constMu0 * M)
    rw [R.smul, ← i2, hv] at hc
    rcases hsign with hs | ⟨-, hs⟩
    · rw [hs] at hc
      have hone : ∀ w : V3, (1 : ℝ) * w = w := fun w => by ext <;> simp
      rw [hone] at hc
      exact hc.symm
    · rw [solveField_nonmagnetic hs hf, Option.some.injEq] at b
      subst b
      have : V3.cross v (constMu0 * (0 : V3)) = 0 := by ext <;> simp [V3.cross]
      rw [this, lin_zero]

end

end Traceon
