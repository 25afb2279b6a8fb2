import Verif.Props.TracerSymmetry3
import Verif.Props.Progress3

/-!
# C89 and C90: the hypotheses are met
-/
namespace Traceon
open Spec Excitation

/-- The reflection in the plane `z = 0`. -/
def mirrorZ : RigidMotion where
  lin := fun v => ⟨v.x, v.y, -v.z⟩
  shift := 0
  sign := -1
  add := fun a b => by ext <;> simp; ring
  smul := fun k a => by ext <;> simp
  dot := fun a b => by simp [V3.dot]
  cross := fun a b => by ext <;> simp [V3.cross] <;> ring
  sign_eq := Or.inr rfl

theorem mirrorZ_move (p : V3) : mirrorZ.move p = ⟨p.x, p.y, -p.z⟩ := by
  unfold RigidMotion.move mirrorZ
  ext <;> simp

/-- **C90**: translations, the reflection in a coordinate plane and quarter turns take coordinate axes to coordinate axes. -/
theorem C90_example : (∀ d, (RigidMotion.translation d).KeepsAxes) ∧ mirrorZ.KeepsAxes ∧ (∀ o, (rotationMotion 2 (Real.pi / 2) o).KeepsAxes) ∧
    ∀ a : ℝ, ∀ p, InBox ((-a, a), (-a, a), (-a, a)) (rotZ (Real.pi / 2) p) ↔ InBox ((-a, a), (-a, a), (-a, a)) p := by
  refine ⟨fun d v => rfl, fun v => ?_, fun o v => ?_, fun a p => ?_⟩
  · simp [mirrorZ]
  · simp only [rotationMotion, rotC]
    simp
    rw [max_left_comm]
  · unfold InBox rotZ
    simp
    constructor <;> rintro ⟨⟨h1, h2⟩, ⟨h3, h4⟩, h5, h6⟩ <;> refine ⟨⟨?_, ?_⟩, ⟨?_, ?_⟩, ?_, ?_⟩ <;> linarith

/-- **C89**: the triangle of C80 lies in the plane `z = 0` and is its own image in this plane. The electron starts in this plane, moving along it, and is traced to the boundary. -/
theorem C89_example (G : Geo V3) : (∀ s, SameProblem mirrorZ (fun i => i) plateExc plateExc s) ∧ Valid plateExc.mesh ∧ plateExc.types.keys.Nodup ∧ plateExc.symmetry = .threeD ∧ plateExc.hasCurrent = false ∧
    (∃ p ∈ plateExc.mesh.points, p.y ≠ 0) ∧ plateExc.mesh.lineCols = 2 ∧ NoInterfaces plateExc ∧ plateExc.isMagnetostatic = false ∧
    (∃ env f, FaithfulEnv env plateExc ∧ plateExc.solveField G env = some f) ∧ mirrorZ.move ⟨5, 7, 0⟩ = ⟨5, 7, 0⟩ ∧ mirrorZ.lin ⟨3, 4, 0⟩ = ⟨3, 4, 0⟩ := by
  have hid : plateMesh.points.map mirrorZ.move = plateMesh.points := by
    simp [plateMesh, mirrorZ_move]
  obtain ⟨env, env', f, h1, h2, h3, h4, h5, h6, h7, -, h8, h9⟩ := C81_example G RigidMotion.id id ⟨⟨1, 1, 0⟩, by simp [plateMesh], by rw [RigidMotion.id_move]; norm_num⟩
  refine ⟨fun s => ⟨fun i hi hx => ⟨hi, hx⟩, fun i j _ _ _ _ h => h, fun j hj hx => ⟨j, hj, hx, rfl⟩, ?_, ?_⟩, h1, h2, h3, h4, h6, h5, h8, rfl, ⟨env, f, h7, h9⟩, ?_, ?_⟩
  · intro i t hi hx ht
    have hi0 : i = 0 := by
      have : i < 1 := hi
      omega
    subst hi0
    have : t = ⟨⟨0, 0, 0⟩, ⟨2, 0, 0⟩, ⟨1, 1, 0⟩⟩ := by
      have : ((plateExc.mesh.triangles[0]?).bind (triVerts plateExc.mesh.points)) = some ⟨⟨0, 0, 0⟩, ⟨2, 0, 0⟩, ⟨1, 1, 0⟩⟩ := rfl
      rw [this] at ht
      exact (Option.some.inj ht).symm
    subst this
    rw [ht]
    congr 1
    unfold RigidMotion.tri
    simp [mirrorZ_move]
  · intro i n n' tv tv' hd ht hd' ht'
    have e1 : ∀ n tv, plateExc.types.get n = some tv → tv = (.voltageFixed, .num 10) := by
      intro n tv h
      have := Dict.mem_of_get h
      simp [plateExc] at this
      exact this.2
    rw [e1 n tv ht, e1 n' tv' ht']
    exact ⟨rfl, rfl⟩
  · rw [mirrorZ_move]; simp
  · simp [mirrorZ]

/-- **C89**: an electron on the axis is traced through a box without charges. -/
example : ∃ fuel rows, (PyObj.radial ⟨.empty2d, .empty2d, .empty3d, none⟩).trace none 1 1 ((-1, 1), (-1, 1), (-1, 1)) 1e-10 100 fuel 0 ⟨0, 0, 1000⟩ = some rows := by
  have hz : ∀ y, tracerRadialForce ⟨.empty2d, .empty2d, .empty3d, none⟩ none y = 0 := by
    intro y
    rw [tracerRadialForce_eq]
    have a : currentField y.pos EffCharges.empty3d = 0 := by
      unfold currentField fromRadial EffCharges.loop EffCharges.empty3d
      split <;> ext <;> simp
    have b : fieldRadial y.pos EffCharges.empty2d = 0 := by
      unfold fieldRadial fromRadial EffCharges.loopSub EffCharges.empty2d
      split <;> ext <;> simp
    simp only [a, b]
    ext <;> simp [V3.cross]
  have hd : 0 < V3.dot ⟨0, 0, 1⟩ (convertVelocityToSI 1 1 ⟨0, 0, 1000⟩) := by
    obtain ⟨s, hs, he⟩ := ((C50_velocity 1 1 one_pos one_pos 1000 ⟨0, 0, 1⟩).2 ⟨0, 0, 1000⟩ (by
      unfold velocityVec
      rw [if_pos ⟨by norm_num, by simp [V3.ext_iff]⟩]
      simp [V3.norm, V3.dot]
      ext <;> simp)).2
    rw [he]
    simp [V3.dot, hs]
  obtain ⟨fuel, rows, h⟩ := C79_leaves (tracerRadialForce ⟨.empty2d, .empty2d, .empty3d, none⟩ none) ((-1, 1), (-1, 1), (-1, 1)) 1e-10 (by norm_num) 100 (by norm_num) 0 (convertVelocityToSI 1 1 ⟨0, 0, 1000⟩) ⟨0, 0, 1⟩
    (by simp [V3.norm, V3.dot]) 0 0 1 le_rfl (fun y => by rw [hz]; simp [V3.norm, V3.dot]) (fun y => by rw [hz]; simp [V3.dot]) (fun p hp => by
      unfold InBox at hp
      simp [V3.dot]
      linarith [hp.2.2.2]) hd (by nlinarith)
  exact ⟨fuel, rows, h⟩

end Traceon
