import Verif.Props.Vacuum
import Verif.Props.SolveField3

/-! # C93: solved three dimensional problems -/
namespace Traceon
open Spec Excitation V3

namespace Vac

theorem nothing {e : EffCharges V3} (h : ¬e.len > 0) (p : V3) : Harmonic (fun q => potential3d q e) p ∧ VacuumField (fun q => field3d q e) p := by
  have h1 : ∀ q, potential3d q e = 0 := fun q => loop_of_empty e h _
  have h2 : ∀ q, field3d q e = 0 := by
    intro q
    unfold field3d
    simp only [EffCharges.loopSub_loop, loop_of_empty e h]
    ext <;> simp
  have c := IsGradient.const 0 p
  constructor
  · refine ⟨fun _ => 0, 1, 0, 0, 0, one_pos, fun q _ => (IsGradient.const 0 q).congr (fun r => (h1 r).symm), c, c, c, by simp⟩
  · exact ⟨0, 0, 0, c.congr (fun q => by beta_reduce; rw [h2]; rfl), c.congr (fun q => by beta_reduce; rw [h2]; rfl), c.congr (fun q => by beta_reduce; rw [h2]; rfl), by simp, by simp, by simp, by simp⟩

theorem quad_on (t : Tri3) {p : V3} (h : p ∈ posRow t) : OnTri t.v0 t.v1 t.v2 p := by
  unfold posRow at h
  obtain ⟨g, hg, e⟩ := List.mem_map.1 h
  have key : ∀ q ∈ quadRule, 0 ≤ q.2.1 ∧ 0 ≤ q.2.2 ∧ q.2.1 + q.2.2 ≤ 1 := by
    intro q hq
    simp only [quadRule, List.mem_cons, List.not_mem_nil, or_false] at hq
    rcases hq with rfl | rfl | rfl | rfl | rfl | rfl | rfl | rfl | rfl | rfl | rfl | rfl <;> norm_num
  obtain ⟨k1, k2, k3⟩ := key g hg
  refine ⟨g.2.1, g.2.2, k1, k2, k3, ?_⟩
  rw [← e]
  ext <;> simp

theorem off {x : Excitation ℝ V3} {s : Statics} {e : EffCharges V3} (hs : Solves3d x s e) {p : V3} (hp : OffSources x s p) :
    ∀ row ∈ e.positions, p ∉ row := by
  obtain ⟨idx, ts, q, rfl, hl, _, _, hidx, hk⟩ := hs
  intro row hr hm
  obtain ⟨t, ht, rfl⟩ := List.mem_map.1 hr
  obtain ⟨k, hk'⟩ := List.getElem?_of_mem ht
  have hkl := (List.getElem?_eq_some_iff.1 hk').1
  have hi : idx[k]? = some (idx[k]'(by omega)) := List.getElem?_eq_getElem (by omega)
  obtain ⟨⟨t', h1, h2⟩, _⟩ := hk k _ hi
  rw [hk'] at h2
  cases h2
  exact hp _ t h1 ((hidx _).1 (List.mem_of_getElem? hi)).2 (quad_on t hm)

end Vac

/-- **C93**, solved problems. Take any valid three dimensional mesh, any sequence of calls that builds an excitation on it, and let `solve_direct`
return. At every point that lies on none of the triangles with an electrostatic excitation, the electrostatic field has divergence zero and curl zero
and the potential satisfies Laplace's equation; likewise for the magnetostatic field. -/
theorem C93_solved {G : Geo V3} {m : Mesh V3} (hv : Valid m) {inXZ : V3 → Bool} {x0 x : Excitation ℝ V3} (h0 : Excitation.new m .threeD inXZ = some x0)
    (cs : List (Excitation.Call ℝ V3)) (hx : x = x0.calls G cs) (h3d : ∃ p ∈ m.points, p.y ≠ 0) {env : SolveEnv} (he : FaithfulEnv env x) {f : PyObj}
    (hf : x.solveField G env = some f) :
    (∃ φ E, (∀ q, f.electrostaticPotential q = some (φ q)) ∧ (∀ q, f.electrostaticField q = some (E q)) ∧
      ∀ p, OffSources x .electrostatic p → Harmonic φ p ∧ VacuumField E p) ∧
    (∃ φ H, (∀ q, f.magnetostaticPotential q = some (φ q)) ∧ (∀ q, f.magnetostaticField q = some (H q)) ∧
      ∀ p, OffSources x .magnetostatic p → Harmonic φ p ∧ VacuumField H p) := by
  obtain ⟨F, rfl, h1, h2, h3, h4⟩ := C80_threeD hv h0 cs hx h3d he hf
  refine ⟨⟨_, _, fun _ => rfl, fun _ => rfl, fun p hp => ?_⟩, ⟨_, _, fun _ => rfl, fun _ => rfl, fun p hp => ?_⟩⟩
  · cases hE : x.isElectrostatic with
    | true => exact ⟨harmonic_potential _ p (Vac.off (h1 hE) hp), vacuum_field _ p (Vac.off (h1 hE) hp)⟩
    | false => exact Vac.nothing (by rw [h2 hE]; simp) p
  · cases hE : x.isMagnetostatic with
    | true => exact ⟨harmonic_potential _ p (Vac.off (h3 hE) hp), vacuum_field _ p (Vac.off (h3 hE) hp)⟩
    | false => exact Vac.nothing (by rw [h4 hE]; simp) p

/-- The hypotheses are met by the triangle at 10 V of `C80_example`, and the point `(1, 0, 1)` above it lies on no triangle. -/
theorem C93_example (G : Geo V3) : ∃ x0 x env f, Valid plateMesh ∧ Excitation.new plateMesh .threeD (fun _ => true) = some x0 ∧
    x = x0.calls G [.voltage [("plate", .num 10)]] ∧ FaithfulEnv env x ∧ x.solveField G env = some f ∧ OffSources x .electrostatic ⟨1, 0, 1⟩ ∧
    ¬ OffSources x .electrostatic ⟨1, 0, 0⟩ := by
  obtain ⟨x0, x, env, f, hv, h0, hx, h3, he, hf⟩ := C80_example G (fun _ => true)
  have hx0 : x0 = { mesh := plateMesh, electrodes := ["plate"], symmetry := .threeD } := by
    have : Excitation.new plateMesh .threeD (fun _ => true) = some ({ mesh := plateMesh, electrodes := ["plate"], symmetry := .threeD } : Excitation ℝ V3) := by
      unfold Excitation.new
      rw [if_neg (by simp)]
      rfl
    rw [this] at h0
    exact (Option.some.inj h0).symm
  have hxe : x = plateExc := by rw [hx, hx0]; rfl
  refine ⟨x0, x, env, f, hv, h0, hx, he, hf, ?_, ?_⟩
  · rw [hxe]
    intro i t ht _
    have : i = 0 := by
      cases hi : plateExc.mesh.triangles[i]? with
      | none => rw [hi] at ht; cases ht
      | some e =>
        have := (List.getElem?_eq_some_iff.1 hi).1
        simp [plateExc, plateMesh] at this
        exact this
    subst this
    have ht' : (⟨⟨0, 0, 0⟩, ⟨2, 0, 0⟩, ⟨1, 1, 0⟩⟩ : Tri3) = t := by
      simpa [plateExc, plateMesh, triVerts] using ht
    subst ht'
    rintro ⟨u, v, _, _, _, e⟩
    have := congrArg V3.z e
    simp at this
  · intro h
    rw [hxe] at h
    refine h 0 ⟨⟨0, 0, 0⟩, ⟨2, 0, 0⟩, ⟨1, 1, 0⟩⟩ (by simp [plateExc, plateMesh, triVerts]) ?_ ⟨1 / 2, 0, by norm_num, by norm_num, by norm_num, by ext <;> simp⟩
    exact ⟨"plate", [0], _, rfl, by simp, rfl, rfl⟩

end Traceon
