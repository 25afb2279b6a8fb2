import Verif.Props.Extremes
import Verif.Props.VacuumRadial3

/-!
# C113: solved problems with radial symmetry
-/
namespace Traceon
open Spec Excitation V3 Real

/-- **C113**, solved problems with radial symmetry. In a closed and bounded region without a point of the surfaces of revolution of the excited lines, the potential
that the methods return exceeds all of its values on the boundary, or is below all of them, by no more than the error of the elliptic integrals at two points. -/
theorem C113_radial_solved {G : Geo V3} (hG : G.Lawful) {m : Mesh V3} (hv : Valid m) {inXZ : V3 → Bool} (hxz : ∀ p, inXZ p = true ↔ p.y = 0) {x0 x x' : Excitation ℝ V3}
    (h0 : Excitation.new m .radial inXZ = some x0) (cs : List (Excitation.Call ℝ V3)) (hx : x = x0.calls G cs) (hx' : x.upgraded G = some x') {env : SolveEnv} (he : FaithfulEnv env x')
    (hplane : ∀ e ∈ x'.mesh.lines, ∀ l, toLine4 (coords x'.mesh.points e) = some l → 0 ≤ (elemPoint l 0).x) {f : PyObj}
    (hf : x.solveField G env = some f) {K : Set (ℝ × ℝ × ℝ)} (hK : IsCompact K) :
    ∃ F, f = .radial F ∧
      ((∀ v ∈ K, OffSourcesRadial x' .electrostatic (pt v)) → ∃ u : V3 → ℝ, (∀ q, f.electrostaticPotential q = some (u q)) ∧
        let err := fun v : ℝ × ℝ × ℝ => 4e-13 * absSuperpose (fun q => ringPotential q.1 q.2 (pt v)) F.elec
        ∀ v ∈ K, ∃ a ∈ frontier K, ∃ b ∈ frontier K, u (pt a) - (err a + err v) ≤ u (pt v) ∧ u (pt v) ≤ u (pt b) + (err b + err v)) ∧
      ((∀ v ∈ K, OffSourcesRadial x' .magnetostatic (pt v)) → ∃ u : V3 → ℝ, (∀ q, f.magnetostaticPotential q = some (u q)) ∧
        let err := fun v : ℝ × ℝ × ℝ => 4e-13 * absSuperpose (fun q => ringPotential q.1 q.2 (pt v)) F.mag
        ∀ v ∈ K, ∃ a ∈ frontier K, ∃ b ∈ frontier K, u (pt a) - (err a + err v) ≤ u (pt v) ∧ u (pt v) ≤ u (pt b) + (err b + err v)) := by
  obtain ⟨-, F, rfl, h1, h2, h3, h4⟩ := C80_radial hG hv hxz h0 cs hx hx' he hplane hf
  have hE : ∀ p, OffSourcesRadial x' .electrostatic p → ClearOfRings (trim F.elec) p := by
    intro p hp row hr
    obtain ⟨k1, k2⟩ := trim_positions hr
    cases hs : x.isElectrostatic with
    | true => exact off_of_solves (h1 hs) hp row k2
    | false => rw [h2 hs] at k1; cases k1
  have hM : ∀ p, OffSourcesRadial x' .magnetostatic p → ClearOfRings (trim F.mag) p := by
    intro p hp row hr
    obtain ⟨k1, k2⟩ := trim_positions hr
    cases hs : x.isMagnetostatic with
    | true => exact off_of_solves (h3 hs).2 hp row k2
    | false => rw [(h4 hs).1] at k1; cases k1
  refine ⟨F, rfl, fun h => ?_, fun h => ?_⟩
  · obtain ⟨-, u, hu, hall⟩ := C113_radial ⟨trim F.elec, trim F.mag, trim F.cur, none⟩ hK fun v hv => hE _ (h v hv)
    refine ⟨u, fun q => by rw [← hu q]; exact congrArg some (trim_potential F.elec q).symm, ?_⟩
    intro err v hv
    have := (hall v hv).2
    simpa only [trim_abs] using this
  · obtain ⟨u, hu, hall⟩ := C113_radial_magnetic ⟨trim F.elec, trim F.mag, trim F.cur, none⟩ hK fun v hv => hM _ (h v hv)
    refine ⟨u, fun q => by rw [← hu q]; exact congrArg some (trim_potential F.mag q).symm, ?_⟩
    intro err v hv
    have := hall v hv
    simpa only [trim_abs] using this

end Traceon
