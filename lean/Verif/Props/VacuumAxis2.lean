import Verif.Props.VacuumAxis

/-!
# C109 for solved problems, at all points
-/
namespace Traceon
open Spec Excitation V3 Real

/-- **C109** (solved problems, all points). The field that `solve_direct` returns for a radially symmetric problem approximates fields that satisfy the vacuum equations at every
point off the elements with an excitation and off the coils, on the axis too; the values returned on the axis differ from these fields by no more than the accuracy of the
elliptic integrals. -/
theorem C109_solved_everywhere {G : Geo V3} (hG : G.Lawful) {m : Mesh V3} (hv : Valid m) {inXZ : V3 → Bool} (hxz : ∀ p, inXZ p = true ↔ p.y = 0) {x0 x x' : Excitation ℝ V3}
    (h0 : Excitation.new m .radial inXZ = some x0) (cs : List (Excitation.Call ℝ V3)) (hx : x = x0.calls G cs) (hx' : x.upgraded G = some x') {env : SolveEnv} (he : FaithfulEnv env x')
    (hplane : ∀ e ∈ x'.mesh.lines, ∀ l, toLine4 (coords x'.mesh.points e) = some l → 0 ≤ (elemPoint l 0).x) {f : PyObj}
    (hf : x.solveField G env = some f) :
    ∃ F, f = .radial F ∧ ∃ φ E ψ H, ∀ p,
      (OffSourcesRadial x' .electrostatic p → Harmonic φ p ∧ VacuumField E p ∧ IsGradient φ (-E p) p ∧ ∃ u A,
        f.electrostaticPotential p = some u ∧ f.electrostaticField p = some A ∧
        |u - φ p| ≤ 4e-13 * absSuperpose (fun q => ringPotential q.1 q.2 p) F.elec ∧
        (1e-10 ≤ axisDist p → V3.norm (A - E p) ≤ ringsError F.elec p) ∧ (p.x = 0 → p.y = 0 → V3.norm (A - E p) ≤ ringsErrorAxis F.elec p)) ∧
      (OffSourcesRadial x' .magnetostatic p → Harmonic ψ p ∧ ∃ u, f.magnetostaticPotential p = some u ∧
        |u - ψ p| ≤ 4e-13 * absSuperpose (fun q => ringPotential q.1 q.2 p) F.mag) ∧
      (OffSourcesRadial x' .magnetostatic p → ClearOfCoils x' p → VacuumField H p ∧ ∃ A, f.magnetostaticField p = some A ∧
        (1e-10 < axisDist p → V3.norm (A - H p) ≤ ringsError F.mag p + loopsError F.cur p) ∧
        (p.x = 0 → p.y = 0 → V3.norm (A - H p) ≤ ringsErrorAxis F.mag p + loopsErrorAxis F.cur p)) := by
  obtain ⟨-, F, rfl, h1, h2, h3, h4⟩ := C80_radial hG hv hxz h0 cs hx hx' he hplane hf
  refine ⟨F, rfl, ?_⟩
  have hE : ∀ p, OffSourcesRadial x' .electrostatic p → ClearOfRings (trim F.elec) p := by
    intro p hp row hr
    obtain ⟨k1, k2⟩ := trim_positions hr
    cases hs : x.isElectrostatic with
    | true => exact off_of_solves (h1 hs) hp row k2
    | false => rw [h2 hs] at k1; cases k1
  have hM : ∀ p, OffSourcesRadial x' .magnetostatic p → ClearOfRings (trim F.mag) p := by
    intro p hp row hr
    obtain ⟨k1, k2⟩ := trim_positions hr
    cases hs : x.isMagnetostatic with
    | true => exact off_of_solves (h3 hs).2 hp row k2
    | false => rw [(h4 hs).1] at k1; cases k1
  have hC : ∀ p, ClearOfCoils x' p → ClearOfLoops (trim F.cur) p := by
    intro p hp row hr q hq
    obtain ⟨k1, k2⟩ := trim_positions hr
    cases hs : x.isMagnetostatic with
    | true =>
      obtain ⟨n, v, is, i, t, m1, m2, m3, m4, m5⟩ := currentCharges_inside (h3 hs).1 row k2 q hq
      exact hp n v is m1 m2 i m3 t m4 q m5
    | false => rw [(h4 hs).2] at k1; cases k1
  refine ⟨ringsPotential (trim F.elec), coulombRings (trim F.elec), ringsPotential (trim F.mag), fun q => coulombRings (trim F.mag) q + loopsField (trim F.cur) q, fun p => ?_⟩
  refine ⟨fun hp => ?_, fun hp => ?_, fun hp hc => ?_⟩
  · obtain ⟨a1, a2, a3⟩ := C109_rings_everywhere (trim F.elec) p (hE p hp)
    have k1 := C75_potential (trim F.elec) p (hE p hp)
    have k2 := C112_field (trim F.elec) p (hE p hp)
    rw [trim_abs, trim_potential] at k1
    unfold ringsError at k2
    rw [trim_abs, trim_abs, trim_field] at k2
    exact ⟨a3, a1, a2, _, _, rfl, rfl, k1, k2.1, k2.2⟩
  · have k1 := C75_potential (trim F.mag) p (hM p hp)
    rw [trim_abs, trim_potential] at k1
    exact ⟨(C109_rings_everywhere (trim F.mag) p (hM p hp)).2.2, _, rfl, k1⟩
  · refine ⟨(C109_rings_everywhere (trim F.mag) p (hM p hp)).1.add (C109_loops_everywhere (trim F.cur) p (hC p hc)), _, rfl, fun hax => ?_, fun hx0 hy0 => ?_⟩
    · have k2 := (C112_field (trim F.mag) p (hM p hp)).1 hax.le
      have k3 := (C109_loops (trim F.cur) p (hC p hc) hax).2
      unfold ringsError at k2 ⊢
      unfold loopsError at k3 ⊢
      rw [trim_abs, trim_field] at k2
      rw [trim_abs, trim_current] at k3
      have e1 : currentField p F.cur + fieldRadial p F.mag - (coulombRings (trim F.mag) p + loopsField (trim F.cur) p) = (fieldRadial p F.mag - coulombRings (trim F.mag) p) + (currentField p F.cur - loopsField (trim F.cur) p) := by
        ext <;> simp <;> ring
      rw [e1]
      exact (norm_add_three _ _).trans (add_le_add k2 k3)
    · obtain ⟨-, A, k1, k2⟩ := (C109_axis ⟨trim F.elec, trim F.mag, trim F.cur, none⟩ p hx0 hy0).2.2 (hM p hp) (hC p hc)
      unfold ringsErrorAxis loopsErrorAxis at *
      rw [trim_abs, trim_abs] at k2
      simp only [PyObj.magnetostaticField, trim_current, trim_field] at k1
      cases k1
      exact k2

end Traceon
