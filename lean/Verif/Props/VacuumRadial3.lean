import Verif.Props.VacuumRadial2
import Verif.Props.Coil
import Verif.Props.SolveField2
import Verif.Props.MatrixRadial
import Verif.Props.Similar7
import Verif.Props.FewLines

/-! # Solved radially symmetric problems satisfy the vacuum equations (C109) -/
namespace Traceon
open Real Spec V3 Excitation

namespace Spec

/-- `p` lies on none of the surfaces of revolution of the lines that carry an excitation of the kind `s`; these lines do not touch the axis. -/
def OffSourcesRadial (x : Excitation ℝ V3) (s : Statics) (p : V3) : Prop :=
  ∀ (i : Nat) (a b c d : Nat) (l : Line4), x.mesh.lines[i]? = some [a, b, c, d] → x.mesh.points[a]? = some l.l0 → x.mesh.points[b]? = some l.l1 →
    x.mesh.points[c]? = some l.l2 → x.mesh.points[d]? = some l.l3 → Excited x s i →
    ∀ α : ℝ, -1 ≤ α → α ≤ 1 → 0 < (elemPoint l α).x ∧ OffRing p (elemPoint l α).x (elemPoint l α).z

/-- `p` lies in none of the rings swept by the triangles of the coils; these are at a distance of at least `1e-10` from the axis. -/
def ClearOfCoils (x : Excitation ℝ V3) (p : V3) : Prop :=
  ∀ n v is, (n, ExcType.current, v) ∈ x.types → x.mesh.physTris.get n = some is → ∀ i ∈ is, ∀ t, triangle x.mesh i = some t →
    ∀ q, InTriangle3 t q → 1e-10 ≤ q.x ∧ OffRing p q.x q.z

end Spec

/-- The current flows in the triangles of the coils. -/
theorem currentCharges_inside {x : Excitation ℝ V3} {e : EffCharges V3} (h : x.currentCharges = some e) :
    ∀ row ∈ e.positions, ∀ q ∈ row, ∃ n v is i t, (n, ExcType.current, v) ∈ x.types ∧ x.mesh.physTris.get n = some is ∧ i ∈ is ∧ triangle x.mesh i = some t ∧ InTriangle3 t q := by
  unfold Excitation.currentCharges at h
  split at h
  · cases h; simp [EffCharges.empty3d]
  · simp only [Option.bind_eq_bind, Option.bind_eq_some_iff] at h
    obtain ⟨verts, hverts, ⟨c, j, p⟩, hf, h⟩ := h
    have key : ∀ (l : List (String × ExcType × ExcVal ℝ V3)) (s s' : List ℝ × List (List ℝ) × List (List V3)), (∀ nv ∈ l, nv ∈ x.types) →
        l.foldlM (x.currentStep (verts.map jacRow) (verts.map posRow)) s = some s' →
        (∀ row ∈ s.2.2, ∀ q ∈ row, ∃ n v is i t, (n, ExcType.current, v) ∈ x.types ∧ x.mesh.physTris.get n = some is ∧ i ∈ is ∧ triangle x.mesh i = some t ∧ InTriangle3 t q) →
        (∀ row ∈ s'.2.2, ∀ q ∈ row, ∃ n v is i t, (n, ExcType.current, v) ∈ x.types ∧ x.mesh.physTris.get n = some is ∧ i ∈ is ∧ triangle x.mesh i = some t ∧ InTriangle3 t q) := by
      intro l
      induction l with
      | nil => intro s s' _ h1 h2; simp only [List.foldlM_nil, Option.pure_def, Option.some.injEq] at h1; rw [← h1]; exact h2
      | cons nv l ih =>
        intro s s' hl h1 h2
        rw [List.foldlM_cons, Option.bind_eq_bind, Option.bind_eq_some_iff] at h1
        obtain ⟨s1, h3, h4⟩ := h1
        refine ih s1 s' (fun nv h => hl nv (by simp [h])) h4 ?_
        unfold Excitation.currentStep at h3
        split at h3
        · rename_i hc
          simp only [Option.bind_eq_bind, Option.bind_eq_some_iff] at h3
          obtain ⟨is, his, h3⟩ := h3
          split at h3
          · simp only [Option.pure_def, Option.some.injEq] at h3; rw [← h3]; exact h2
          · simp only [Option.bind_eq_some_iff, Option.pure_def, Option.bind_eq_bind] at h3
            obtain ⟨jj, hj, pp, hp, h3⟩ := h3
            split at h3
            · simp only [Option.some.injEq] at h3
              rw [← h3]
              intro row hr q hq
              rcases List.mem_append.1 hr with hr | hr
              · exact h2 row hr q hq
              · obtain ⟨k, hk⟩ := List.mem_iff_getElem?.1 hr
                have hg := gather_getElem? hp k
                rw [hk] at hg
                cases hi : is[k]? with
                | none => rw [hi] at hg; cases hg
                | some i =>
                  rw [hi] at hg
                  simp only [Option.bind_some, List.getElem?_map] at hg
                  cases ht : verts[i]? with
                  | none => rw [ht] at hg; cases hg
                  | some t =>
                    rw [ht] at hg
                    simp only [Option.map_some, Option.some.injEq] at hg
                    refine ⟨nv.1, nv.2.2, is, i, t, ?_, his, List.mem_of_getElem? hi, (triVerts_spec hverts i).trans ht, (posRow_inside t).2 q (hg ▸ hq)⟩
                    rw [← hc.1]; exact hl nv (by simp)
            · cases h3
        · simp only [Option.pure_def, Option.some.injEq] at h3; rw [← h3]; exact h2
    have hp := key x.types _ _ (fun _ h => h) hf (by simp)
    simp only at hp h
    split at h
    · cases h; simp [EffCharges.empty3d]
    · unfold EffCharges.new at h
      split at h
      · cases h; exact hp
      · cases h

theorem gauss_range : ∀ g ∈ gaussRule, -1 ≤ g.2 ∧ g.2 ≤ 1 := by
  intro g hg
  simp only [gaussRule, List.mem_cons, List.not_mem_nil, or_false] at hg
  rcases hg with rfl | rfl | rfl | rfl | rfl | rfl | rfl | rfl | rfl | rfl | rfl | rfl | rfl | rfl | rfl | rfl <;> norm_num

theorem off_of_solves {x : Excitation ℝ V3} {s : Statics} {coils : EffCharges V3} {e : EffCharges (ℝ × ℝ)} {T : Int} (h : SolvesRadialOn T x s coils e) {p : V3} (hp : OffSourcesRadial x s p) :
    ClearOfRings e p := by
  obtain ⟨idx, ls, q, rfl, h1, h2, h3, h4, h5⟩ := h
  intro row hr t ht
  simp only [lineCharges, List.mem_map] at hr
  obtain ⟨l, hl, rfl⟩ := hr
  obtain ⟨k, hk⟩ := List.mem_iff_getElem?.1 hl
  have hkl : k < idx.length := by rw [← h1]; exact (List.getElem?_eq_some_iff.1 hk).1
  have hi := List.getElem?_eq_getElem hkl
  obtain ⟨⟨a, b, c, d, l', m1, m2, m3, m4, m5, m6⟩, -⟩ := h5 k _ hi
  rw [hk] at m6; cases m6
  simp only [linePosRow, List.mem_map] at ht
  obtain ⟨g, hg, rfl⟩ := ht
  rw [elemPoint_linePos]
  exact hp _ a b c d l m1 m2 m3 m4 m5 ((h4 _).1 (List.getElem_mem hkl)).2 g.2 (gauss_range g hg).1 (gauss_range g hg).2

/-- The same charges; without positions if there are none. -/
def trim {P : Type} (e : EffCharges P) : EffCharges P := if e.charges = [] then ⟨e.nquad, [], [], []⟩ else e

theorem trim_zip {P : Type} (e : EffCharges P) : (trim e).charges.zip ((trim e).jacobians.zip (trim e).positions) = e.charges.zip (e.jacobians.zip e.positions) := by
  unfold trim
  split
  · rename_i h; rw [h]; simp
  · rfl

theorem trim_loop {P : Type} (e : EffCharges P) (f : P → ℝ) : (trim e).loop f = e.loop f := by unfold EffCharges.loop; rw [trim_zip]
theorem trim_loopSub {P : Type} (e : EffCharges P) (f : P → ℝ) : (trim e).loopSub f = e.loopSub f := by unfold EffCharges.loopSub; rw [trim_zip]
theorem trim_abs {P : Type} (e : EffCharges P) (f : P → ℝ) : absSuperpose f (trim e) = absSuperpose f e := by unfold absSuperpose; rw [trim_zip]
theorem trim_field (e : EffCharges (ℝ × ℝ)) (p : V3) : fieldRadial p (trim e) = fieldRadial p e := by unfold fieldRadial; rw [trim_loopSub, trim_loopSub]
theorem trim_potential (e : EffCharges (ℝ × ℝ)) (p : V3) : potentialRadial p (trim e) = potentialRadial p e := by unfold potentialRadial; rw [trim_loop]
theorem trim_current (e : EffCharges V3) (p : V3) : currentField p (trim e) = currentField p e := by unfold currentField; rw [trim_loop, trim_loop]
theorem trim_positions {P : Type} {e : EffCharges P} {row : List P} (h : row ∈ (trim e).positions) : 0 < e.len ∧ row ∈ e.positions := by
  unfold trim at h
  split at h
  · cases h
  · rename_i hc; exact ⟨List.length_pos_iff.2 hc, h⟩

/-- **C109** (solved problems). The field that `solve_direct` returns for a radially symmetric problem differs by no more than the accuracy of the elliptic integrals from
fields that satisfy the vacuum equations at every point off the elements with an excitation, off the coils and not (nearly) on the axis. -/
theorem C109_solved {G : Geo V3} (hG : G.Lawful) {m : Mesh V3} (hv : Valid m) {inXZ : V3 → Bool} (hxz : ∀ p, inXZ p = true ↔ p.y = 0) {x0 x x' : Excitation ℝ V3}
    (h0 : Excitation.new m .radial inXZ = some x0) (cs : List (Excitation.Call ℝ V3)) (hx : x = x0.calls G cs) (hx' : x.upgraded G = some x') {env : SolveEnv} (he : FaithfulEnv env x')
    (hplane : ∀ e ∈ x'.mesh.lines, ∀ l, toLine4 (coords x'.mesh.points e) = some l → 0 ≤ (elemPoint l 0).x) {f : PyObj}
    (hf : x.solveField G env = some f) :
    ∃ F, f = .radial F ∧ ∃ φ E ψ H, ∀ p, 1e-10 < axisDist p →
      (OffSourcesRadial x' .electrostatic p → Harmonic φ p ∧ VacuumField E p ∧ IsGradient φ (-E p) p ∧ ∃ u A,
        f.electrostaticPotential p = some u ∧ f.electrostaticField p = some A ∧
        |u - φ p| ≤ 4e-13 * absSuperpose (fun q => ringPotential q.1 q.2 p) F.elec ∧ V3.norm (A - E p) ≤ ringsError F.elec p) ∧
      (OffSourcesRadial x' .magnetostatic p → Harmonic ψ p ∧ ∃ u, f.magnetostaticPotential p = some u ∧
        |u - ψ p| ≤ 4e-13 * absSuperpose (fun q => ringPotential q.1 q.2 p) F.mag) ∧
      (OffSourcesRadial x' .magnetostatic p → ClearOfCoils x' p → VacuumField H p ∧ ∃ A,
        f.magnetostaticField p = some A ∧ V3.norm (A - H p) ≤ ringsError F.mag p + loopsError F.cur p) := by
  obtain ⟨-, F, rfl, h1, h2, h3, h4⟩ := C80_radial hG hv hxz h0 cs hx hx' he hplane hf
  refine ⟨F, rfl, ?_⟩
  obtain ⟨φ, E, ψ, H, h⟩ := C109_methods ⟨trim F.elec, trim F.mag, trim F.cur, none⟩
  have hE : ∀ p, OffSourcesRadial x' .electrostatic p → ClearOfRings (trim F.elec) p := by
    intro p hp row hr
    obtain ⟨k1, k2⟩ := trim_positions hr
    cases hs : x.isElectrostatic with
    | true => exact off_of_solves (h1 hs) hp row k2
    | false => rw [h2 hs] at k1; cases k1
  have hM : ∀ p, OffSourcesRadial x' .magnetostatic p → ClearOfRings (trim F.mag) p := by
    intro p hp row hr
    obtain ⟨k1, k2⟩ := trim_positions hr
    cases hs : x.isMagnetostatic with
    | true => exact off_of_solves (h3 hs).2 hp row k2
    | false => rw [(h4 hs).1] at k1; cases k1
  have hC : ∀ p, ClearOfCoils x' p → ClearOfLoops (trim F.cur) p := by
    intro p hp row hr q hq
    obtain ⟨k1, k2⟩ := trim_positions hr
    cases hs : x.isMagnetostatic with
    | true =>
      obtain ⟨n, v, is, i, t, m1, m2, m3, m4, m5⟩ := currentCharges_inside (h3 hs).1 row k2 q hq
      exact hp n v is m1 m2 i m3 t m4 q m5
    | false => rw [(h4 hs).2] at k1; cases k1
  refine ⟨φ, E, ψ, H, fun p hax => ?_⟩
  obtain ⟨g1, g2, g3⟩ := h p hax
  refine ⟨fun hp => ?_, fun hp => ?_, fun hp hc => ?_⟩
  · obtain ⟨a1, a2, a3, u, A, a4, a5, a6, a7⟩ := g1 (hE p hp)
    refine ⟨a1, a2, a3, u, A, ?_, ?_, ?_, ?_⟩
    · rw [← a4]; exact congrArg some (trim_potential F.elec p).symm
    · rw [← a5]; exact congrArg some (trim_field F.elec p).symm
    · rw [trim_abs] at a6; exact a6
    · unfold ringsError at *; rw [trim_abs] at a7; exact a7
  · obtain ⟨a1, u, a4, a6⟩ := g2 (hM p hp)
    refine ⟨a1, u, ?_, ?_⟩
    · rw [← a4]; exact congrArg some (trim_potential F.mag p).symm
    · rw [trim_abs] at a6; exact a6
  · obtain ⟨a1, A, a4, a6⟩ := g3 (hM p hp) (hC p hc)
    refine ⟨a1, A, ?_, ?_⟩
    · rw [← a4]; simp only [PyObj.magnetostaticField, trim_current, trim_field]
    · unfold ringsError loopsError at *; rw [trim_abs, trim_abs] at a6; exact a6

/-- The two discs of `C80_example_radial` meet the hypotheses of `C109_solved`; the point `(5, 0, 3)` is not on them, and the point `(2, 0, 0)` is. -/
theorem C109_example_solved (G : Geo V3) (inXZ : V3 → Bool) (hxz : ∀ p, inXZ p = true ↔ p.y = 0) : ∃ x0 x env f, Valid discMesh ∧ Excitation.new discMesh .radial inXZ = some x0 ∧
    x = x0.calls G [.voltage [("disc", .num 10)], .dielectric [("glass", .num 1)]] ∧ x.upgraded G = some x ∧ FaithfulEnv env x ∧ x.solveField G env = some f ∧
    OffSourcesRadial x .electrostatic ⟨5, 0, 3⟩ ∧ 1e-10 < axisDist ⟨5, 0, 3⟩ ∧ ClearOfCoils x ⟨5, 0, 3⟩ := by
  obtain ⟨x0, x, env, f, h1, h2, h3, h4, h5, -, -, h6⟩ := C80_example_radial G inXZ hxz
  have hnew : Excitation.new discMesh .radial inXZ = some ({ mesh := discMesh, electrodes := ["disc", "glass"], symmetry := .radial } : Excitation ℝ V3) := by
    unfold Excitation.new
    rw [if_neg (by simp [discMesh, hxz])]
    rfl
  have hx0 := h2.symm.trans hnew
  cases hx0
  have hx : x = discExc := h3
  refine ⟨_, x, env, f, h1, h2, h3, h4, h5, h6, ?_, ?_, ?_⟩
  · rw [hx]
    intro i a b c d l hl ha hb hc hd _ α m1 m2
    have key : ∃ z : ℝ, z ≤ 1 ∧ l = ⟨⟨1, 0, z⟩, ⟨4, 0, z⟩, ⟨2, 0, z⟩, ⟨3, 0, z⟩⟩ := by
      match i, hl with
      | 0, hl =>
        cases (Option.some.inj hl : [0, 1, 2, 3] = [a, b, c, d])
        refine ⟨0, by norm_num, ?_⟩
        cases l; simp only [discExc, discMesh] at ha hb hc hd
        cases ha; cases hb; cases hc; cases hd; rfl
      | 1, hl =>
        cases (Option.some.inj hl : [4, 5, 6, 7] = [a, b, c, d])
        refine ⟨1, le_rfl, ?_⟩
        cases l; simp only [discExc, discMesh] at ha hb hc hd
        cases ha; cases hb; cases hc; cases hd; rfl
      | i + 2, hl => simp [discExc, discMesh] at hl
    obtain ⟨z, hz, rfl⟩ := key
    have e1 : (elemPoint ⟨⟨1, 0, z⟩, ⟨4, 0, z⟩, ⟨2, 0, z⟩, ⟨3, 0, z⟩⟩ α).x = (5 + 3 * α) / 2 := by simp [elemPoint]; ring
    have e2 : (elemPoint ⟨⟨1, 0, z⟩, ⟨4, 0, z⟩, ⟨2, 0, z⟩, ⟨3, 0, z⟩⟩ α).z = z := by simp [elemPoint]; ring
    rw [e1, e2]
    refine ⟨by linarith, fun t ht => ?_⟩
    have := congrArg V3.z ht
    simp [ringPoint] at this
    linarith
  · unfold axisDist
    rw [show (5 : ℝ) ^ 2 + 0 ^ 2 = 5 ^ 2 by norm_num, Real.sqrt_sq (by norm_num)]; norm_num
  · rw [hx]
    intro n v is hm
    simp [discExc] at hm

end Traceon
