import Verif.Props.SolveField
import Verif.Props.Excitation
import Verif.Props.HigherOrder

/-!
# C80: the field returned by `solve_direct` does what was asked for, from the calls that build the excitation to the returned object
-/
namespace Traceon
open Spec Excitation

namespace EffCharges
variable {P : Type}

theorem new_eq {nq : Nat} {c : List ℝ} {j : List (List ℝ)} {p : List (List P)} {e : EffCharges P} (h : EffCharges.new nq c j p = some e) :
    e = ⟨nq, c, j, p⟩ ∧ e.Wf := by
  unfold EffCharges.new at h
  split at h <;> rename_i hw
  · cases h; exact ⟨rfl, hw⟩
  · cases h

theorem add_nil_right {e : EffCharges P} (hw : e.Wf) {n : Nat} (hn : e.nquad = n) : e.add ⟨n, [], [], []⟩ = some e := by
  obtain ⟨nq, c, j, p⟩ := e
  simp only at hn
  subst hn
  obtain ⟨h1, h2, h3, h4⟩ := hw
  simp only at h1 h2 h3 h4
  unfold EffCharges.add
  simp only [true_and, if_true, List.append_nil]
  split <;> rename_i h
  · obtain ⟨rfl, rfl⟩ := h
    have : c = [] := List.length_eq_zero_iff.1 (by simpa using h1.symm)
    subst this
    unfold EffCharges.new
    rw [if_pos ⟨by simp, by simp, by simp, by simp⟩]
    simp
  · unfold EffCharges.new
    rw [if_pos ⟨h1, h2, h3, h4⟩]

theorem add_nil_left {e : EffCharges P} (hw : e.Wf) {n : Nat} (hn : e.nquad = n) : EffCharges.add ⟨n, [], [], []⟩ e = some e := by
  obtain ⟨nq, c, j, p⟩ := e
  simp only at hn
  subst hn
  obtain ⟨h1, h2, h3, h4⟩ := hw
  simp only at h1 h2 h3 h4
  unfold EffCharges.add
  simp only [true_and, if_true, List.nil_append]
  split <;> rename_i h
  · obtain ⟨rfl, rfl⟩ := h
    have : c = [] := List.length_eq_zero_iff.1 (by simpa using h1.symm)
    subst this
    unfold EffCharges.new
    rw [if_pos ⟨by simp, by simp, by simp, by simp⟩]
    simp
  · unfold EffCharges.new
    rw [if_pos ⟨h1, h2, h3, h4⟩]

end EffCharges

theorem hasCurrent_false {x : Excitation ℝ V3} (h : ∀ n tv, (n, tv) ∈ x.types → tv.1 ≠ .current) : x.hasCurrent = false := by
  unfold hasCurrent
  rw [List.any_eq_false]
  intro nv hnv
  simpa using h nv.1 nv.2 hnv

theorem currentCharges_wf {x : Excitation ℝ V3} {c : EffCharges V3} (h : x.currentCharges = some c) : c.Wf ∧ c.nquad = 12 := by
  unfold currentCharges at h
  split at h
  · cases h; exact ⟨⟨rfl, by simp [EffCharges.empty3d], rfl, by simp [EffCharges.empty3d]⟩, rfl⟩
  · cases h1 : x.mesh.triangles.mapM (triVerts x.mesh.points) with
    | none => rw [h1] at h; cases h
    | some verts =>
      rw [h1] at h
      simp only [Option.bind_eq_bind, Option.bind_some] at h
      cases h2 : x.types.foldlM (x.currentStep (verts.map jacRow) (verts.map posRow)) ([], [], []) with
      | none => rw [h2] at h; cases h
      | some cjp =>
        rw [h2] at h
        simp only [Option.bind_some] at h
        split at h
        · cases h; exact ⟨⟨rfl, by simp [EffCharges.empty3d], rfl, by simp [EffCharges.empty3d]⟩, rfl⟩
        · obtain ⟨e1, e2⟩ := EffCharges.new_eq h
          exact ⟨e2, by rw [e1]⟩

/-- What the two solvers return in three dimensions. -/
theorem solveStatics_tris {x : Excitation ℝ V3} {s : Statics} {env : SolveEnv} {f : PyObj} (hv : Valid x.mesh) (hn : x.types.keys.Nodup) (h3 : x.symmetry = .threeD)
    (hcur : x.hasCurrent = false) (h3d : x.mesh.is2d realThirds = false) (he : FaithfulEnv env x) (hf : x.solveStatics env s = some f) :
    ∃ e, Solves3d x s e ∧ f = toField3d s e := by
  unfold solveStatics at hf
  cases hst : x.solverInit s with
  | none => rw [hst] at hf; cases hf
  | some st =>
    rw [hst] at hf
    simp only [Option.bind_eq_bind, Option.bind_some] at hf
    obtain ⟨idx, hI⟩ := solverInit_spec hv hn hst
    have henv := he.2 s st hst
    cases hel : st.elems with
    | lines ls =>
      have := hI.elems
      rw [hel] at this
      rw [this.1] at h3d; cases h3d
    | tris ts =>
      rw [hel] at henv
      simp only at henv
      have hcoil : st.coils = EffCharges.empty3d := by
        have := hI.coils
        cases s with
        | electrostatic => exact this
        | magnetostatic =>
          simp only at this
          unfold currentCharges at this
          rw [if_pos (Or.inr (by simp [hcur]))] at this
          exact (Option.some.inj this).symm
      unfold SolverState.solve at hf
      cases hq : st.charges env s with
      | none => rw [hq] at hf; cases hf
      | some q =>
        rw [hq, hel] at hf
        simp only [Option.bind_eq_bind, Option.bind_some] at hf
        cases hnew : EffCharges.new 12 q (ts.map jacRow) (ts.map posRow) with
        | none => rw [hnew] at hf; cases hf
        | some e =>
          rw [hnew] at hf
          simp only [Option.map_some] at hf
          obtain ⟨e1, _⟩ := EffCharges.new_eq hnew
          refine ⟨e, ?_, ?_⟩
          · have := solve_tris hv hI hel h3 hcoil he.1 henv.1 henv.2 hq
            rw [e1]
            exact this
          · exact (Option.some.inj hf).symm

/-- What the two solvers return in radial symmetry. -/
theorem solveStatics_lines {x : Excitation ℝ V3} {s : Statics} {env : SolveEnv} {f : PyObj} (hv : Valid x.mesh) (hn : x.types.keys.Nodup) (h2 : x.symmetry = .radial)
    (hho : x.mesh.is2d realThirds = true ∨ x.mesh.isHigherOrder = true) (he : FaithfulEnv env x)
    (henough : (∃ i, i < x.mesh.lines.length ∧ Excited x s i) →
      ∃ idx : List Nat, idx.Nodup ∧ (∀ i ∈ idx, i < x.mesh.lines.length ∧ Excited x s i) ∧ 2 * env.threads ≤ idx.length)
    (hplane : ∀ e ∈ x.mesh.lines, ∀ l, toLine4 (coords x.mesh.points e) = some l → 0 ≤ (elemPoint l 0).x) (hf : x.solveStatics env s = some f) :
    ∃ e coils, e.Wf ∧ e.nquad = 16 ∧ SolvesRadial x s coils e ∧ f = toFieldRadial s coils e ∧
      (s = .electrostatic → coils = .empty3d) ∧ (s = .magnetostatic → x.currentCharges = some coils) := by
  unfold solveStatics at hf
  cases hst : x.solverInit s with
  | none => rw [hst] at hf; cases hf
  | some st =>
    rw [hst] at hf
    simp only [Option.bind_eq_bind, Option.bind_some] at hf
    obtain ⟨idx, hI⟩ := solverInit_spec hv hn hst
    have henv := he.2 s st hst
    cases hel : st.elems with
    | tris ts =>
      have := hI.elems
      rw [hel] at this
      rw [this.1, this.2.1] at hho; simp at hho
    | lines ls =>
      rw [hel] at henv
      simp only at henv
      have hels : x.elements = x.mesh.lines := by unfold Excitation.elements; rw [h2]; rfl
      have hel' := hI.elems
      rw [hel] at hel'
      simp only at hel'
      obtain ⟨h2d, _, hlen, hget⟩ := hel'
      have hpl : ∀ l ∈ ls, InHalfPlane l := by
        intro l hl
        obtain ⟨k, hk⟩ := List.mem_iff_getElem?.1 hl
        have hkl : k < idx.length := by rw [← hlen]; exact (List.getElem?_eq_some_iff.1 hk).1
        have hki := List.getElem?_eq_getElem hkl
        have := hget k _ hki
        rw [hk, hels] at this
        cases hli : x.mesh.lines[idx[k]]? with
        | none => rw [hli] at this; cases this
        | some e =>
          rw [hli, Option.bind_some] at this
          refine ⟨?_, hplane e (List.mem_of_getElem? hli) l this.symm⟩
          have hy : ∀ p ∈ coords x.mesh.points e, p.y = 0 := by
            intro p hp
            unfold coords at hp
            obtain ⟨i, _, hi⟩ := List.mem_filterMap.1 hp
            have := List.all_eq_true.1 h2d p (List.mem_of_getElem? hi)
            simpa [realThirds] using this
          revert this hy
          generalize coords x.mesh.points e = c
          intro this hy
          match c, this with
          | [a, b, c, d], this =>
            cases this
            exact ⟨hy _ (by simp), hy _ (by simp), hy _ (by simp), hy _ (by simp)⟩
      have hen : ls ≠ [] → 2 * env.threads ≤ ls.length := by
        intro hne
        have hpos : 0 < idx.length := by rw [← hlen]; exact List.length_pos_iff.2 hne
        obtain ⟨js, hnd, hmem, hle⟩ := henough ⟨idx[0], by rw [← hels]; exact (hI.mem _).1 (List.getElem_mem hpos)⟩
        have hsub : js ⊆ idx := fun i hi => (hI.mem i).2 (by rw [hels]; exact hmem i hi)
        have := (List.subperm_of_subset hnd hsub).length_le
        rw [hlen]
        have h3 : (js.length : Int) ≤ idx.length := by exact_mod_cast this
        omega
      unfold SolverState.solve at hf
      cases hq : st.charges env s with
      | none => rw [hq] at hf; cases hf
      | some q =>
        rw [hq, hel] at hf
        simp only [Option.bind_eq_bind, Option.bind_some] at hf
        cases hnew : EffCharges.new 16 q (ls.map lineJacRow) (ls.map linePosRow) with
        | none => rw [hnew] at hf; cases hf
        | some e =>
          rw [hnew] at hf
          simp only [Option.map_some] at hf
          obtain ⟨e1, e2⟩ := EffCharges.new_eq hnew
          refine ⟨e, st.coils, e2, by rw [e1], ?_, ?_⟩
          · have := solve_lines hv hI hel h2 he.1 hen hpl henv hq
            rw [e1]
            exact this
          · have hc := hI.coils
            refine ⟨(Option.some.inj hf).symm, ?_, ?_⟩ <;> (rintro rfl; exact hc)

/-- An excitation made by any sequence of calls. -/
theorem calls_facts {G : Geo V3} {m : Mesh V3} (hv : Valid m) {sym : Symmetry} {inXZ : V3 → Bool} {x0 : Excitation ℝ V3}
    (h0 : Excitation.new m sym inXZ = some x0) (cs : List (Excitation.Call ℝ V3)) :
    (x0.calls G cs).symmetry = sym ∧ Valid (x0.calls G cs).mesh ∧ (x0.calls G cs).mesh.points = m.points ∧ (x0.calls G cs).types.keys.Nodup ∧
    (sym = .threeD → (x0.calls G cs).hasCurrent = false) := by
  obtain ⟨a1, a2, a3⟩ := C32_history (G := G) hv h0 cs
  obtain ⟨b1, b2, b3⟩ := C32_boundary_mesh (G := G) hv h0 cs
  refine ⟨?_, b1, b2, a2, ?_⟩
  · have hs0 : x0.symmetry = sym := by
      unfold Excitation.new at h0
      split at h0 <;> cases h0
      rfl
    have hloop : ∀ (acc : String → ExcVal ℝ V3 → Option (ExcType × ExcVal ℝ V3)) (kw : List (String × ExcVal ℝ V3)) (x : Excitation ℝ V3),
        (addLoop acc kw x).1.symmetry = x.symmetry := by
      intro acc kw
      induction kw with
      | nil => intro x; rfl
      | cons a kw ih =>
        intro x
        obtain ⟨n, v⟩ := a
        unfold addLoop
        split
        · rfl
        · rw [ih]
    have hcall : ∀ (x : Excitation ℝ V3) (c : Call ℝ V3), (x.call G c).1.symmetry = x.symmetry := by
      intro x c
      cases c with
      | voltage kw => exact hloop _ _ _
      | current kw =>
        simp only [Excitation.call]
        split
        · exact hloop _ _ _
        · rfl
      | magnetostaticPotential kw => exact hloop _ _ _
      | magnetizable kw => exact hloop _ _ _
      | dielectric kw => exact hloop _ _ _
      | electrostaticBoundary names ensure =>
        simp only [Excitation.call]
        split
        · rfl
        · exact hloop _ _ _
      | magnetostaticBoundary names ensure =>
        simp only [Excitation.call]
        split
        · rfl
        · exact hloop _ _ _
    rw [← hs0]
    clear a1 a2 a3 b1 b2 b3 h0 hs0 hloop
    unfold Excitation.calls
    induction cs generalizing x0 with
    | nil => rfl
    | cons c cs ih => rw [List.foldl_cons, ih, hcall]
  · intro hsym
    apply hasCurrent_false
    intro n tv hm hc
    have := ((a3 n tv hm).2.1 hc).1
    rw [hsym] at this
    cases this

theorem solveField_threeD {G : Geo V3} {m : Mesh V3} (hv : Valid m) {inXZ : V3 → Bool} {x0 x : Excitation ℝ V3} (h0 : Excitation.new m .threeD inXZ = some x0)
    (cs : List (Excitation.Call ℝ V3)) (hx : x = x0.calls G cs) (h3d : ∃ p ∈ m.points, p.y ≠ 0) {env : SolveEnv} (he : FaithfulEnv env x) {f : PyObj}
    (hf : x.solveField G env = some f) :
    ∃ F, f = .threeD F ∧
      (x.isElectrostatic → Solves3d x .electrostatic F.elec) ∧ (x.isElectrostatic = false → F.elec.len = 0) ∧
      (x.isMagnetostatic → Solves3d x .magnetostatic F.mag) ∧ (x.isMagnetostatic = false → F.mag.len = 0) ∧ ¬(x.isElectrostatic ∧ x.isMagnetostatic) := by
  obtain ⟨e1, e2, e3, e4, e5⟩ := calls_facts (G := G) hv h0 cs
  rw [← hx] at e1 e2 e3 e4 e5
  have h2 : x.mesh.is2d realThirds = false := by
    unfold Mesh.is2d
    rw [e3, List.all_eq_false]
    obtain ⟨p, hp, hy⟩ := h3d
    exact ⟨p, hp, by simpa [realThirds] using hy⟩
  have hup : x.upgraded G = some x := by
    unfold upgraded Mesh.solverMesh
    rw [h2]
    rfl
  unfold solveField at hf
  rw [hup] at hf
  simp only [Option.bind_eq_bind, Option.bind_some] at hf
  cases hel : x.isElectrostatic <;> cases hma : x.isMagnetostatic <;> rw [hel, hma] at hf <;> simp only [if_true, if_false, Bool.false_eq_true] at hf
  · cases hf
  · obtain ⟨e, h1, rfl⟩ := solveStatics_tris e2 e4 e1 (e5 rfl) h2 he hf
    exact ⟨_, rfl, by simp, fun _ => rfl, fun _ => h1, by simp, by simp⟩
  · obtain ⟨e, h1, rfl⟩ := solveStatics_tris e2 e4 e1 (e5 rfl) h2 he hf
    exact ⟨_, rfl, fun _ => h1, by simp, by simp, fun _ => rfl, by simp⟩
  · cases he1 : x.solveStatics env .electrostatic with
    | none => rw [he1] at hf; cases hf
    | some a =>
      cases he2 : x.solveStatics env .magnetostatic with
      | none => rw [he1, he2] at hf; cases hf
      | some b =>
        rw [he1, he2] at hf
        simp only [Option.bind_some] at hf
        obtain ⟨e, h1, rfl⟩ := solveStatics_tris e2 e4 e1 (e5 rfl) h2 he he1
        obtain ⟨e', h1', rfl⟩ := solveStatics_tris e2 e4 e1 (e5 rfl) h2 he he2
        exfalso
        have hnone := (C39_refuted ⟨.empty2d, .empty2d, .empty3d, none⟩ ⟨.empty2d, .empty2d, .empty3d, none⟩ ⟨e, .empty3d, none⟩ ⟨.empty3d, e', none⟩
          ⟨true, [], [], []⟩ ⟨true, [], [], []⟩ rfl rfl 0).2.1.1
        simp only [toField3d, hnone] at hf
        cases hf

/-- **C80**, three dimensions. Take any sequence of calls that builds an excitation on a valid mesh that does not lie in the plane `y = 0`, and any number of threads and schedule. If `solve_direct`
returns, then it returns a three dimensional field. If voltages were given, its electrostatic charges are charges on the triangles which carry a voltage or a dielectric and every one of them does
what its excitation asks for: the potential at the centre of a triangle is the voltage (or the value of the voltage function there), and the interface condition holds on dielectrics. The same for
the magnetostatic part. -/
theorem C80_threeD {G : Geo V3} {m : Mesh V3} (hv : Valid m) {inXZ : V3 → Bool} {x0 x : Excitation ℝ V3} (h0 : Excitation.new m .threeD inXZ = some x0)
    (cs : List (Excitation.Call ℝ V3)) (hx : x = x0.calls G cs) (h3d : ∃ p ∈ m.points, p.y ≠ 0) {env : SolveEnv} (he : FaithfulEnv env x) {f : PyObj}
    (hf : x.solveField G env = some f) :
    ∃ F, f = .threeD F ∧
      (x.isElectrostatic → Solves3d x .electrostatic F.elec) ∧ (x.isElectrostatic = false → F.elec.len = 0) ∧
      (x.isMagnetostatic → Solves3d x .magnetostatic F.mag) ∧ (x.isMagnetostatic = false → F.mag.len = 0) := by
  obtain ⟨F, h1, h2, h3, h4, h5, _⟩ := solveField_threeD hv h0 cs hx h3d he hf
  exact ⟨F, h1, h2, h3, h4, h5⟩

/-- **C80**, what does not work: in three dimensions an excitation with both voltages and magnetic potentials is never solved, `solve_direct` raises. -/
theorem C80_mixed_refuted {G : Geo V3} {m : Mesh V3} (hv : Valid m) {inXZ : V3 → Bool} {x0 x : Excitation ℝ V3} (h0 : Excitation.new m .threeD inXZ = some x0)
    (cs : List (Excitation.Call ℝ V3)) (hx : x = x0.calls G cs) (h3d : ∃ p ∈ m.points, p.y ≠ 0) {env : SolveEnv} (he : FaithfulEnv env x)
    (h1 : x.isElectrostatic) (h2 : x.isMagnetostatic) : x.solveField G env = none := by
  cases hf : x.solveField G env with
  | none => rfl
  | some f =>
    obtain ⟨F, _, _, _, _, _, h⟩ := solveField_threeD hv h0 cs hx h3d he hf
    exact absurd ⟨h1, h2⟩ h

/-- **C80**, radial symmetry. Take any sequence of calls that builds an excitation on a valid mesh and any number of threads and schedule; `x'` is the excitation on the mesh used for solving
(upgraded to higher order if necessary, see C12). Let the centres of its lines have `r ≥ 0`, and let there be at least two excited lines per thread (with fewer the matrix is not filled, see
C36). If `solve_direct` returns, then it returns a radial field. Its electrostatic and magnetostatic charges are charges on the lines which carry such an excitation, every one of which does
what its excitation asks for; the field of the coils, whose currents are those of C41, is part of the interface condition for magnetizable lines and of the field returned. -/
theorem C80_radial_partial {G : Geo V3} (hG : G.Lawful) {m : Mesh V3} (hv : Valid m) {inXZ : V3 → Bool} (hxz : ∀ p, inXZ p = true ↔ p.y = 0) {x0 x x' : Excitation ℝ V3}
    (h0 : Excitation.new m .radial inXZ = some x0) (cs : List (Excitation.Call ℝ V3)) (hx : x = x0.calls G cs) (hx' : x.upgraded G = some x') {env : SolveEnv} (he : FaithfulEnv env x')
    (henough : ∀ s, (∃ i, i < x'.mesh.lines.length ∧ Excited x' s i) →
      ∃ idx : List Nat, idx.Nodup ∧ (∀ i ∈ idx, i < x'.mesh.lines.length ∧ Excited x' s i) ∧ 2 * env.threads ≤ idx.length)
    (hplane : ∀ e ∈ x'.mesh.lines, ∀ l, toLine4 (coords x'.mesh.points e) = some l → 0 ≤ (elemPoint l 0).x) {f : PyObj}
    (hf : x.solveField G env = some f) :
    x'.types = x.types ∧ ∃ F, f = .radial F ∧
      (x.isElectrostatic → SolvesRadial x' .electrostatic .empty3d F.elec) ∧ (x.isElectrostatic = false → F.elec.len = 0) ∧
      (x.isMagnetostatic → x'.currentCharges = some F.cur ∧ SolvesRadial x' .magnetostatic F.cur F.mag) ∧
      (x.isMagnetostatic = false → F.mag.len = 0 ∧ F.cur.len = 0) := by
  obtain ⟨e1, e2, e3, e4, _⟩ := calls_facts (G := G) hv h0 cs
  rw [← hx] at e1 e2 e3 e4
  have hpts : ∀ p ∈ m.points, p.y = 0 := by
    unfold Excitation.new at h0
    split at h0 <;> rename_i h
    · cases h0
    · intro p hp
      simp only [true_and, not_not, List.all_eq_true] at h
      exact (hxz p).1 (h p hp)
  have h2 : x.mesh.is2d realThirds = true := by
    unfold Mesh.is2d
    rw [e3, List.all_eq_true]
    intro p hp
    simpa [realThirds] using hpts p hp
  unfold upgraded at hx'
  cases hM : x.mesh.solverMesh G realThirds with
  | none => rw [hM] at hx'; cases hx'
  | some M =>
    rw [hM] at hx'
    simp only [Option.map_some, Option.some.injEq] at hx'
    have hMv : Valid M ∧ M.isHigherOrder = true := by
      unfold Mesh.solverMesh at hM
      rw [h2] at hM
      cases hho : x.mesh.isHigherOrder with
      | true =>
        rw [hho] at hM
        simp only [Bool.not_true, Bool.and_false, Bool.false_eq_true, if_false, Option.some.injEq] at hM
        rw [← hM]
        exact ⟨e2, hho⟩
      | false =>
        rw [hho] at hM
        simp only [Bool.not_false, Bool.and_true, if_true] at hM
        have hcols : x.mesh.lineCols = 2 := by
          rcases e2.cols with h | h
          · exact h
          · simp [Mesh.isHigherOrder, h] at hho
        obtain ⟨M', k1, k2, k3, _⟩ := C12_upgrade hG realThirds x.mesh e2 hcols
        rw [k1] at hM
        cases hM
        exact ⟨k2, by simp [Mesh.isHigherOrder, k3]⟩
    have hxs : x'.symmetry = .radial := by rw [← hx']; exact e1
    have hxt : x'.types = x.types := by rw [← hx']
    have hxm : x'.mesh = M := by rw [← hx']
    have hxe : x'.isElectrostatic = x.isElectrostatic := by unfold isElectrostatic; rw [hxt]
    have hxg : x'.isMagnetostatic = x.isMagnetostatic := by unfold isMagnetostatic; rw [hxt]
    refine ⟨hxt, ?_⟩
    have hst : ∀ {s f}, x'.solveStatics env s = some f → _ := fun {s f} hf =>
      solveStatics_lines (x := x') (s := s) (by rw [hxm]; exact hMv.1) (by rw [hxt]; exact e4) hxs (Or.inr (by rw [hxm]; exact hMv.2)) he (henough s) hplane hf
    unfold solveField upgraded at hf
    rw [hM] at hf
    simp only [Option.map_some, hx', Option.bind_eq_bind, Option.bind_some, hxe, hxg] at hf
    cases hel : x.isElectrostatic <;> cases hma : x.isMagnetostatic <;> rw [hel, hma] at hf <;> simp only [if_true, if_false, Bool.false_eq_true] at hf
    · cases hf
    · obtain ⟨e, c, _, _, h1, rfl, _, h3⟩ := hst hf
      exact ⟨_, rfl, by simp, fun _ => rfl, fun _ => ⟨h3 rfl, h1⟩, by simp⟩
    · obtain ⟨e, c, _, _, h1, rfl, h3, _⟩ := hst hf
      rw [h3 rfl] at h1
      exact ⟨_, rfl, fun _ => h1, by simp, by simp, fun _ => ⟨rfl, rfl⟩⟩
    · cases he1 : x'.solveStatics env .electrostatic with
      | none => rw [he1] at hf; cases hf
      | some a =>
        cases he2 : x'.solveStatics env .magnetostatic with
        | none => rw [he1, he2] at hf; cases hf
        | some b =>
          rw [he1, he2] at hf
          simp only [Option.bind_some] at hf
          obtain ⟨e, c, w1, n1, h1, rfl, h3, _⟩ := hst he1
          obtain ⟨e', c', w2, n2, h1', rfl, _, h3'⟩ := hst he2
          rw [h3 rfl] at h1
          obtain ⟨w3, n3⟩ := currentCharges_wf (h3' rfl)
          have hadd : PyObj.add (toFieldRadial .electrostatic c e) (toFieldRadial .magnetostatic c' e') = some (.radial ⟨e, e', c', none⟩) := by
            simp [toFieldRadial, PyObj.add, PyObj.binary, PyObj.method, PyObj.bemBinary, PyObj.attr, PyObj.effMethod, EffCharges.empty2d, EffCharges.empty3d,
              EffCharges.add_nil_right w1 n1, EffCharges.add_nil_left w2 n2, EffCharges.add_nil_left w3 n3, PyObj.construct3]
          rw [hadd] at hf
          cases hf
          exact ⟨_, rfl, fun _ => h1, by simp, fun _ => ⟨h3' rfl, h1'⟩, by simp⟩

end Traceon
