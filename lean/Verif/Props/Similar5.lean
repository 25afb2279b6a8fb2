import Verif.Props.Similar4

/-!
# C86: the field of a moved radially symmetric problem
-/
namespace Traceon
open Spec Excitation V3

/-- The constructor of a solver returns for proper excitations in radial symmetry. -/
theorem solverInit_radial {x : Excitation ℝ V3} {s : Statics} (hv : Valid x.mesh) (hn : x.types.keys.Nodup) (h3 : x.symmetry = .radial)
    (h2d : x.mesh.is2d realThirds = true) (hho : x.mesh.isHigherOrder = true) {c : EffCharges V3} (hcur : s = .magnetostatic → x.currentCharges = some c) (hp : Proper x s) (hnum : Numeric x s) :
    ∃ st, x.solverInit s = some st := by
  have hels : x.elements = x.mesh.lines := by unfold Excitation.elements; rw [h3]; rfl
  obtain ⟨verts, names, idx, ha⟩ := active_spec hv hn hp
  obtain ⟨ts, vs, h1, h2, h3', h4⟩ := solver_arrays hv hnum ha (fun k => elementCentre x.mesh (verts.getD k []))
  have hline : ∃ es, verts.mapM toLine4 = some es := by
    have : ∀ v ∈ verts, ∃ t, toLine4 v = some t := by
      intro v hvm
      obtain ⟨k, hk, rfl⟩ := List.getElem_of_mem hvm
      have hk' : k < idx.length := by rw [← ha.len]; exact hk
      have hg := ha.vertIdx k idx[k] (by simp [hk'])
      have hi := ((ha.mem idx[k]).1 (List.getElem_mem _)).1
      rw [List.getElem?_map] at hg
      have he : x.elements[idx[k]]? = some x.elements[idx[k]] := by simp [hi]
      rw [he, Option.map_some, List.getElem?_eq_getElem hk, Option.some.injEq] at hg
      rw [hg]
      have hm : x.elements[idx[k]] ∈ x.mesh.lines := by rw [← hels]; exact List.getElem_mem _
      obtain ⟨hl, hb⟩ := hv.lines _ hm
      have hcols : x.mesh.lineCols = 4 := by simpa [Mesh.isHigherOrder] using hho
      rw [hcols] at hl
      generalize x.elements[idx[k]] = e at hl hb
      match e, hl with
      | [a, b, c, d], _ =>
        have ha := hb a (by simp)
        have hb' := hb b (by simp)
        have hc := hb c (by simp)
        have hd := hb d (by simp)
        exact ⟨⟨x.mesh.points[a], x.mesh.points[b], x.mesh.points[c], x.mesh.points[d]⟩, by simp [coords, List.filterMap_cons, ha, hb', hc, hd, toLine4]⟩
    clear h1 h4 ha h2 h3'
    induction verts with
    | nil => exact ⟨[], rfl⟩
    | cons v verts ih =>
      obtain ⟨t, ht⟩ := this v (by simp)
      obtain ⟨es, hes⟩ := ih fun w hw => this w (List.mem_cons_of_mem _ hw)
      exact ⟨t :: es, by rw [List.mapM_cons, ht, hes]; rfl⟩
  obtain ⟨es, hes⟩ := hline
  unfold solverInit
  rw [ha.eq]
  simp only [Option.bind_eq_bind, Option.bind_some, h1, h2d, hho, hes, if_true, Option.map_some]
  cases s with
  | electrostatic => exact ⟨_, rfl⟩
  | magnetostatic =>
    simp only
    rw [hcur rfl]
    exact ⟨_, rfl⟩

/-- The charges `e'` make the field of the charges `e`, moved. -/
def MovedCharges (S : Similarity) (e e' : EffCharges (ℝ × ℝ)) : Prop :=
  e'.len = e.len ∧ ∀ p, potentialRadial (S.move p) e' = potentialRadial p e ∧ (S.KeepsAxis (norm2d p.x p.y) → fieldRadial (S.move p) e' = S.vec (fieldRadial p e))

theorem MovedCharges.empty (S : Similarity) : MovedCharges S .empty2d .empty2d := by
  refine ⟨rfl, fun p => ⟨rfl, fun _ => ?_⟩⟩
  have : ∀ p, fieldRadial p .empty2d = 0 := by
    intro p
    unfold fieldRadial fromRadial
    rw [EffCharges.loopSub_eq, EffCharges.loopSub_eq]
    simp only [EffCharges.empty2d, superpose, List.zip_nil_left, List.map_nil, List.sum_nil, mul_zero, neg_zero, ite_self]
    rfl
  rw [this, this]
  ext <;> simp [Similarity.vec]

/-- The coils `c'` are the coils `c`, moved. -/
def MovedCoils (S : Similarity) (c c' : EffCharges V3) : Prop :=
  c' = S.coils c ∧ ∀ row ∈ c.positions, ∀ q ∈ row, S.KeepsAxis q.x

theorem MovedCoils.len {S : Similarity} {c c' : EffCharges V3} (h : MovedCoils S c c') : c'.len = c.len := by
  rw [h.1]; simp [EffCharges.len, Similarity.coils]

theorem MovedCoils.empty (S : Similarity) : MovedCoils S .empty3d .empty3d := ⟨rfl, by simp [EffCharges.empty3d]⟩

theorem MovedCoils.field {S : Similarity} {c c' : EffCharges V3} (h : MovedCoils S c c') {p : V3} (hp : S.KeepsAxis (norm2d p.x p.y)) :
    currentField (S.move p) c' = S.vec (currentField p c) := by
  rw [h.1]; exact S.currentField_move h.2 hp

/-- The two solvers. -/
theorem solveStatics_similar {S : Similarity} {σ : Nat → Nat} {x x' : Excitation ℝ V3} {s : Statics} {env env' : SolveEnv} {f : PyObj}
    (h : SameRadial S σ x x' s) (hc : SameCoils S x x') (hv : Valid x.mesh) (hv' : Valid x'.mesh) (hn : x.types.keys.Nodup) (hn' : x'.types.keys.Nodup)
    (h3 : x.symmetry = .radial) (h3' : x'.symmetry = .radial) (h2 : x.mesh.is2d realThirds = true) (h2' : x'.mesh.is2d realThirds = true) (hho' : x'.mesh.isHigherOrder = true)
    (hp' : Proper x s → Proper x' s) (hnum' : Numeric x s → Numeric x' s) (he : FaithfulEnv env x) (he' : FaithfulEnv env' x') (hE : EnoughLines env x) (hE' : EnoughLines env' x')
    (hf : x.solveStatics env s = some f) :
    ∃ e e' c c', f = toFieldRadial s c e ∧ x'.solveStatics env' s = some (toFieldRadial s c' e') ∧ MovedCharges S e e' ∧ MovedCoils S c c' := by
  unfold solveStatics at hf
  cases hst : x.solverInit s with
  | none => rw [hst] at hf; cases hf
  | some st =>
    rw [hst] at hf
    simp only [Option.bind_eq_bind, Option.bind_some] at hf
    obtain ⟨idx, hI⟩ := solverInit_spec hv hn hst
    have hcur : s = .magnetostatic → x'.currentCharges = some (S.coils st.coils) ∧ ∀ row ∈ st.coils.positions, ∀ q ∈ row, S.KeepsAxis q.x := by
      rintro rfl
      exact currentCharges_move hc hI.coils
    obtain ⟨st', hst'⟩ := solverInit_radial hv' hn' h3' h2' hho' (fun h => (hcur h).1) (hp' hI.proper) (hnum' hI.numeric)
    obtain ⟨idx', hI'⟩ := solverInit_spec hv' hn' hst'
    have hM := (matrixReady hv hn he hE hst).1
    have hM' := (matrixReady hv' hn' he' hE' hst').1
    have hcoils : MovedCoils S st.coils st'.coils := by
      cases s with
      | electrostatic =>
        have a := hI.coils
        have b := hI'.coils
        simp only at a b
        rw [a, b]
        exact MovedCoils.empty S
      | magnetostatic =>
        obtain ⟨a, b⟩ := hcur rfl
        have c := hI'.coils
        simp only at c
        rw [a] at c
        exact ⟨(Option.some.inj c).symm, b⟩
    cases hel : st.elems with
    | tris ts =>
      have := hI.elems
      rw [hel] at this
      rw [this.1] at h2; cases h2
    | lines ls =>
      cases hel' : st'.elems with
      | tris ts =>
        have := hI'.elems
        rw [hel'] at this
        rw [this.1] at h2'; cases h2'
      | lines ls' =>
        unfold SolverState.solve at hf
        cases hq : st.charges env s with
        | none => rw [hq] at hf; cases hf
        | some q =>
          rw [hq, hel] at hf
          simp only [Option.bind_eq_bind, Option.bind_some] at hf
          obtain ⟨e, q', g1, g2, g3, g4⟩ := charges_radial h hv hv' hI hI' h3 h3' hel hel' (fun _ => hcoils) hM hM' hq
          have hnew : ∀ (ls : List Line4) (q : List ℝ), q.length = ls.length → EffCharges.new 16 q (ls.map lineJacRow) (ls.map linePosRow) = some (lineCharges ls q) := by
            intro ls q hl
            unfold EffCharges.new
            rw [if_pos ?_]
            · rfl
            · refine ⟨by simp [hl], ?_, by simp [hl], ?_⟩ <;> simp [lineJacRow, linePosRow, gaussRule]
          rw [hnew ls q g2, Option.map_some, Option.some.injEq] at hf
          refine ⟨_, lineCharges ls' q', st.coils, st'.coils, hf.symm, ?_, ⟨?_, lineCharges_move S e g2 g3 g4⟩, hcoils⟩
          · unfold solveStatics
            rw [hst']
            simp only [Option.bind_eq_bind, Option.bind_some]
            unfold SolverState.solve
            rw [g1, hel']
            simp only [Option.bind_eq_bind, Option.bind_some]
            rw [hnew ls' q' g3]
            rfl
          · show q'.length = q.length
            rw [g2, g3]
            simpa using (Fintype.card_congr e).symm

/-- Fields of moved charges and coils. -/
theorem moved_fields {S : Similarity} {E E' M M' : EffCharges (ℝ × ℝ)} {c c' : EffCharges V3} (hE : MovedCharges S E E') (hM : MovedCharges S M M') (hc : MovedCoils S c c') (p : V3) :
    (PyObj.radial ⟨E', M', c', none⟩).electrostaticPotential (S.move p) = (PyObj.radial ⟨E, M, c, none⟩).electrostaticPotential p ∧
    (PyObj.radial ⟨E', M', c', none⟩).magnetostaticPotential (S.move p) = (PyObj.radial ⟨E, M, c, none⟩).magnetostaticPotential p ∧
    (PyObj.radial ⟨E', M', c', none⟩).potentialAtPoint (S.move p) = (PyObj.radial ⟨E, M, c, none⟩).potentialAtPoint p ∧
    (S.KeepsAxis (norm2d p.x p.y) →
      (PyObj.radial ⟨E', M', c', none⟩).electrostaticField (S.move p) = ((PyObj.radial ⟨E, M, c, none⟩).electrostaticField p).map S.vec ∧
      (PyObj.radial ⟨E', M', c', none⟩).magnetostaticField (S.move p) = ((PyObj.radial ⟨E, M, c, none⟩).magnetostaticField p).map S.vec ∧
      (PyObj.radial ⟨E', M', c', none⟩).fieldAtPoint (S.move p) = ((PyObj.radial ⟨E, M, c, none⟩).fieldAtPoint p).map S.vec) := by
  have b1 : (PyObj.radial ⟨E', M', c', none⟩).isElectrostatic ↔ (PyObj.radial ⟨E, M, c, none⟩).isElectrostatic := by simp only [PyObj.isElectrostatic, hE.1]
  have b2 : (PyObj.radial ⟨E', M', c', none⟩).isMagnetostatic ↔ (PyObj.radial ⟨E, M, c, none⟩).isMagnetostatic := by simp only [PyObj.isMagnetostatic, hM.1, hc.len]
  have a1 : (PyObj.radial ⟨E', M', c', none⟩).electrostaticPotential (S.move p) = (PyObj.radial ⟨E, M, c, none⟩).electrostaticPotential p := by
    simp only [PyObj.electrostaticPotential, (hE.2 p).1]
  have a2 : (PyObj.radial ⟨E', M', c', none⟩).magnetostaticPotential (S.move p) = (PyObj.radial ⟨E, M, c, none⟩).magnetostaticPotential p := by
    simp only [PyObj.magnetostaticPotential, (hM.2 p).1]
  refine ⟨a1, a2, ?_, fun hp => ?_⟩
  · unfold PyObj.potentialAtPoint
    by_cases c1 : (PyObj.radial ⟨E, M, c, none⟩).isElectrostatic <;> by_cases c2 : (PyObj.radial ⟨E, M, c, none⟩).isMagnetostatic <;> simp [b1, b2, c1, c2, a1, a2]
  · have a3 : (PyObj.radial ⟨E', M', c', none⟩).electrostaticField (S.move p) = ((PyObj.radial ⟨E, M, c, none⟩).electrostaticField p).map S.vec := by
      simp only [PyObj.electrostaticField, (hE.2 p).2 hp, Option.map_some]
    have a4 : (PyObj.radial ⟨E', M', c', none⟩).magnetostaticField (S.move p) = ((PyObj.radial ⟨E, M, c, none⟩).magnetostaticField p).map S.vec := by
      simp only [PyObj.magnetostaticField, (hM.2 p).2 hp, hc.field hp, Option.map_some]
      congr 1
      ext <;> simp [Similarity.vec] <;> ring
    refine ⟨a3, a4, ?_⟩
    unfold PyObj.fieldAtPoint
    by_cases c1 : (PyObj.radial ⟨E, M, c, none⟩).isElectrostatic <;> by_cases c2 : (PyObj.radial ⟨E, M, c, none⟩).isMagnetostatic <;> simp [b1, b2, c1, c2, a3, a4]

/-- **C86.** Let the meshes used for solving the radially symmetric problems `x` and `x'` (`y.mesh` and `y'.mesh`, after lines have been upgraded to higher order) be the same up to a motion along the axis, a reflection in a plane perpendicular to it (in which case currents have the opposite sign), a
change of the unit of length by the factor `S.scale`, and the numbering, naming and (for lines with a voltage or potential) the direction of lines. If `x` can be solved, so can `x'`, with any number of threads and in any schedule. At a moved point the
potentials of `x'` are those of `x`, and the fields are those of `x`, reflected if `S` is a reflection, divided by `S.scale` (the latter if the point's distance to the axis is not treated as zero by one of the two only, see `KeepsAxis`). -/
theorem C86_radial {G : Geo V3} {S : Similarity} {σ : Statics → Nat → Nat} {x x' y y' : Excitation ℝ V3} {env env' : SolveEnv} {f : PyObj} (hG : G.Lawful)
    (hv : Valid x.mesh) (hv' : Valid x'.mesh) (hn : x.types.keys.Nodup) (hn' : x'.types.keys.Nodup) (h3 : x.symmetry = .radial) (h3' : x'.symmetry = .radial)
    (u : x.upgraded G = some y) (u' : x'.upgraded G = some y') (h2 : ∀ p ∈ y.mesh.points, p.y = 0) (h2' : ∀ p ∈ y'.mesh.points, p.y = 0) (hl' : y'.mesh.lineCols = 4)
    (h : ∀ s, SameRadial S (σ s) y y' s) (hc : SameCoils S y y') (hp' : ∀ s, Proper y s → Proper y' s) (hnum' : ∀ s, Numeric y s → Numeric y' s)
    (hel : x'.isElectrostatic = x.isElectrostatic) (hma : x'.isMagnetostatic = x.isMagnetostatic)
    (he : FaithfulEnv env y) (he' : FaithfulEnv env' y') (hE : EnoughLines env y) (hE' : EnoughLines env' y') (hf : x.solveField G env = some f) :
    ∃ f', x'.solveField G env' = some f' ∧ ∀ p,
      f'.electrostaticPotential (S.move p) = f.electrostaticPotential p ∧ f'.magnetostaticPotential (S.move p) = f.magnetostaticPotential p ∧
      f'.potentialAtPoint (S.move p) = f.potentialAtPoint p ∧
      (S.KeepsAxis (norm2d p.x p.y) →
        f'.electrostaticField (S.move p) = (f.electrostaticField p).map S.vec ∧
        f'.magnetostaticField (S.move p) = (f.magnetostaticField p).map S.vec ∧
        f'.fieldAtPoint (S.move p) = (f.fieldAtPoint p).map S.vec) := by
  have is2d : ∀ {m : Mesh V3}, (∀ p ∈ m.points, p.y = 0) → m.is2d realThirds = true := by
    intro m hm
    unfold Mesh.is2d
    rw [List.all_eq_true]
    intro p hp
    simpa [realThirds] using hm p hp
  have hy : Valid y.mesh ∧ y.types = x.types ∧ y.symmetry = x.symmetry := by
    unfold upgraded at u
    obtain ⟨M, hM, rfl⟩ := Option.map_eq_some_iff.1 u
    exact ⟨solverMesh_valid hG hv hM, rfl, rfl⟩
  have hy' : Valid y'.mesh ∧ y'.types = x'.types ∧ y'.symmetry = x'.symmetry := by
    unfold upgraded at u'
    obtain ⟨M, hM, rfl⟩ := Option.map_eq_some_iff.1 u'
    exact ⟨solverMesh_valid hG hv' hM, rfl, rfl⟩
  have hho' : y'.mesh.isHigherOrder = true := by simp [Mesh.isHigherOrder, hl']
  have key : ∀ s f, y.solveStatics env s = some f → _ := fun s f hf =>
    solveStatics_similar (h s) hc hy.1 hy'.1 (by rw [hy.2.1]; exact hn) (by rw [hy'.2.1]; exact hn') (by rw [hy.2.2]; exact h3) (by rw [hy'.2.2]; exact h3') (is2d h2) (is2d h2') hho'
      (hp' s) (hnum' s) he he' hE hE' hf
  have fin : ∀ s c c' e e', MovedCharges S e e' → MovedCoils S c c' → ∃ E E' M M' C C', toFieldRadial s c e = .radial ⟨E, M, C, none⟩ ∧ toFieldRadial s c' e' = .radial ⟨E', M', C', none⟩ ∧
      MovedCharges S E E' ∧ MovedCharges S M M' ∧ MovedCoils S C C' := by
    intro s c c' e e' h1 h2
    cases s
    · exact ⟨_, _, _, _, _, _, rfl, rfl, h1, MovedCharges.empty S, MovedCoils.empty S⟩
    · exact ⟨_, _, _, _, _, _, rfl, rfl, MovedCharges.empty S, h1, h2⟩
  have hel' : y'.isElectrostatic = y.isElectrostatic := by
    have e1 : y'.isElectrostatic = x'.isElectrostatic := by unfold Excitation.isElectrostatic; rw [hy'.2.1]
    have e2 : y.isElectrostatic = x.isElectrostatic := by unfold Excitation.isElectrostatic; rw [hy.2.1]
    rw [e1, e2, hel]
  have hma' : y'.isMagnetostatic = y.isMagnetostatic := by
    have e1 : y'.isMagnetostatic = x'.isMagnetostatic := by unfold Excitation.isMagnetostatic; rw [hy'.2.1]
    have e2 : y.isMagnetostatic = x.isMagnetostatic := by unfold Excitation.isMagnetostatic; rw [hy.2.1]
    rw [e1, e2, hma]
  unfold solveField at hf ⊢
  rw [u] at hf
  rw [u']
  simp only [Option.bind_eq_bind, Option.bind_some, hel', hma'] at hf ⊢
  cases h1 : y.isElectrostatic <;> cases h2 : y.isMagnetostatic <;> rw [h1, h2] at hf <;> simp only [if_true, if_false, Bool.false_eq_true] at hf ⊢
  · cases hf
  · obtain ⟨e, e', c, c', rfl, g2, g3, g4⟩ := key _ _ hf
    obtain ⟨E, E', M, M', C, C', k1, k2, k3, k4, k5⟩ := fin _ _ _ _ _ g3 g4
    refine ⟨_, g2, ?_⟩
    rw [k1, k2]
    exact moved_fields k3 k4 k5
  · obtain ⟨e, e', c, c', rfl, g2, g3, g4⟩ := key _ _ hf
    obtain ⟨E, E', M, M', C, C', k1, k2, k3, k4, k5⟩ := fin _ _ _ _ _ g3 g4
    refine ⟨_, g2, ?_⟩
    rw [k1, k2]
    exact moved_fields k3 k4 k5
  · cases he1 : y.solveStatics env .electrostatic with
    | none => rw [he1] at hf; cases hf
    | some a =>
      cases he2 : y.solveStatics env .magnetostatic with
      | none => rw [he1, he2] at hf; cases hf
      | some b =>
        rw [he1, he2] at hf
        simp only [Option.bind_some] at hf
        obtain ⟨E, E', c, c', rfl, g2, g3, g4⟩ := key _ _ he1
        obtain ⟨M, M', C, C', rfl, k2, k3, k4⟩ := key _ _ he2
        obtain ⟨E1, M1, C1, w1, w2, rfl⟩ := solveStatics_add he1 he2 hf
        obtain ⟨_, _, hx⟩ | ⟨E2, c2, v1, v2, v3, v4⟩ := solveStatics_shape g2
        · simp [toFieldRadial, toField3d] at hx
        obtain ⟨_, _, hx⟩ | ⟨M2, c3, v1', v2', v3', v4'⟩ := solveStatics_shape k2
        · simp [toFieldRadial, toField3d] at hx
        rw [g2, k2]
        simp only [Option.bind_some]
        simp only [toFieldRadial, PyObj.radial.injEq, FieldRadialBEM.mk.injEq] at v1 v1' w1 w2
        obtain ⟨rfl, -⟩ := v1
        obtain ⟨-, rfl, rfl, -⟩ := v1'
        obtain ⟨rfl, -⟩ := w1
        obtain ⟨-, rfl, rfl, -⟩ := w2
        rw [add_radial v2 v3 v2' v3' v4']
        exact ⟨_, rfl, moved_fields g3 k3 k4⟩

end Traceon
