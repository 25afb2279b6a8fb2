import Verif.Props.Rigid3
import Verif.Props.SolveField3
import Verif.Props.Transform

/-!
# C81: a moved problem has the moved solution
-/
namespace Traceon
open Spec V3 Excitation

/-- The constructor of a solver returns for proper excitations in three dimensions. -/
theorem solverInit_returns {x : Excitation ℝ V3} {s : Statics} (hv : Valid x.mesh) (hn : x.types.keys.Nodup) (h3 : x.symmetry = .threeD)
    (h2d : x.mesh.is2d realThirds = false) (hho : x.mesh.isHigherOrder = false) (hcur : x.hasCurrent = false) (hp : Proper x s) (hnum : Numeric x s) :
    ∃ st, x.solverInit s = some st := by
  have hels : x.elements = x.mesh.triangles := by unfold Excitation.elements; rw [h3]; rfl
  obtain ⟨verts, names, idx, ha⟩ := active_spec hv hn hp
  obtain ⟨ts, vs, h1, h2, h3', h4⟩ := solver_arrays hv hnum ha (fun k => elementCentre x.mesh (verts.getD k []))
  have htri : ∃ es, verts.mapM toTri3 = some es := by
    have : ∀ v ∈ verts, ∃ t, toTri3 v = some t := by
      intro v hvm
      obtain ⟨k, hk, rfl⟩ := List.getElem_of_mem hvm
      have hk' : k < idx.length := by rw [← ha.len]; exact hk
      have hg := ha.vertIdx k idx[k] (by simp [hk'])
      have hi := ((ha.mem idx[k]).1 (List.getElem_mem _)).1
      rw [List.getElem?_map] at hg
      have he : x.elements[idx[k]]? = some x.elements[idx[k]] := by simp [hi]
      rw [he, Option.map_some, List.getElem?_eq_getElem hk, Option.some.injEq] at hg
      rw [hg]
      have hm : x.elements[idx[k]] ∈ x.mesh.triangles := by rw [← hels]; exact List.getElem_mem _
      obtain ⟨hl, hb⟩ := hv.tris _ hm
      generalize x.elements[idx[k]] = e at hl hb
      match e, hl with
      | [a, b, c], _ =>
        have ha := hb a (by simp)
        have hb' := hb b (by simp)
        have hc := hb c (by simp)
        exact ⟨⟨x.mesh.points[a], x.mesh.points[b], x.mesh.points[c]⟩, by simp [coords, List.filterMap_cons, ha, hb', hc, toTri3]⟩
    clear h1 h4 ha h2 h3'
    induction verts with
    | nil => exact ⟨[], rfl⟩
    | cons v verts ih =>
      obtain ⟨t, ht⟩ := this v (by simp)
      obtain ⟨es, hes⟩ := ih fun w hw => this w (List.mem_cons_of_mem _ hw)
      exact ⟨t :: es, by rw [List.mapM_cons, ht, hes]; rfl⟩
  obtain ⟨es, hes⟩ := htri
  unfold solverInit
  rw [ha.eq]
  simp only [Option.bind_eq_bind, Option.bind_some, h1, h2d, hho, hes, if_false, Bool.false_eq_true, Option.map_some]
  cases s with
  | electrostatic => exact ⟨_, rfl⟩
  | magnetostatic =>
    simp only
    unfold currentCharges
    rw [if_pos (Or.inr (by simp [hcur]))]
    exact ⟨_, rfl⟩

/-- The two solvers. -/
theorem solveStatics_move {R : RigidMotion} {σ : Nat → Nat} {x x' : Excitation ℝ V3} {s : Statics} {env env' : SolveEnv} {f : PyObj}
    (h : SameProblem R σ x x' s) (hv : Valid x.mesh) (hv' : Valid x'.mesh) (hn : x.types.keys.Nodup) (hn' : x'.types.keys.Nodup)
    (h3 : x.symmetry = .threeD) (h3' : x'.symmetry = .threeD) (hcur : x.hasCurrent = false) (hcur' : x'.hasCurrent = false)
    (h2 : x.mesh.is2d realThirds = false) (h2' : x'.mesh.is2d realThirds = false) (hho' : x'.mesh.isHigherOrder = false)
    (hp' : Proper x s → Proper x' s) (hnum' : Numeric x s → Numeric x' s) (he : FaithfulEnv env x) (he' : FaithfulEnv env' x') (hsign : R.sign = 1 ∨ NoInterfaces x)
    (hf : x.solveStatics env s = some f) :
    ∃ e e', f = toField3d s e ∧ x'.solveStatics env' s = some (toField3d s e') ∧ e'.len = e.len ∧
      ∀ p, potential3d (R.move p) e' = potential3d p e ∧ field3d (R.move p) e' = R.lin (field3d p e) := by
  unfold solveStatics at hf
  cases hst : x.solverInit s with
  | none => rw [hst] at hf; cases hf
  | some st =>
    rw [hst] at hf
    simp only [Option.bind_eq_bind, Option.bind_some] at hf
    obtain ⟨idx, hI⟩ := solverInit_spec hv hn hst
    obtain ⟨st', hst'⟩ := solverInit_returns hv' hn' h3' h2' hho' hcur' (hp' hI.proper) (hnum' hI.numeric)
    obtain ⟨idx', hI'⟩ := solverInit_spec hv' hn' hst'
    have henv := he.2 s st hst
    have henv' := he'.2 s st' hst'
    have hcoil : ∀ {x : Excitation ℝ V3} {st : SolverState} {idx : List Nat}, x.hasCurrent = false → InitSpec x s st idx → st.coils = EffCharges.empty3d := by
      intro x st idx hcur hI
      have := hI.coils
      cases s with
      | electrostatic => exact this
      | magnetostatic =>
        simp only at this
        unfold currentCharges at this
        rw [if_pos (Or.inr (by simp [hcur]))] at this
        exact (Option.some.inj this).symm
    cases hel : st.elems with
    | lines ls =>
      have := hI.elems
      rw [hel] at this
      rw [this.1] at h2; cases h2
    | tris ts =>
      cases hel' : st'.elems with
      | lines ls =>
        have := hI'.elems
        rw [hel'] at this
        rw [this.1] at h2'; cases h2'
      | tris ts' =>
        rw [hel] at henv
        rw [hel'] at henv'
        simp only at henv henv'
        unfold SolverState.solve at hf
        cases hq : st.charges env s with
        | none => rw [hq] at hf; cases hf
        | some q =>
          rw [hq, hel] at hf
          simp only [Option.bind_eq_bind, Option.bind_some] at hf
          obtain ⟨e, q', g1, g2, g3, g4⟩ := charges_move h hv hv' hI hI' h3 h3' hel hel' (hcoil hcur hI) (hcoil hcur' hI') hsign he.1 he'.1 henv.1 henv.2 henv'.1 henv'.2 hq
          have hnew : ∀ (ts : List Tri3) (q : List ℝ), q.length = ts.length → EffCharges.new 12 q (ts.map jacRow) (ts.map posRow) = some (triCharges ts q) := by
            intro ts q hl
            unfold EffCharges.new
            rw [if_pos ?_]
            · rfl
            · refine ⟨by simp [hl], ?_, by simp [hl], ?_⟩ <;> simp [jacRow, posRow, quadRule]
          rw [hnew ts q g2, Option.map_some, Option.some.injEq] at hf
          refine ⟨_, triCharges ts' q', hf.symm, ?_, ?_, triCharges_move R e g2 g3 g4⟩
          · unfold solveStatics
            rw [hst']
            simp only [Option.bind_eq_bind, Option.bind_some]
            unfold SolverState.solve
            rw [g1, hel']
            simp only [Option.bind_eq_bind, Option.bind_some]
            rw [hnew ts' q' g3]
            rfl
          · show q'.length = q.length
            rw [g2, g3]
            simpa using (Fintype.card_congr e).symm

/-- **C81.** Let the three dimensional problem `x'` be the problem `x` moved by a rotation and a translation, with triangles, points and groups possibly numbered, listed and named differently
(`SameProblem`). If `x` can be solved, so can `x'`, with any number of threads and in any schedule, and the field of `x'` is the moved field of `x`. Reflections are allowed as well if there are no
dielectrics and no magnetizable materials (for which the normals matter). -/
theorem C81_moved {G : Geo V3} {R : RigidMotion} {σ : Statics → Nat → Nat} {x x' : Excitation ℝ V3} {env env' : SolveEnv} {f : PyObj}
    (h : ∀ s, SameProblem R (σ s) x x' s) (hv : Valid x.mesh) (hv' : Valid x'.mesh) (hn : x.types.keys.Nodup) (hn' : x'.types.keys.Nodup)
    (h3 : x.symmetry = .threeD) (h3' : x'.symmetry = .threeD) (hcur : x.hasCurrent = false) (hcur' : x'.hasCurrent = false)
    (hy : ∃ p ∈ x.mesh.points, p.y ≠ 0) (hy' : ∃ p ∈ x'.mesh.points, p.y ≠ 0) (hl' : x'.mesh.lineCols = 2)
    (hp' : ∀ s, Proper x s → Proper x' s) (hnum' : ∀ s, Numeric x s → Numeric x' s) (hel : x'.isElectrostatic = x.isElectrostatic) (hma : x'.isMagnetostatic = x.isMagnetostatic)
    (he : FaithfulEnv env x) (he' : FaithfulEnv env' x') (hsign : R.sign = 1 ∨ NoInterfaces x) (hf : x.solveField G env = some f) :
    ∃ f', x'.solveField G env' = some f' ∧ ∀ p,
      f'.electrostaticPotential (R.move p) = f.electrostaticPotential p ∧ f'.electrostaticField (R.move p) = (f.electrostaticField p).map R.lin ∧
      f'.magnetostaticPotential (R.move p) = f.magnetostaticPotential p ∧ f'.magnetostaticField (R.move p) = (f.magnetostaticField p).map R.lin ∧
      f'.potentialAtPoint (R.move p) = f.potentialAtPoint p ∧ f'.fieldAtPoint (R.move p) = (f.fieldAtPoint p).map R.lin := by
  have is2d : ∀ {m : Mesh V3}, (∃ p ∈ m.points, p.y ≠ 0) → m.is2d realThirds = false := by
    intro m hm
    unfold Mesh.is2d
    rw [List.all_eq_false]
    obtain ⟨p, hp, hy⟩ := hm
    exact ⟨p, hp, by simpa [realThirds] using hy⟩
  have hup : ∀ {x : Excitation ℝ V3}, x.mesh.is2d realThirds = false → x.upgraded G = some x := by
    intro x h2
    unfold upgraded Mesh.solverMesh
    rw [h2]
    rfl
  have hho' : x'.mesh.isHigherOrder = false := by simp [Mesh.isHigherOrder, hl']
  have key : ∀ s f, x.solveStatics env s = some f → _ := fun s f hf =>
    solveStatics_move (h s) hv hv' hn hn' h3 h3' hcur hcur' (is2d hy) (is2d hy') hho' (hp' s) (hnum' s) he he' hsign hf
  have hlin0 : R.lin 0 = 0 := by
    have : R.lin 0 = (0 : ℝ) * R.lin 0 := by rw [← R.smul]; congr 1; ext <;> simp
    rw [this]; ext <;> simp
  have e0 : ∀ p, potential3d p EffCharges.empty3d = 0 := fun p => rfl
  have e1 : ∀ p, field3d p EffCharges.empty3d = 0 := fun p => rfl
  have fin : ∀ s e e', e'.len = e.len → (∀ p, potential3d (R.move p) e' = potential3d p e ∧ field3d (R.move p) e' = R.lin (field3d p e)) → ∀ p,
      (toField3d s e').electrostaticPotential (R.move p) = (toField3d s e).electrostaticPotential p ∧
      (toField3d s e').electrostaticField (R.move p) = ((toField3d s e).electrostaticField p).map R.lin ∧
      (toField3d s e').magnetostaticPotential (R.move p) = (toField3d s e).magnetostaticPotential p ∧
      (toField3d s e').magnetostaticField (R.move p) = ((toField3d s e).magnetostaticField p).map R.lin ∧
      (toField3d s e').potentialAtPoint (R.move p) = (toField3d s e).potentialAtPoint p ∧
      (toField3d s e').fieldAtPoint (R.move p) = ((toField3d s e).fieldAtPoint p).map R.lin := by
    intro s e e' hlen hk p
    obtain ⟨k1, k2⟩ := hk p
    have a1 : (toField3d s e').electrostaticPotential (R.move p) = (toField3d s e).electrostaticPotential p := by
      cases s <;> simp only [toField3d, PyObj.electrostaticPotential, k1, e0]
    have a2 : (toField3d s e').electrostaticField (R.move p) = ((toField3d s e).electrostaticField p).map R.lin := by
      cases s <;> simp only [toField3d, PyObj.electrostaticField, k2, e1, Option.map_some, hlin0]
    have a3 : (toField3d s e').magnetostaticPotential (R.move p) = (toField3d s e).magnetostaticPotential p := by
      cases s <;> simp only [toField3d, PyObj.magnetostaticPotential, k1, e0]
    have a4 : (toField3d s e').magnetostaticField (R.move p) = ((toField3d s e).magnetostaticField p).map R.lin := by
      cases s <;> simp only [toField3d, PyObj.magnetostaticField, k2, e1, Option.map_some, hlin0]
    have b1 : (toField3d s e').isElectrostatic ↔ (toField3d s e).isElectrostatic := by
      cases s <;> simp only [toField3d, PyObj.isElectrostatic, hlen]
    have b2 : (toField3d s e').isMagnetostatic ↔ (toField3d s e).isMagnetostatic := by
      cases s <;> simp only [toField3d, PyObj.isMagnetostatic, hlen]
    refine ⟨a1, a2, a3, a4, ?_, ?_⟩
    · unfold PyObj.potentialAtPoint
      by_cases c1 : (toField3d s e).isElectrostatic <;> by_cases c2 : (toField3d s e).isMagnetostatic <;> simp [b1, b2, c1, c2, a1, a3]
    · unfold PyObj.fieldAtPoint
      by_cases c1 : (toField3d s e).isElectrostatic <;> by_cases c2 : (toField3d s e).isMagnetostatic <;> simp [b1, b2, c1, c2, a2, a4]
  unfold solveField at hf ⊢
  rw [hup (is2d hy)] at hf
  rw [hup (is2d hy')]
  simp only [Option.bind_eq_bind, Option.bind_some, hel, hma] at hf ⊢
  cases h1 : x.isElectrostatic <;> cases h2 : x.isMagnetostatic <;> rw [h1, h2] at hf <;> simp only [if_true, if_false, Bool.false_eq_true] at hf ⊢
  · cases hf
  · obtain ⟨e, e', rfl, g2, g3, g4⟩ := key _ _ hf
    exact ⟨_, g2, fin _ _ _ g3 g4⟩
  · obtain ⟨e, e', rfl, g2, g3, g4⟩ := key _ _ hf
    exact ⟨_, g2, fin _ _ _ g3 g4⟩
  · exfalso
    cases he1 : x.solveStatics env .electrostatic with
    | none => rw [he1] at hf; cases hf
    | some a =>
      cases he2 : x.solveStatics env .magnetostatic with
      | none => rw [he1, he2] at hf; cases hf
      | some b =>
        rw [he1, he2] at hf
        simp only [Option.bind_some] at hf
        obtain ⟨e, _, rfl, -⟩ := key _ _ he1
        obtain ⟨e', _, rfl, -⟩ := key _ _ he2
        have hnone := (C39_refuted ⟨.empty2d, .empty2d, .empty3d, none⟩ ⟨.empty2d, .empty2d, .empty3d, none⟩ ⟨e, .empty3d, none⟩ ⟨.empty3d, e', none⟩
          ⟨true, [], [], []⟩ ⟨true, [], [], []⟩ rfl rfl 0).2.1.1
        simp only [toField3d, hnone] at hf
        cases hf


/-! ## Special cases -/

theorem decides_unique {V P : Type} {x : Excitation V P} {s : Statics} {n n' : String} {i : Nat} (h : Decides x s n i) (h' : Decides x s n' i) : n = n' := by
  obtain ⟨pre, g, post, h1, h2, h3, h4⟩ := h
  obtain ⟨pre', g', post', h1', h2', h3', h4'⟩ := h'
  rw [h1, List.append_eq_append_iff] at h1'
  rcases h1' with ⟨l, hl, e⟩ | ⟨l, hl, e⟩
  · cases l with
    | nil => simp at e; exact e.1.1
    | cons a l =>
      simp only [List.cons_append, List.cons.injEq] at e
      exact absurd h2' (h4 n' g' (by rw [e.2]; simp) h3')
  · cases l with
    | nil => simp at e; exact e.1.1.symm
    | cons a l =>
      simp only [List.cons_append, List.cons.injEq] at e
      exact absurd h2 (h4' n g (by rw [e.2]; simp) h3)

/-- Nothing is moved. -/
def Spec.RigidMotion.id : RigidMotion where
  lin := fun p => p
  shift := 0
  sign := 1
  add := fun _ _ => rfl
  smul := fun _ _ => rfl
  dot := fun _ _ => rfl
  cross := fun a b => by ext <;> simp
  sign_eq := Or.inl rfl

theorem Spec.RigidMotion.id_move (p : V3) : RigidMotion.id.move p = p := by
  unfold RigidMotion.move RigidMotion.id
  ext <;> simp

theorem sameProblem_refl (x : Excitation ℝ V3) (s : Statics) : SameProblem RigidMotion.id (fun i => i) x x s := by
  refine ⟨fun i h h' => ⟨h, h'⟩, fun i j _ _ _ _ h => h, fun j h h' => ⟨j, h, h', rfl⟩, ?_, ?_⟩
  · intro i t _ _ h
    rw [h]
    unfold RigidMotion.tri
    simp only [RigidMotion.id_move]
  · intro i n n' tv tv' h h1 h' h1'
    obtain rfl := decides_unique h h'
    rw [h1] at h1'
    cases h1'
    refine ⟨rfl, ?_⟩
    cases tv.2 <;> simp [SameValue, RigidMotion.id_move]

/-- **C81**, the result does not depend on the number of threads nor on their schedule. -/
theorem C81_reproducible {G : Geo V3} {x : Excitation ℝ V3} {env env' : SolveEnv} {f : PyObj} (hv : Valid x.mesh) (hn : x.types.keys.Nodup)
    (h3 : x.symmetry = .threeD) (hcur : x.hasCurrent = false) (hy : ∃ p ∈ x.mesh.points, p.y ≠ 0) (hl : x.mesh.lineCols = 2)
    (he : FaithfulEnv env x) (he' : FaithfulEnv env' x) (hf : x.solveField G env = some f) :
    ∃ f', x.solveField G env' = some f' ∧ ∀ p, f'.potentialAtPoint p = f.potentialAtPoint p ∧ f'.fieldAtPoint p = f.fieldAtPoint p := by
  obtain ⟨f', h1, h2⟩ := C81_moved (σ := fun _ i => i) (sameProblem_refl x) hv hv hn hn h3 h3 hcur hcur hy hy hl (fun _ h => h) (fun _ h => h) rfl rfl he he' (Or.inl rfl) hf
  refine ⟨f', h1, fun p => ?_⟩
  obtain ⟨-, -, -, -, a, b⟩ := h2 p
  rw [RigidMotion.id_move] at a b
  refine ⟨a, b.trans ?_⟩
  cases f.fieldAtPoint p <;> rfl

theorem get_map_values {α β : Type} (f : α → β) (d : Dict α) (n : String) : Dict.get (d.map fun nt => (nt.1, f nt.2)) n = (Dict.get d n).map f := by
  induction d with
  | nil => rfl
  | cons a d ih =>
    unfold Dict.get at ih ⊢
    simp only [List.map_cons, List.find?_cons]
    split
    · rfl
    · exact ih

section
variable (R : RigidMotion) (inv : V3 → V3) (x : Excitation ℝ V3)

theorem moved_get (n : String) : (R.excitation inv x).types.get n = (x.types.get n).map fun tv => (tv.1, moveValue inv tv.2) :=
  get_map_values (fun tv : ExcType × ExcVal ℝ V3 => (tv.1, moveValue inv tv.2)) x.types n

theorem moved_kind (s : Statics) (n : String) : HasKind (R.excitation inv x) s n ↔ HasKind x s n := by
  unfold HasKind
  rw [moved_get]
  cases x.types.get n <;> simp

theorem moved_physicals : (R.excitation inv x).physicals = x.physicals := rfl

theorem moved_excited (s : Statics) (i : Nat) : Excited (R.excitation inv x) s i ↔ Excited x s i := by
  have h : ∀ (x : Excitation ℝ V3), Excited x s i ↔ ∃ n g, x.physicals.get n = some g ∧ i ∈ g ∧ HasKind x s n := by
    intro x
    unfold Excited HasKind
    constructor
    · rintro ⟨n, g, tv, h1, h2, h3, h4⟩; exact ⟨n, g, h1, h2, tv, h3, h4⟩
    · rintro ⟨n, g, h1, h2, tv, h3, h4⟩; exact ⟨n, g, tv, h1, h2, h3, h4⟩
  rw [h, h]
  simp only [moved_kind, moved_physicals]

theorem moved_decides (s : Statics) (n : String) (i : Nat) : Decides (R.excitation inv x) s n i ↔ Decides x s n i := by
  unfold Decides
  simp only [moved_kind, moved_physicals]

variable {R inv}

theorem moved_same (hinv : ∀ p, inv (R.move p) = p) (s : Statics) : SameProblem R (fun i => i) x (R.excitation inv x) s := by
  refine ⟨fun i h h' => ⟨h, (moved_excited R inv x s i).2 h'⟩, fun i j _ _ _ _ h => h, fun j h h' => ⟨j, h, (moved_excited R inv x s j).1 h', rfl⟩, ?_, ?_⟩
  · intro i t _ _ h
    show (x.mesh.triangles[i]?).bind (triVerts (x.mesh.points.map R.move)) = some (R.tri t)
    cases hi : x.mesh.triangles[i]? with
    | none => rw [hi] at h; cases h
    | some e =>
      rw [hi, Option.bind_some] at h
      rw [Option.bind_some]
      unfold triVerts at h ⊢
      split at h
      · rename_i a b c
        simp only [List.getElem?_map]
        cases ha : x.mesh.points[a]? with
        | none => rw [ha] at h; cases h
        | some pa =>
          cases hb : x.mesh.points[b]? with
          | none => rw [ha, hb] at h; cases h
          | some pb =>
            cases hc : x.mesh.points[c]? with
            | none => rw [ha, hb, hc] at h; cases h
            | some pc =>
              rw [ha, hb, hc] at h
              cases h
              rfl
      · cases h
  · intro i n n' tv tv' h h1 h' h1'
    rw [moved_decides] at h'
    obtain rfl := decides_unique h h'
    rw [moved_get, h1] at h1'
    cases h1'
    refine ⟨rfl, ?_⟩
    obtain ⟨t, v⟩ := tv
    cases v <;> simp [SameValue, moveValue, hinv]

/-- **C81**, the same numbering: solving and moving commute. -/
theorem C81_rigid {G : Geo V3} {x : Excitation ℝ V3} {env env' : SolveEnv} {f : PyObj} (hinv : ∀ p, inv (R.move p) = p)
    (hv : Valid x.mesh) (hn : x.types.keys.Nodup) (h3 : x.symmetry = .threeD) (hcur : x.hasCurrent = false) (hl : x.mesh.lineCols = 2)
    (hy : ∃ p ∈ x.mesh.points, p.y ≠ 0) (hy' : ∃ p ∈ x.mesh.points, (R.move p).y ≠ 0)
    (he : FaithfulEnv env x) (he' : FaithfulEnv env' (R.excitation inv x)) (hsign : R.sign = 1 ∨ NoInterfaces x) (hf : x.solveField G env = some f) :
    ∃ f', (R.excitation inv x).solveField G env' = some f' ∧ ∀ p,
      f'.electrostaticPotential (R.move p) = f.electrostaticPotential p ∧ f'.electrostaticField (R.move p) = (f.electrostaticField p).map R.lin ∧
      f'.magnetostaticPotential (R.move p) = f.magnetostaticPotential p ∧ f'.magnetostaticField (R.move p) = (f.magnetostaticField p).map R.lin ∧
      f'.potentialAtPoint (R.move p) = f.potentialAtPoint p ∧ f'.fieldAtPoint (R.move p) = (f.fieldAtPoint p).map R.lin := by
  have hany : ∀ P : ExcType → Bool, (R.excitation inv x).types.any (fun nv => P nv.2.1) = x.types.any fun nv => P nv.2.1 := by
    intro P
    show (x.types.map _).any _ = _
    rw [List.any_map]
    rfl
  have hv' : Valid (R.excitation inv x).mesh := by
    refine ⟨hv.cols, ?_, ?_, hv.groupLines, hv.groupTris, hv.keysLines, hv.keysTris⟩
    · intro e h
      have := hv.lines e h
      refine ⟨this.1, fun i hi => ?_⟩
      show i < (x.mesh.points.map R.move).length
      rw [List.length_map]
      exact this.2 i hi
    · intro e h
      have := hv.tris e h
      refine ⟨this.1, fun i hi => ?_⟩
      show i < (x.mesh.points.map R.move).length
      rw [List.length_map]
      exact this.2 i hi
  have hn' : (R.excitation inv x).types.keys.Nodup := by
    have : (R.excitation inv x).types.keys = x.types.keys := by
      show (x.types.map _).map _ = _
      rw [List.map_map]
      rfl
    rw [this]
    exact hn
  obtain ⟨f', h1, h2⟩ := C81_moved (σ := fun _ i => i) (moved_same x hinv) hv hv' hn hn' h3 h3 hcur
    (by rw [← hcur]; exact hany fun t => t = .current) hy
    (by obtain ⟨p, hp, h⟩ := hy'; exact ⟨R.move p, List.mem_map_of_mem hp, h⟩) hl
    (by
      intro s h n tv h1 h2
      rw [moved_get] at h1
      cases hg : x.types.get n with
      | none => rw [hg] at h1; cases h1
      | some tv0 =>
        rw [hg] at h1
        cases h1
        exact h n tv0 hg h2)
    (by
      intro s h n tv h1 h2
      rw [moved_get] at h1
      cases hg : x.types.get n with
      | none => rw [hg] at h1; cases h1
      | some tv0 =>
        rw [hg] at h1
        cases h1
        obtain ⟨a, b⟩ := h n tv0 hg h2
        refine ⟨fun h => ?_, fun h => ?_⟩
        · obtain ⟨f, hf⟩ := a h; exact ⟨_, by simp only [hf, moveValue]; rfl⟩
        · obtain ⟨f, hf⟩ := b h; exact ⟨_, by simp only [hf, moveValue]; rfl⟩)
    (hany fun t => t = .voltageFixed || t = .voltageFun) (hany fun t => t = .magnetostaticPot || t = .current) he he' hsign hf
  exact ⟨f', h1, h2⟩

end

/-- The rotations of C26 are such motions. -/
noncomputable def rotationMotion (i : Fin 3) (α : ℝ) (o : V3) : RigidMotion where
  lin := rotC i α 0
  shift := rotC i α o 0
  sign := 1
  add := fun a b => by fin_cases i <;> simp only [rotC] <;> ext <;> simp <;> ring
  smul := fun k a => by fin_cases i <;> simp only [rotC] <;> ext <;> simp <;> ring
  dot := fun a b => by
    have h := Real.sin_sq_add_cos_sq α
    fin_cases i <;> simp only [rotC, V3.dot] <;> simp
    · linear_combination (a.y * b.y + a.z * b.z) * h
    · linear_combination (a.x * b.x + a.z * b.z) * h
    · linear_combination (a.x * b.x + a.y * b.y) * h
  cross := fun a b => by
    have h := Real.sin_sq_add_cos_sq α
    fin_cases i <;> simp only [rotC, V3.cross] <;> ext <;> simp
    · linear_combination (a.y * b.z - a.z * b.y) * h
    · ring
    · ring
    · ring
    · linear_combination (a.z * b.x - a.x * b.z) * h
    · ring
    · ring
    · ring
    · linear_combination (a.x * b.y - a.y * b.x) * h
  sign_eq := Or.inl rfl

theorem rotationMotion_move (i : Fin 3) (α : ℝ) (o p : V3) : (rotationMotion i α o).move p = rotC i α o p := by
  unfold RigidMotion.move rotationMotion
  fin_cases i <;> simp only [rotC] <;> ext <;> simp <;> ring

end Traceon
