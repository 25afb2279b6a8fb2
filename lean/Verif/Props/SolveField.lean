import Verif.Props.Excitation2
import Verif.Props.Matrix3D2
import Verif.Props.MatrixRadial
import Verif.Props.FieldOps
import Verif.Spec.SolveField

/-!
# C80: the field returned by `solve_direct` does what was asked for
-/
namespace Traceon
open Spec Excitation

theorem assigned_numeric {V P : Type} (centre : Nat → P) (tv : ExcType × ExcVal V P) (idx : List Nat) {r : List V} (h : assigned centre tv idx = some r) :
    (tv.1 = .voltageFun → ∃ f, tv.2 = .fn f) ∧ (tv.1 ≠ .voltageFun → ∃ v, tv.2 = .num v) := by
  unfold assigned at h
  obtain ⟨t, v⟩ := tv
  split at h <;> rename_i ht
  · simp only [ne_eq] at ht
    refine ⟨fun h' => absurd h' ht, fun _ => ?_⟩
    cases v <;> simp at h ⊢
  · simp only [ne_eq, not_not] at ht
    refine ⟨fun _ => ?_, fun h' => absurd ht h'⟩
    cases v <;> simp at h ⊢

theorem tv_fold_conv {V P : Type} [Zero V] (x : Excitation V P) (centre : Nat → P) (l : List (String × List Nat)) (st st' : List (Option ExcType) × List V)
    (h : l.foldlM (tvStep x centre) st = some st') :
    ∀ ni ∈ l, ∃ tv, x.types.get ni.1 = some tv ∧ ((tv.1 = .voltageFun → ∃ f, tv.2 = .fn f) ∧ (tv.1 ≠ .voltageFun → ∃ v, tv.2 = .num v)) := by
  induction l generalizing st with
  | nil => intro ni hni; cases hni
  | cons a l ih =>
    rw [List.foldlM_cons] at h
    cases h1 : tvStep x centre st a with
    | none => rw [h1] at h; cases h
    | some st1 =>
      rw [h1] at h
      intro ni hni
      rcases List.mem_cons.1 hni with rfl | hni
      · unfold tvStep at h1
        cases h2 : x.types.get ni.1 with
        | none => rw [h2] at h1; cases h1
        | some tv =>
          rw [h2] at h1
          cases h3 : assigned centre tv ni.2 with
          | none => simp [h3] at h1
          | some r => exact ⟨tv, rfl, assigned_numeric centre tv ni.2 h3⟩
      · exact ih st1 h ni hni

/-- What the constructor of a solver has found out when it returns. -/
structure InitSpec (x : Excitation ℝ V3) (s : Statics) (st : SolverState) (idx : List Nat) : Prop where
  proper : Proper x s
  numeric : Numeric x s
  sorted : idx.Pairwise (· < ·)
  mem : ∀ i, i ∈ idx ↔ i < x.elements.length ∧ Excited x s i
  typesLen : st.types.length = idx.length
  valuesLen : st.values.length = idx.length
  arrays : ∀ (k i : Nat) n tv e, idx[k]? = some i → x.elements[i]? = some e → Decides x s n i → x.types.get n = some tv →
    st.types[k]? = some (some tv.1) ∧ st.values[k]? = some (match tv.2 with
      | .num v => v
      | .fn f => f (elementCentre x.mesh (coords x.mesh.points e))
      | .other => 0)
  elems : match st.elems with
    | .lines ls => x.mesh.is2d realThirds = true ∧ x.mesh.isHigherOrder = true ∧ ls.length = idx.length ∧
        ∀ k i : Nat, idx[k]? = some i → ls[k]? = (x.elements[i]?).bind fun e => toLine4 (coords x.mesh.points e)
    | .tris ts => x.mesh.is2d realThirds = false ∧ x.mesh.isHigherOrder = false ∧ ts.length = idx.length ∧
        ∀ k i : Nat, idx[k]? = some i → ts[k]? = (x.elements[i]?).bind fun e => toTri3 (coords x.mesh.points e)
  coils : match s with
    | .electrostatic => st.coils = EffCharges.empty3d
    | .magnetostatic => x.currentCharges = some st.coils

theorem solverInit_spec {x : Excitation ℝ V3} {s : Statics} {st : SolverState} (hv : Valid x.mesh) (hn : x.types.keys.Nodup)
    (h : x.solverInit s = some st) : ∃ idx, InitSpec x s st idx := by
  have hp : Proper x s := by
    by_contra hcon
    unfold solverInit at h
    rw [C33_wrong_dimension hcon] at h
    cases h
  obtain ⟨verts, names, idx, ha⟩ := active_spec hv hn hp
  unfold solverInit at h
  rw [ha.eq] at h
  simp only [Option.bind_eq_bind, Option.bind_some] at h
  cases htv : x.typesAndValues names verts.length (fun k => elementCentre x.mesh (verts.getD k [])) with
  | none => rw [htv] at h; cases h
  | some tv0 =>
    have hnum : Numeric x s := by
      intro n tv h1 h2
      obtain ⟨g, hg⟩ := hp n tv h1 h2
      obtain ⟨js, hjs, _⟩ := ha.nameIdx n g hg ⟨tv, h1, h2⟩
      obtain ⟨tv', h3, h4⟩ := tv_fold_conv x _ names _ _ htv _ (Dict.mem_of_get hjs)
      rw [h1] at h3
      cases h3
      exact h4
    obtain ⟨ts, vs, h1, h2, h3, h4⟩ := solver_arrays hv hnum ha (fun k => elementCentre x.mesh (verts.getD k []))
    rw [h1] at h htv
    cases htv
    simp only [Option.bind_some] at h
    refine ⟨idx, ?_⟩
    have hvert : ∀ (k i : Nat) e, idx[k]? = some i → x.elements[i]? = some e → verts[k]? = some (coords x.mesh.points e) := by
      intro k i e hk he
      rw [ha.vertIdx k i hk, List.getElem?_map, he]; rfl
    have harr : ∀ (k i : Nat) n tv e, idx[k]? = some i → x.elements[i]? = some e → Decides x s n i → x.types.get n = some tv →
        ts[k]? = some (some tv.1) ∧ vs[k]? = some (match tv.2 with
          | .num v => v
          | .fn f => f (elementCentre x.mesh (coords x.mesh.points e))
          | .other => 0) := by
      intro k i n tv e hk he hd hty
      obtain ⟨e1, e2⟩ := h4 k i n tv hk hd hty
      refine ⟨e1, e2.trans ?_⟩
      unfold valueAt
      beta_reduce
      rw [List.getD_eq_getElem?_getD, hvert k i e hk he]
      obtain ⟨t, v⟩ := tv
      cases v <;> rfl
    have hel : ∀ {α : Type} (c : List V3 → Option α) (es : List α), verts.mapM c = some es →
        es.length = idx.length ∧ ∀ k i : Nat, idx[k]? = some i → es[k]? = (x.elements[i]?).bind fun e => c (coords x.mesh.points e) := by
      intro α c es hes
      refine ⟨(mapM_length hes).trans ha.len, fun k i hk => ?_⟩
      rw [mapM_getElem? hes]
      have hi := ((ha.mem i).1 (List.mem_of_getElem? hk)).1
      have he : x.elements[i]? = some x.elements[i] := by simp [hi]
      rw [hvert k i _ hk he, he]
      rfl
    cases h2d : x.mesh.is2d realThirds <;> cases hho : x.mesh.isHigherOrder <;> rw [h2d, hho] at h <;> simp only [if_true, if_false, Bool.false_eq_true] at h
    · cases hm : verts.mapM toTri3 with
      | none => rw [hm] at h; cases h
      | some es =>
        rw [hm] at h
        simp only [Option.map_some, Option.bind_some] at h
        cases s with
        | electrostatic =>
          cases h
          exact ⟨hp, hnum, ha.sorted, ha.mem, h2, h3, harr, ⟨h2d, hho, hel _ _ hm⟩, rfl⟩
        | magnetostatic =>
          simp only at h
          cases hc : x.currentCharges with
          | none => rw [hc] at h; cases h
          | some c =>
            rw [hc] at h
            simp only [Option.bind_some] at h
            cases h
            exact ⟨hp, hnum, ha.sorted, ha.mem, h2, h3, harr, ⟨h2d, hho, hel _ _ hm⟩, hc⟩
    · cases h
    · cases h
    · cases hm : verts.mapM toLine4 with
      | none => rw [hm] at h; cases h
      | some es =>
        rw [hm] at h
        simp only [Option.map_some, Option.bind_some] at h
        cases s with
        | electrostatic =>
          cases h
          exact ⟨hp, hnum, ha.sorted, ha.mem, h2, h3, harr, ⟨h2d, hho, hel _ _ hm⟩, rfl⟩
        | magnetostatic =>
          simp only at h
          cases hc : x.currentCharges with
          | none => rw [hc] at h; cases h
          | some c =>
            rw [hc] at h
            simp only [Option.bind_some] at h
            cases h
            exact ⟨hp, hnum, ha.sorted, ha.mem, h2, h3, harr, ⟨h2d, hho, hel _ _ hm⟩, hc⟩

/-- The rows of the system that was solved. -/
theorem linSolve_rows {n : Nat} {A : Nat → Nat → ℝ} {F q : List ℝ} (h : linSolve (Matrix.of fun i j : Fin n => A i j) F = some q) :
    q.length = n ∧ ∀ i < n, ∑ j ∈ Finset.range n, A i j * q.getD j 0 = F.getD i 0 := by
  constructor
  · unfold linSolve at h
    split at h
    · cases h
    · cases h; simp
  · intro i hi
    have := linSolve_spec h ⟨i, hi⟩
    rw [Finset.sum_range]
    simpa using this

theorem meanPoint_tri (a b c : V3) : meanPoint [a, b, c] = centroid ⟨a, b, c⟩ := by
  unfold meanPoint centroid
  ext <;> simp <;> ring

theorem typeCheck_of_decides {V P : Type} {x : Excitation V P} {s : Statics} {n : String} {i : Nat} {tv : ExcType × ExcVal V P}
    (hd : Decides x s n i) (htv : x.types.get n = some tv) : typeCheck s tv.1 = true := by
  obtain ⟨_, _, _, _, _, ⟨tv', h5, h6⟩, _⟩ := hd
  rw [htv] at h5; cases h5; exact h6

theorem rhs_electro {st : SolverState} {k : Nat} {t : Option ExcType} {v : ℝ} (h1 : st.types[k]? = some t) (h2 : st.values[k]? = some v) :
    (st.rhs .electrostatic).getD k 0 = rhsElectric t v := by
  unfold SolverState.rhs
  rw [List.getD_eq_getElem?_getD, List.getElem?_map, (List.getElem?_zip_eq_some (z := (t, v))).2 ⟨h1, h2⟩]
  rfl

theorem rhs_magneto {st : SolverState} {k : Nat} {t : Option ExcType} {v : ℝ} (h1 : st.types[k]? = some t) (h2 : st.values[k]? = some v) :
    (st.rhs .magnetostatic).getD k 0 = rhsMagnetic st.fluxTerm k t v := by
  unfold SolverState.rhs
  simp only
  rw [List.getD_eq_getElem?_getD, List.getElem?_map, List.getElem?_zipIdx, (List.getElem?_zip_eq_some (z := (t, v))).2 ⟨h1, h2⟩]
  simp

/-- Three dimensions: the charges that are found solve the problem. -/
theorem solve_tris {x : Excitation ℝ V3} {s : Statics} {st : SolverState} {idx : List Nat} {ts : List Tri3} {env : SolveEnv} {q : List ℝ} (hv : Valid x.mesh)
    (hI : InitSpec x s st idx) (hts : st.elems = .tris ts) (h3 : x.symmetry = .threeD) (hcoil : st.coils = EffCharges.empty3d) (hT : 0 < env.threads)
    (ho : env.routines.Correct ts.length (ts.getD · ⟨0, 0, 0⟩) (fun i => (st.types[i]?).join))
    (hj : Joined (env.sched s) (matrixProgs false ts.length env.threads
          (fillOps3d env.routines (ts.getD · ⟨0, 0, 0⟩) (fun i => (st.types[i]?).join) (st.values.getD · 0))))
    (hq : st.charges env s = some q) : Solves3d x s (triCharges ts q) := by
  have hel := hI.elems
  rw [hts] at hel
  simp only at hel
  obtain ⟨h2d, hho, hlen, hget⟩ := hel
  have hels : x.elements = x.mesh.triangles := by unfold Excitation.elements; rw [h3]; rfl
  have hsize : st.size = ts.length := by unfold SolverState.size; rw [hts]
  have hqlen : q.length = ts.length ∧ (st.size ≠ 0 → ∃ A, st.matrix env s = some A ∧
      ∀ i < ts.length, ∑ j ∈ Finset.range ts.length, A i j * q.getD j 0 = (st.rhs s).getD i 0) := by
    unfold SolverState.charges at hq
    split at hq <;> rename_i h0
    · cases hq
      rw [hsize] at h0
      exact ⟨h0.symm, fun h => absurd hsize (by rw [h0]; exact h)⟩
    · cases hA : st.matrix env s with
      | none => rw [hA] at hq; cases hq
      | some A =>
        rw [hA] at hq
        simp only [Option.bind_eq_bind, Option.bind_some] at hq
        obtain ⟨e1, e2⟩ := linSolve_rows hq
        rw [hsize] at e1 e2
        exact ⟨e1, fun _ => ⟨A, rfl, e2⟩⟩
  have htri : ∀ (k i : Nat), idx[k]? = some i → ∃ e, x.mesh.triangles[i]? = some e ∧ ∃ t, triVerts x.mesh.points e = some t ∧ ts[k]? = some t ∧
      coords x.mesh.points e = [t.v0, t.v1, t.v2] := by
    intro k i hk
    have hi := ((hI.mem i).1 (List.mem_of_getElem? hk)).1
    rw [hels] at hi
    have he : x.mesh.triangles[i]? = some x.mesh.triangles[i] := by simp [hi]
    refine ⟨_, he, ?_⟩
    obtain ⟨hl, hb⟩ := hv.tris _ (List.getElem_mem hi)
    have hg := hget k i hk
    rw [hels, he, Option.bind_some] at hg
    generalize x.mesh.triangles[i] = e at hl hb hg ⊢
    match e, hl with
    | [a, b, c], _ =>
      have ha := hb a (by simp)
      have hb' := hb b (by simp)
      have hc := hb c (by simp)
      have : coords x.mesh.points [a, b, c] = [x.mesh.points[a], x.mesh.points[b], x.mesh.points[c]] := by
        unfold coords
        simp [List.filterMap_cons, ha, hb', hc]
      rw [this] at hg ⊢
      refine ⟨⟨x.mesh.points[a], x.mesh.points[b], x.mesh.points[c]⟩, ?_, hg, rfl⟩
      unfold triVerts
      simp [ha, hb', hc]
  refine ⟨idx, ts, q, rfl, hlen, hqlen.1.trans hlen, hI.sorted, by rw [← hels]; exact hI.mem, ?_⟩
  intro k i hk
  obtain ⟨e, he, t, ht, htk, hco⟩ := htri k i hk
  refine ⟨⟨t, by rw [he]; exact ht, htk⟩, ?_⟩
  intro n tv hd htv
  have hkind := typeCheck_of_decides hd htv
  have hnn := hI.numeric n tv htv hkind
  obtain ⟨ht1, ht2⟩ := hI.arrays k i n tv e hk (by rw [hels]; exact he) hd htv
  have hkl : k < ts.length := (List.getElem?_eq_some_iff.1 htk).1
  obtain ⟨A, hA, hrow⟩ := hqlen.2 (by rw [hsize]; omega)
  obtain ⟨T, hTT⟩ := Int.eq_ofNat_of_zero_le hT.le
  rw [hTT] at hj hT
  have hT' : 0 < T := by simpa using hT
  unfold SolverState.matrix at hA
  rw [hts, hTT] at hA
  simp only at hA
  obtain ⟨A1, hA1, hp1⟩ := C59_voltage_partial (values := (st.values.getD · 0)) hT' ho (fun _ => 0) (env.sched s) hj
  obtain ⟨A2, hA2, hp2⟩ := C59_interface_partial (values := (st.values.getD · 0)) hT' ho (fun _ => 0) (env.sched s) hj
  have e1 : A1 = A := Option.some.inj (hA1.symm.trans hA)
  have e2 : A2 = A := Option.some.inj (hA2.symm.trans hA)
  subst e1
  subst e2
  have hty : (st.types[k]?).join = some tv.1 := by rw [ht1]; rfl
  have hcen : elementCentre x.mesh (coords x.mesh.points e) = centroid (ts.getD k ⟨0, 0, 0⟩) := by
    unfold elementCentre
    rw [h2d, hco, List.getD_eq_getElem?_getD, htk]
    simp [meanPoint_tri]
  have hr := hrow k hkl
  have hval : ∀ w, st.values[k]? = some w → st.values.getD k 0 = w := by intro w hw; rw [List.getD_eq_getElem?_getD, hw]; rfl
  obtain ⟨ty, v⟩ := tv
  cases s with
  | electrostatic =>
    rw [rhs_electro ht1 ht2] at hr
    cases ty with
    | voltageFixed =>
      obtain ⟨a, rfl⟩ := hnn.2 (by simp)
      have := hp1 k hkl (Or.inl hty) (q.getD · 0)
      rw [hr] at this
      exact this
    | voltageFun =>
      obtain ⟨f, rfl⟩ := hnn.1 rfl
      have := hp1 k hkl (Or.inr (Or.inl hty)) (q.getD · 0)
      rw [hr] at this
      simp only [rhsElectric, hcen] at this
      exact this
    | dielectric =>
      obtain ⟨a, rfl⟩ := hnn.2 (by simp)
      intro hK
      obtain ⟨e, h1, h2⟩ := hp2 k hkl (Or.inl hty) (by rw [hval _ ht2]; exact hK) (q.getD · 0)
      refine ⟨e, h1, ?_⟩
      have := (h2 0).1 (by rw [hr]; simp [rhsElectric])
      rw [hval _ ht2, add_zero] at this
      exact this
    | current => simp [typeCheck, ExcType.isElectrostatic] at hkind
    | magnetostaticPot => simp [typeCheck, ExcType.isElectrostatic] at hkind
    | magnetizable => simp [typeCheck, ExcType.isElectrostatic] at hkind
  | magnetostatic =>
    rw [rhs_magneto ht1 ht2] at hr
    cases ty with
    | magnetostaticPot =>
      obtain ⟨a, rfl⟩ := hnn.2 (by simp)
      have := hp1 k hkl (Or.inr (Or.inr hty)) (q.getD · 0)
      rw [hr] at this
      exact this
    | magnetizable =>
      obtain ⟨a, rfl⟩ := hnn.2 (by simp)
      intro hK
      obtain ⟨e, h1, h2⟩ := hp2 k hkl (Or.inr hty) (by rw [hval _ ht2]; exact hK) (q.getD · 0)
      refine ⟨e, h1, ?_⟩
      have := (h2 0).1 (by
        rw [hr]
        simp only [rhsMagnetic, SolverState.fluxTerm, hts, htk, fluxTerm3d, hcoil]
        rw [currentField_of_empty _ (by simp [EffCharges.len, EffCharges.empty3d])]
        simp)
      rw [hval _ ht2, add_zero] at this
      exact this
    | voltageFixed => simp [typeCheck] at hkind
    | voltageFun => simp [typeCheck] at hkind
    | dielectric => simp [typeCheck] at hkind
    | current => simp [typeCheck] at hkind

/-- Radial symmetry: the charges that are found solve the problem. -/
theorem solve_lines {x : Excitation ℝ V3} {s : Statics} {st : SolverState} {idx : List Nat} {ls : List Line4} {env : SolveEnv} {q : List ℝ} (hv : Valid x.mesh)
    (hI : InitSpec x s st idx) (hls : st.elems = .lines ls) (h2 : x.symmetry = .radial) (hT : 0 < env.threads) (henough : ls ≠ [] → 2 * env.threads ≤ ls.length)
    (hplane : ∀ l ∈ ls, InHalfPlane l)
    (hj : Joined (env.sched s) (matrixProgs true ls.length env.threads
          (fillOpsRadial (ls.getD · ⟨0, 0, 0, 0⟩) (fun i => (st.types[i]?).join) (st.values.getD · 0))))
    (hq : st.charges env s = some q) : SolvesRadial x s st.coils (lineCharges ls q) := by
  have hel := hI.elems
  rw [hls] at hel
  simp only at hel
  obtain ⟨h2d, hho, hlen, hget⟩ := hel
  have hels : x.elements = x.mesh.lines := by unfold Excitation.elements; rw [h2]; rfl
  have hsize : st.size = ls.length := by unfold SolverState.size; rw [hls]
  have hqlen : q.length = ls.length ∧ (st.size ≠ 0 → ∃ A, st.matrix env s = some A ∧
      ∀ i < ls.length, ∑ j ∈ Finset.range ls.length, A i j * q.getD j 0 = (st.rhs s).getD i 0) := by
    unfold SolverState.charges at hq
    split at hq <;> rename_i h0
    · cases hq
      rw [hsize] at h0
      exact ⟨h0.symm, fun h => absurd hsize (by rw [h0]; exact h)⟩
    · cases hA : st.matrix env s with
      | none => rw [hA] at hq; cases hq
      | some A =>
        rw [hA] at hq
        simp only [Option.bind_eq_bind, Option.bind_some] at hq
        obtain ⟨e1, e2⟩ := linSolve_rows hq
        rw [hsize] at e1 e2
        exact ⟨e1, fun _ => ⟨A, rfl, e2⟩⟩
  have hcols : x.mesh.lineCols = 4 := by simpa [Mesh.isHigherOrder] using hho
  have hline : ∀ (k i : Nat), idx[k]? = some i → ∃ a b c d l, x.mesh.lines[i]? = some [a, b, c, d] ∧ x.mesh.points[a]? = some l.l0 ∧ x.mesh.points[b]? = some l.l1 ∧
        x.mesh.points[c]? = some l.l2 ∧ x.mesh.points[d]? = some l.l3 ∧ ls[k]? = some l ∧ coords x.mesh.points [a, b, c, d] = [l.l0, l.l1, l.l2, l.l3] := by
    intro k i hk
    have hi := ((hI.mem i).1 (List.mem_of_getElem? hk)).1
    rw [hels] at hi
    have he : x.mesh.lines[i]? = some x.mesh.lines[i] := by simp [hi]
    obtain ⟨hl, hb⟩ := hv.lines _ (List.getElem_mem hi)
    have hg := hget k i hk
    rw [hels, he, Option.bind_some] at hg
    rw [hcols] at hl
    generalize x.mesh.lines[i] = e at hl hb hg he
    match e, hl with
    | [a, b, c, d], _ =>
      have ha := hb a (by simp)
      have hb' := hb b (by simp)
      have hc := hb c (by simp)
      have hd := hb d (by simp)
      have : coords x.mesh.points [a, b, c, d] = [x.mesh.points[a], x.mesh.points[b], x.mesh.points[c], x.mesh.points[d]] := by
        unfold coords
        simp [List.filterMap_cons, ha, hb', hc, hd]
      rw [this] at hg
      exact ⟨a, b, c, d, ⟨x.mesh.points[a], x.mesh.points[b], x.mesh.points[c], x.mesh.points[d]⟩, he, by simp [ha], by simp [hb'], by simp [hc], by simp [hd], hg, this⟩
  refine ⟨idx, ls, q, rfl, hlen, hqlen.1.trans hlen, hI.sorted, by rw [← hels]; exact hI.mem, ?_⟩
  intro k i hk
  obtain ⟨a, b, c, d, l, he, hla, hlb, hlc, hld, hlk, hco⟩ := hline k i hk
  refine ⟨⟨a, b, c, d, l, he, hla, hlb, hlc, hld, hlk⟩, ?_⟩
  intro n tv hd htv
  have hkind := typeCheck_of_decides hd htv
  have hnn := hI.numeric n tv htv hkind
  obtain ⟨ht1, ht2⟩ := hI.arrays k i n tv _ hk (by rw [hels]; exact he) hd htv
  have hkl : k < ls.length := (List.getElem?_eq_some_iff.1 hlk).1
  obtain ⟨A, hA, hrow⟩ := hqlen.2 (by rw [hsize]; omega)
  have hen := henough (by intro h; rw [h] at hkl; simp at hkl)
  obtain ⟨T, hTT⟩ := Int.eq_ofNat_of_zero_le hT.le
  rw [hTT] at hj hT hen
  have hT' : 0 < T := by simpa using hT
  have hen' : 2 * T ≤ ls.length := by exact_mod_cast hen
  have hl : ∀ i < ls.length, InHalfPlane (ls.getD i ⟨0, 0, 0, 0⟩) := by
    intro i hi
    rw [List.getD_eq_getElem?_getD, List.getElem?_eq_getElem hi]
    exact hplane _ (List.getElem_mem hi)
  unfold SolverState.matrix at hA
  rw [hls, hTT] at hA
  simp only at hA
  obtain ⟨A1, hA1, hp1⟩ := C72_voltage_partial (values := (st.values.getD · 0)) hT' hen' hl (env.sched s) hj
  obtain ⟨A2, hA2, hp2⟩ := C72_interface_partial (values := (st.values.getD · 0)) hT' hen' hl (env.sched s) hj
  have e1 : A1 = A := Option.some.inj (hA1.symm.trans hA)
  have e2 : A2 = A := Option.some.inj (hA2.symm.trans hA)
  subst e1
  subst e2
  have hty : (st.types[k]?).join = some tv.1 := by rw [ht1]; rfl
  have hlD : ls.getD k ⟨0, 0, 0, 0⟩ = l := by rw [List.getD_eq_getElem?_getD, hlk]; rfl
  have hc' : lineCentre l = elemPoint l 0 := by
    unfold lineCentre
    rw [elemPoint_linePos]
    ext
    · rfl
    · exact (elemPoint_y (hplane l (List.mem_of_getElem? hlk)) 0).symm
    · rfl
  have hcen : elementCentre x.mesh (coords x.mesh.points [a, b, c, d]) = elemPoint l 0 := by
    unfold elementCentre
    rw [h2d, hho, hco]
    simp [toLine4, hc']
  have hr := hrow k hkl
  have hval : ∀ w, st.values[k]? = some w → st.values.getD k 0 = w := by intro w hw; rw [List.getD_eq_getElem?_getD, hw]; rfl
  obtain ⟨ty, v⟩ := tv
  cases s with
  | electrostatic =>
    rw [rhs_electro ht1 ht2] at hr
    cases ty with
    | voltageFixed =>
      obtain ⟨a, rfl⟩ := hnn.2 (by simp)
      have := hp1 k hkl (Or.inl hty) (q.getD · 0)
      rw [hr] at this
      exact this.symm
    | voltageFun =>
      obtain ⟨f, rfl⟩ := hnn.1 rfl
      have := hp1 k hkl (Or.inr (Or.inl hty)) (q.getD · 0)
      rw [hr] at this
      simp only [rhsElectric, hcen] at this
      simp only [ConditionRadial]
      rw [← this, hlD]
    | dielectric =>
      obtain ⟨a, rfl⟩ := hnn.2 (by simp)
      intro hK
      have := (hp2 k hkl (Or.inl hty) (by rw [hval _ ht2]; exact hK) (q.getD · 0) 0).1 (by rw [hr]; simp [rhsElectric])
      rw [hval _ ht2, add_zero] at this
      exact this
    | current => simp [typeCheck, ExcType.isElectrostatic] at hkind
    | magnetostaticPot => simp [typeCheck, ExcType.isElectrostatic] at hkind
    | magnetizable => simp [typeCheck, ExcType.isElectrostatic] at hkind
  | magnetostatic =>
    rw [rhs_magneto ht1 ht2] at hr
    cases ty with
    | magnetostaticPot =>
      obtain ⟨a, rfl⟩ := hnn.2 (by simp)
      have := hp1 k hkl (Or.inr (Or.inr hty)) (q.getD · 0)
      rw [hr] at this
      exact this.symm
    | magnetizable =>
      obtain ⟨a, rfl⟩ := hnn.2 (by simp)
      intro hK
      have := (hp2 k hkl (Or.inr hty) (by rw [hval _ ht2]; exact hK) (q.getD · 0)
        (V3.dot (elemNormal l) (currentField (elemPoint l 0) st.coils))).1 (by
        rw [hr, hval _ ht2]
        simp only [rhsMagnetic, SolverState.fluxTerm, hls, hlk, fluxTermRadial, hc']
        rw [elemNormal_eq (hplane l (List.mem_of_getElem? hlk))]
        simp only [V3.dot]
        ring)
      rw [hval _ ht2] at this
      simp only [hlD] at this ⊢
      exact this
    | voltageFixed => simp [typeCheck] at hkind
    | voltageFun => simp [typeCheck] at hkind
    | dielectric => simp [typeCheck] at hkind
    | current => simp [typeCheck] at hkind

end Traceon
