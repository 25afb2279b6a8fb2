import Verif.Props.Rigid2

/-!
# C81: the field of a moved problem
-/
namespace Traceon
open Spec V3 Excitation

theorem init_tri {x : Excitation ℝ V3} {s : Statics} {st : SolverState} {idx : List Nat} {ts : List Tri3} (hv : Valid x.mesh)
    (hI : InitSpec x s st idx) (hts : st.elems = .tris ts) (h3 : x.symmetry = .threeD) {k i : Nat} (hk : idx[k]? = some i) :
    ∃ e t, x.mesh.triangles[i]? = some e ∧ triVerts x.mesh.points e = some t ∧ ts[k]? = some t ∧ coords x.mesh.points e = [t.v0, t.v1, t.v2] := by
  have hel := hI.elems
  rw [hts] at hel
  simp only at hel
  obtain ⟨h2d, hho, hlen, hget⟩ := hel
  have hels : x.elements = x.mesh.triangles := by unfold Excitation.elements; rw [h3]; rfl
  have hi := ((hI.mem i).1 (List.mem_of_getElem? hk)).1
  rw [hels] at hi
  have he : x.mesh.triangles[i]? = some x.mesh.triangles[i] := by simp [hi]
  obtain ⟨hl, hb⟩ := hv.tris _ (List.getElem_mem hi)
  have hg := hget k i hk
  rw [hels, he, Option.bind_some] at hg
  refine ⟨x.mesh.triangles[i], ?_⟩
  rw [he]
  generalize x.mesh.triangles[i] = e at hl hb hg ⊢
  match e, hl with
  | [a, b, c], _ =>
    have ha := hb a (by simp)
    have hb' := hb b (by simp)
    have hc := hb c (by simp)
    have : coords x.mesh.points [a, b, c] = [x.mesh.points[a], x.mesh.points[b], x.mesh.points[c]] := by
      unfold coords
      simp [List.filterMap_cons, ha, hb', hc]
    rw [this] at hg
    refine ⟨⟨x.mesh.points[a], x.mesh.points[b], x.mesh.points[c]⟩, rfl, ?_, hg, this⟩
    unfold triVerts
    simp [ha, hb', hc]

/-- The right hand side in three dimensions depends on the types and values only. -/
theorem rhs_tris {st : SolverState} {s : Statics} {ts : List Tri3} (hts : st.elems = .tris ts) (hcoil : st.coils = EffCharges.empty3d) {k : Nat} {t : Option ExcType} {v : ℝ}
    (h1 : st.types[k]? = some t) (h2 : st.values[k]? = some v) :
    (st.rhs s).getD k 0 = match s with
      | .electrostatic => rhsElectric t v
      | .magnetostatic => rhsMagnetic (fun _ _ => 0) 0 t v := by
  cases s with
  | electrostatic => exact rhs_electro h1 h2
  | magnetostatic =>
    rw [rhs_magneto h1 h2]
    have hz : ∀ k μ, st.fluxTerm k μ = 0 := by
      intro k μ
      simp only [SolverState.fluxTerm, hts]
      cases ts[k]? with
      | none => rfl
      | some t =>
        simp only [fluxTerm3d, hcoil]
        rw [currentField_of_empty _ (by simp [EffCharges.len, EffCharges.empty3d])]
        simp
    cases t with
    | none => rfl
    | some t => cases t <;> simp [rhsMagnetic, hz]

section
variable {R : RigidMotion} {σ : Nat → Nat} {x x' : Excitation ℝ V3} {s : Statics} {st st' : SolverState} {idx idx' : List Nat} {ts ts' : List Tri3}

/-- The numbering of the elements of one solver in terms of the other. -/
theorem exists_renumbering (h : SameProblem R σ x x' s) (hI : InitSpec x s st idx) (hI' : InitSpec x' s st' idx') (h3 : x.symmetry = .threeD) (h3' : x'.symmetry = .threeD) :
    ∃ e : Fin idx.length ≃ Fin idx'.length, ∀ k, idx'[e k] = σ idx[k] := by
  have hels : x.elements = x.mesh.triangles := by unfold Excitation.elements; rw [h3]; rfl
  have hels' : x'.elements = x'.mesh.triangles := by unfold Excitation.elements; rw [h3']; rfl
  have hm : ∀ i, i ∈ idx ↔ i < x.mesh.triangles.length ∧ Excited x s i := by rw [← hels]; exact hI.mem
  have hm' : ∀ i, i ∈ idx' ↔ i < x'.mesh.triangles.length ∧ Excited x' s i := by rw [← hels']; exact hI'.mem
  have hnd : idx.Nodup := hI.sorted.imp fun h => ne_of_lt h
  have hnd' : idx'.Nodup := hI'.sorted.imp fun h => ne_of_lt h
  have hto : ∀ k : Fin idx.length, σ idx[k] ∈ idx' := by
    intro k
    have := (hm idx[k]).1 (List.getElem_mem _)
    exact (hm' _).2 (h.into _ this.1 this.2)
  let f : Fin idx.length → Fin idx'.length := fun k => ⟨idx'.idxOf (σ idx[k]), List.idxOf_lt_length_iff.2 (hto k)⟩
  have hf : ∀ k, idx'[f k] = σ idx[k] := fun k => by simp [f]
  have hb : Function.Bijective f := by
    constructor
    · intro k l hkl
      have h1 := hf k
      rw [hkl, hf l] at h1
      have hk := (hm idx[k]).1 (List.getElem_mem _)
      have hl := (hm idx[l]).1 (List.getElem_mem _)
      have := h.inj _ _ hl.1 hl.2 hk.1 hk.2 h1
      exact Fin.ext ((hnd.getElem_inj_iff).1 this).symm
    · intro k'
      obtain ⟨h1, h2⟩ := (hm' idx'[k']).1 (List.getElem_mem _)
      obtain ⟨i, hi1, hi2, hi3⟩ := h.onto _ h1 h2
      obtain ⟨k, hk, hki⟩ := List.getElem_of_mem ((hm i).2 ⟨hi1, hi2⟩)
      refine ⟨⟨k, hk⟩, ?_⟩
      have := hf ⟨k, hk⟩
      have h4 : idx[(⟨k, hk⟩ : Fin idx.length)] = i := hki
      rw [h4, hi3] at this
      exact Fin.ext ((hnd'.getElem_inj_iff).1 this)
  exact ⟨Equiv.ofBijective f hb, hf⟩

/-- The elements, types and values of the two solvers agree. -/
theorem renumbered (h : SameProblem R σ x x' s) (hv : Valid x.mesh) (hv' : Valid x'.mesh) (hI : InitSpec x s st idx) (hI' : InitSpec x' s st' idx')
    (h3 : x.symmetry = .threeD) (h3' : x'.symmetry = .threeD) (hts : st.elems = .tris ts) (hts' : st'.elems = .tris ts') :
    ∃ e : Fin ts.length ≃ Fin ts'.length, ∀ k : Fin ts.length, ∃ t ty v, ts[k.1]? = some t ∧ ts'[(e k).1]? = some (R.tri t) ∧ st.types[k.1]? = some (some ty) ∧
      st'.types[(e k).1]? = some (some ty) ∧ st.values[k.1]? = some v ∧ st'.values[(e k).1]? = some v ∧ ∃ n tv, x.types.get n = some tv ∧ tv.1 = ty := by
  have hels : x.elements = x.mesh.triangles := by unfold Excitation.elements; rw [h3]; rfl
  have hels' : x'.elements = x'.mesh.triangles := by unfold Excitation.elements; rw [h3']; rfl
  obtain ⟨e0, he0⟩ := exists_renumbering h hI hI' h3 h3'
  have hel := hI.elems
  rw [hts] at hel
  simp only at hel
  obtain ⟨h2d, -, hlen, -⟩ := hel
  have hel' := hI'.elems
  rw [hts'] at hel'
  simp only at hel'
  obtain ⟨h2d', -, hlen', -⟩ := hel'
  refine ⟨(finCongr hlen).trans (e0.trans (finCongr hlen'.symm)), fun k => ?_⟩
  set k0 : Fin idx.length := finCongr hlen k with hk0
  have hk : idx[k.1]? = some idx[k0] := by
    rw [List.getElem?_eq_some_iff]
    exact ⟨k0.2, rfl⟩
  have hek : (((finCongr hlen).trans (e0.trans (finCongr hlen'.symm))) k).1 = (e0 k0).1 := rfl
  rw [hek]
  have hk' : idx'[(e0 k0).1]? = some (σ idx[k0]) := by
    rw [List.getElem?_eq_some_iff]
    exact ⟨(e0 k0).2, he0 k0⟩
  obtain ⟨el, t, a1, a2, a3, a4⟩ := init_tri hv hI hts h3 hk
  obtain ⟨el', t', b1, b2, b3, b4⟩ := init_tri hv' hI' hts' h3' hk'
  have hmem := (hI.mem _).1 (List.mem_of_getElem? hk)
  rw [hels] at hmem
  have hmem' := (hI'.mem _).1 (List.mem_of_getElem? hk')
  have htt : t' = R.tri t := by
    have := h.corners _ t hmem.1 hmem.2 (by rw [a1]; exact a2)
    rw [b1, Option.bind_some, b2] at this
    exact Option.some.inj this
  obtain ⟨n, hd⟩ := exists_decides hmem.2
  obtain ⟨n', hd'⟩ := exists_decides hmem'.2
  obtain ⟨_, _, _, _, _, ⟨tv, c1, c2⟩, _⟩ := id hd
  obtain ⟨_, _, _, _, _, ⟨tv', c1', c2'⟩, _⟩ := id hd'
  obtain ⟨s1, s2⟩ := h.excitation _ _ _ _ _ hd c1 hd' c1'
  obtain ⟨d1, d2⟩ := hI.arrays _ _ n tv el hk (by rw [hels]; exact a1) hd c1
  obtain ⟨d1', d2'⟩ := hI'.arrays _ _ n' tv' el' hk' (by rw [hels']; exact b1) hd' c1'
  refine ⟨t, tv.1, _, a3, by rw [b3, htt], d1, by rw [d1', s1], d2, ?_, n, tv, c1, rfl⟩
  rw [d2']
  congr 1
  have hcen : elementCentre x'.mesh (coords x'.mesh.points el') = R.move (elementCentre x.mesh (coords x.mesh.points el)) := by
    unfold elementCentre
    rw [h2d, h2d', a4, b4]
    simp only [Bool.not_false, Bool.true_or, if_true]
    rw [meanPoint_tri, meanPoint_tri]
    have e1 : (⟨t'.v0, t'.v1, t'.v2⟩ : Tri3) = R.tri t := by rw [htt]
    have e2 : (⟨t.v0, t.v1, t.v2⟩ : Tri3) = t := rfl
    rw [e1, e2, ← triTarget_eq, ← triTarget_eq, R.triTarget_tri]
  rw [hcen]
  revert s2
  cases tv.2 <;> cases tv'.2 <;> simp only [SameValue] <;> intro s2 <;> first | exact s2.elim | exact s2 | exact s2 _ | rfl

/-- The charges of the two solvers agree. -/
theorem charges_move (h : SameProblem R σ x x' s) (hv : Valid x.mesh) (hv' : Valid x'.mesh) (hI : InitSpec x s st idx) (hI' : InitSpec x' s st' idx')
    (h3 : x.symmetry = .threeD) (h3' : x'.symmetry = .threeD) (hts : st.elems = .tris ts) (hts' : st'.elems = .tris ts')
    (hc : st.coils = EffCharges.empty3d) (hc' : st'.coils = EffCharges.empty3d) (hsign : R.sign = 1 ∨ NoInterfaces x) {env env' : SolveEnv}
    (hT : 0 < env.threads) (hT' : 0 < env'.threads)
    (ho : env.routines.Correct ts.length (ts.getD · ⟨0, 0, 0⟩) (fun i => (st.types[i]?).join))
    (hj : Joined (env.sched s) (matrixProgs false ts.length env.threads
          (fillOps3d env.routines (ts.getD · ⟨0, 0, 0⟩) (fun i => (st.types[i]?).join) (st.values.getD · 0))))
    (ho' : env'.routines.Correct ts'.length (ts'.getD · ⟨0, 0, 0⟩) (fun i => (st'.types[i]?).join))
    (hj' : Joined (env'.sched s) (matrixProgs false ts'.length env'.threads
          (fillOps3d env'.routines (ts'.getD · ⟨0, 0, 0⟩) (fun i => (st'.types[i]?).join) (st'.values.getD · 0)))) {q : List ℝ} (hq : st.charges env s = some q) :
    ∃ (e : Fin ts.length ≃ Fin ts'.length) (q' : List ℝ), st'.charges env' s = some q' ∧ q.length = ts.length ∧ q'.length = ts'.length ∧
      ∀ k : Fin ts.length, ts'.getD (e k) ⟨0, 0, 0⟩ = R.tri (ts.getD k ⟨0, 0, 0⟩) ∧ q'.getD (e k) 0 = q.getD k 0 := by
  obtain ⟨e, he⟩ := renumbered h hv hv' hI hI' h3 h3' hts hts'
  have hlen : ts.length = ts'.length := by simpa using Fintype.card_congr e
  have hsize : st.size = ts.length := by unfold SolverState.size; rw [hts]
  have hsize' : st'.size = ts'.length := by unfold SolverState.size; rw [hts']
  let ee : Nat → Nat := fun k => if hk : k < ts.length then (e ⟨k, hk⟩).1 else 0
  have hee : ∀ k : Fin ts.length, ee k = e k := by intro k; simp [ee]
  have hee' : ∀ k (hk : k < ts.length), ee k = (e ⟨k, hk⟩).1 := by intro k hk; simp [ee, hk]
  have htri : ∀ k < ts.length, ts'.getD (ee k) ⟨0, 0, 0⟩ = R.tri (ts.getD k ⟨0, 0, 0⟩) := by
    intro k hk
    obtain ⟨t, ty, v, a1, a2, -⟩ := he ⟨k, hk⟩
    rw [hee' k hk, List.getD_eq_getElem?_getD, List.getD_eq_getElem?_getD, a2, a1]
    rfl
  have hty : ∀ k < ts.length, (st'.types[ee k]?).join = (st.types[k]?).join := by
    intro k hk
    obtain ⟨t, ty, v, -, -, a3, a4, -⟩ := he ⟨k, hk⟩
    rw [hee' k hk, a4, a3]
  have hva : ∀ k < ts.length, st'.values.getD (ee k) 0 = st.values.getD k 0 := by
    intro k hk
    obtain ⟨t, ty, v, -, -, -, -, a5, a6, -⟩ := he ⟨k, hk⟩
    rw [hee' k hk, List.getD_eq_getElem?_getD, List.getD_eq_getElem?_getD, a6, a5]
  have hlt : ∀ k < ts.length, ee k < ts'.length := by intro k hk; rw [hee' k hk]; exact (e _).2
  have hinj : ∀ i < ts.length, ∀ j < ts.length, ee i = ee j → i = j := by
    intro i hi j hj hij
    rw [hee' i hi, hee' j hj] at hij
    have := e.injective (Fin.ext hij)
    exact congrArg Fin.val this
  have hs : R.sign = 1 ∨ ∀ i < ts.length, (st.types[i]?).join ≠ some .dielectric ∧ (st.types[i]?).join ≠ some .magnetizable := by
    rcases hsign with h | h
    · exact Or.inl h
    · right
      intro i hi
      obtain ⟨t, ty, v, -, -, a3, -, -, -, n, tv, a7, a8⟩ := he ⟨i, hi⟩
      have := h n tv a7
      rw [a3]
      simp only [Option.join_some, ne_eq, Option.some.injEq]
      rw [← a8]
      exact this
  have hrhs : ∀ k : Fin ts.length, (st'.rhs s).getD (e k) 0 = (st.rhs s).getD k 0 := by
    intro k
    obtain ⟨t, ty, v, -, -, a3, a4, a5, a6, -⟩ := he k
    rw [rhs_tris hts hc a3 a5, rhs_tris hts' hc' a4 a6]
  have hmat : ∀ {A}, st.matrix env s = some A → ∃ A', st'.matrix env' s = some A' ∧ ∀ i j : Fin ts.length, A' (e i) (e j) = A i j := by
    intro A hA
    obtain ⟨T, hTT⟩ := Int.eq_ofNat_of_zero_le hT.le
    obtain ⟨T', hTT'⟩ := Int.eq_ofNat_of_zero_le hT'.le
    rw [hTT] at hj hT
    rw [hTT'] at hj' hT'
    obtain ⟨A1, hA1, hp1⟩ := C36_threeD _ T (by simpa using hT) _ (fun _ => 0) (env.sched s) hj
    obtain ⟨A2, hA2, hp2⟩ := C36_threeD _ T' (by simpa using hT') _ (fun _ => 0) (env'.sched s) hj'
    unfold SolverState.matrix at hA ⊢
    rw [hts, hTT] at hA
    rw [hts', hTT']
    have e1 : A1 = A := Option.some.inj (hA1.symm.trans hA)
    subst e1
    refine ⟨A2, hA2, fun i j => ?_⟩
    rw [hp1 i j i.2 j.2, hp2 _ _ (e i).2 (e j).2, ← hee i, ← hee j]
    rw [fillOps3d_move R hlt hinj htri hty hva ho ho' hs i.2 j.2]
  refine ⟨e, ?_⟩
  have fin : ∀ q', st'.charges env' s = some q' → q.length = ts.length → q'.length = ts'.length → (∀ k : Fin ts.length, q'.getD (e k) 0 = q.getD k 0) →
      ∃ (q' : List ℝ), st'.charges env' s = some q' ∧ q.length = ts.length ∧ q'.length = ts'.length ∧
        ∀ k : Fin ts.length, ts'.getD (e k) ⟨0, 0, 0⟩ = R.tri (ts.getD k ⟨0, 0, 0⟩) ∧ q'.getD (e k) 0 = q.getD k 0 := by
    intro q' a b c d
    refine ⟨q', a, b, c, fun k => ⟨?_, d k⟩⟩
    rw [← hee k]
    exact htri k k.2
  unfold SolverState.charges at hq
  split at hq <;> rename_i h0
  · rw [hsize] at h0
    cases hq
    refine fin [] ?_ h0.symm (by simp; omega) (fun k => absurd k.2 (by omega))
    unfold SolverState.charges
    rw [if_pos (by rw [hsize']; omega)]
  · cases hA : st.matrix env s with
    | none => rw [hA] at hq; cases hq
    | some A =>
      rw [hA] at hq
      simp only [Option.bind_eq_bind, Option.bind_some] at hq
      obtain ⟨A', hA', hAA⟩ := hmat hA
      obtain ⟨q', b1, b2, b3⟩ := linSolve_reindex ((finCongr hsize).trans (e.trans (finCongr hsize'.symm))) (A' := Matrix.of fun i j : Fin st'.size => A' i j) (F' := st'.rhs s)
        (fun i j => hAA (finCongr hsize i) (finCongr hsize j)) (fun i => hrhs (finCongr hsize i)) hq
      refine fin q' ?_ ((linSolve_rows hq).1.trans hsize) (b2.trans hsize') fun k => b3 (finCongr hsize.symm k)
      unfold SolverState.charges
      rw [if_neg (by rw [hsize']; omega), hA']
      exact b1

end

/-- The potential and the field of moved charges. -/
theorem triCharges_move (R : RigidMotion) {ts ts' : List Tri3} {q q' : List ℝ} (e : Fin ts.length ≃ Fin ts'.length) (hl : q.length = ts.length) (hl' : q'.length = ts'.length)
    (h : ∀ k : Fin ts.length, ts'.getD (e k) ⟨0, 0, 0⟩ = R.tri (ts.getD k ⟨0, 0, 0⟩) ∧ q'.getD (e k) 0 = q.getD k 0) (p : V3) :
    potential3d (R.move p) (triCharges ts' q') = potential3d p (triCharges ts q) ∧
    field3d (R.move p) (triCharges ts' q') = R.lin (field3d p (triCharges ts q)) := by
  have hmap : ∀ (ts : List Tri3) (q : List ℝ), q.length = ts.length →
      triCharges ts q = triCharges ((List.range ts.length).map (ts.getD · ⟨0, 0, 0⟩)) ((List.range ts.length).map (q.getD · 0)) := by
    intro ts q hl
    congr 1
    · apply List.ext_getElem (by simp)
      intro i h1 h2
      simp [List.getD_eq_getElem?_getD, h1]
    · apply List.ext_getElem (by simp [hl])
      intro i h1 h2
      simp [List.getD_eq_getElem?_getD, h1]
  have hsum : ∀ (n : Nat) (f : Nat → ℝ), ((List.range n).map f).sum = ∑ k : Fin n, f k := by
    intro n f
    induction n with
    | zero => simp
    | succ n ih => rw [List.range_succ, List.map_append, List.sum_append, ih, Fin.sum_univ_castSucc]; simp
  have hrow : ∀ (t : Tri3) (f f' : V3 → ℝ), (∀ q, f' (R.move q) = f q) →
      (((jacRow (R.tri t)).zip (posRow (R.tri t))).map fun k => k.1 * f' k.2).sum = (((jacRow t).zip (posRow t)).map fun k => k.1 * f k.2).sum := by
    intro t f f' hf
    rw [R.jacRow_tri, R.posRow_tri, List.zip_map_right, List.map_map]
    congr 1
    refine List.map_congr_left fun k _ => ?_
    simp [hf]
  have key : ∀ f f' : V3 → ℝ, (∀ q, f' (R.move q) = f q) →
      ((List.range ts'.length).map fun j => q'.getD j 0 * (((jacRow (ts'.getD j ⟨0, 0, 0⟩)).zip (posRow (ts'.getD j ⟨0, 0, 0⟩))).map fun k => k.1 * f' k.2).sum).sum =
      ((List.range ts.length).map fun j => q.getD j 0 * (((jacRow (ts.getD j ⟨0, 0, 0⟩)).zip (posRow (ts.getD j ⟨0, 0, 0⟩))).map fun k => k.1 * f k.2).sum).sum := by
    intro f f' hf
    rw [hsum, hsum, ← Equiv.sum_comp e]
    refine Finset.sum_congr rfl fun k _ => ?_
    rw [(h k).1, (h k).2, hrow _ f f' hf]
  rw [hmap ts q hl, hmap ts' q' hl']
  constructor
  · unfold potential3d
    rw [EffCharges.loop_eq, EffCharges.loop_eq, superpose_triCharges, superpose_triCharges]
    exact key _ _ fun q => R.potential3dPoint_move p q
  · apply R.eq_of_dots
    intro n
    rw [R.dot, field_along, field_along]
    exact key (fun q => fieldDotNormal3d p q n) (fun q => fieldDotNormal3d (R.move p) q (R.lin n)) fun q => R.fieldDotNormal_move p q n

end Traceon
