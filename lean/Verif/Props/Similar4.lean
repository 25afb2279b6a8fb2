import Verif.Props.Similar3

/-!
# C86: the charges of a moved radially symmetric problem
-/
namespace Traceon
open Spec Excitation V3

theorem MovedLine.centre {S : Similarity} {l l' : Line4} (h : MovedLine S l l') : lineCentre l' = S.move (lineCentre l) := by
  rcases h with rfl | rfl
  · exact S.centre_line l
  · rw [← S.centre_line l]
    unfold lineCentre
    rw [pos_reverse, neg_zero]

section
variable {S : Similarity} {σ : Nat → Nat} {x x' : Excitation ℝ V3} {s : Statics} {st st' : SolverState} {idx idx' : List Nat} {ls ls' : List Line4}

theorem renumbering_radial (h : SameRadial S σ x x' s) (hI : InitSpec x s st idx) (hI' : InitSpec x' s st' idx') (h3 : x.symmetry = .radial) (h3' : x'.symmetry = .radial) :
    ∃ e : Fin idx.length ≃ Fin idx'.length, ∀ k, idx'[e k] = σ idx[k] := by
  have hels : x.elements = x.mesh.lines := by unfold Excitation.elements; rw [h3]; rfl
  have hels' : x'.elements = x'.mesh.lines := by unfold Excitation.elements; rw [h3']; rfl
  have hm : ∀ i, i ∈ idx ↔ i < x.mesh.lines.length ∧ Excited x s i := by rw [← hels]; exact hI.mem
  have hm' : ∀ i, i ∈ idx' ↔ i < x'.mesh.lines.length ∧ Excited x' s i := by rw [← hels']; exact hI'.mem
  have hnd : idx.Nodup := hI.sorted.imp fun h => ne_of_lt h
  have hnd' : idx'.Nodup := hI'.sorted.imp fun h => ne_of_lt h
  have hto : ∀ k : Fin idx.length, σ idx[k] ∈ idx' := by
    intro k
    have := (hm idx[k]).1 (List.getElem_mem _)
    exact (hm' _).2 (h.into _ this.1 this.2)
  let f : Fin idx.length → Fin idx'.length := fun k => ⟨idx'.idxOf (σ idx[k]), List.idxOf_lt_length_iff.2 (hto k)⟩
  have hf : ∀ k, idx'[f k] = σ idx[k] := fun k => by simp [f]
  have hb : Function.Bijective f := by
    constructor
    · intro k l hkl
      have h1 := hf k
      rw [hkl, hf l] at h1
      have hk := (hm idx[k]).1 (List.getElem_mem _)
      have hl := (hm idx[l]).1 (List.getElem_mem _)
      have := h.inj _ _ hl.1 hl.2 hk.1 hk.2 h1
      exact Fin.ext ((hnd.getElem_inj_iff).1 this).symm
    · intro k'
      obtain ⟨h1, h2⟩ := (hm' idx'[k']).1 (List.getElem_mem _)
      obtain ⟨i, hi1, hi2, hi3⟩ := h.onto _ h1 h2
      obtain ⟨k, hk, hki⟩ := List.getElem_of_mem ((hm i).2 ⟨hi1, hi2⟩)
      refine ⟨⟨k, hk⟩, ?_⟩
      have := hf ⟨k, hk⟩
      have h4 : idx[(⟨k, hk⟩ : Fin idx.length)] = i := hki
      rw [h4, hi3] at this
      exact Fin.ext ((hnd'.getElem_inj_iff).1 this)
  exact ⟨Equiv.ofBijective f hb, hf⟩

/-- The line of number `k` of the solver. -/
theorem init_line (hv : Valid x.mesh) (hI : InitSpec x s st idx) (hls : st.elems = .lines ls) (h3 : x.symmetry = .radial) {k i : Nat} (hk : idx[k]? = some i) :
    ∃ e l, x.mesh.lines[i]? = some e ∧ toLine4 (coords x.mesh.points e) = some l ∧ ls[k]? = some l ∧ lineAt x.mesh i = some l := by
  have hel := hI.elems
  rw [hls] at hel
  simp only at hel
  obtain ⟨h2d, hho, hlen, hget⟩ := hel
  have hels : x.elements = x.mesh.lines := by unfold Excitation.elements; rw [h3]; rfl
  have hi := ((hI.mem i).1 (List.mem_of_getElem? hk)).1
  rw [hels] at hi
  have he : x.mesh.lines[i]? = some x.mesh.lines[i] := by simp [hi]
  have hg := hget k i hk
  have hk' : k < ls.length := by rw [hlen]; exact (List.getElem?_eq_some_iff.1 hk).1
  rw [hels, List.getElem?_eq_getElem hk'] at hg
  refine ⟨_, ls[k], he, ?_, by simp [hk'], hg.symm⟩
  rw [he] at hg
  exact hg.symm

/-- The elements, types and values of the two solvers agree. -/
theorem renumbered_radial (h : SameRadial S σ x x' s) (hv : Valid x.mesh) (hv' : Valid x'.mesh) (hI : InitSpec x s st idx) (hI' : InitSpec x' s st' idx')
    (h3 : x.symmetry = .radial) (h3' : x'.symmetry = .radial) (hls : st.elems = .lines ls) (hls' : st'.elems = .lines ls') :
    ∃ e : Fin ls.length ≃ Fin ls'.length, ∀ k : Fin ls.length, ∃ l l' ty v, ls[k.1]? = some l ∧ ls'[(e k).1]? = some l' ∧ MovedLine S l l' ∧ st.types[k.1]? = some (some ty) ∧
      st'.types[(e k).1]? = some (some ty) ∧ st.values[k.1]? = some v ∧ st'.values[(e k).1]? = some v ∧
      (ty = .dielectric ∨ ty = .magnetizable → S.side l l' ∧ S.KeepsAxis (linePos l 0).1) := by
  have hels : x.elements = x.mesh.lines := by unfold Excitation.elements; rw [h3]; rfl
  have hels' : x'.elements = x'.mesh.lines := by unfold Excitation.elements; rw [h3']; rfl
  obtain ⟨e0, he0⟩ := renumbering_radial h hI hI' h3 h3'
  have hel := hI.elems
  rw [hls] at hel
  simp only at hel
  obtain ⟨h2d, hho, hlen, -⟩ := hel
  have hel' := hI'.elems
  rw [hls'] at hel'
  simp only at hel'
  obtain ⟨h2d', hho', hlen', -⟩ := hel'
  refine ⟨(finCongr hlen).trans (e0.trans (finCongr hlen'.symm)), fun k => ?_⟩
  set k0 : Fin idx.length := finCongr hlen k with hk0
  have hk : idx[k.1]? = some idx[k0] := by
    rw [List.getElem?_eq_some_iff]
    exact ⟨k0.2, rfl⟩
  have hek : (((finCongr hlen).trans (e0.trans (finCongr hlen'.symm))) k).1 = (e0 k0).1 := rfl
  rw [hek]
  have hk' : idx'[(e0 k0).1]? = some (σ idx[k0]) := by
    rw [List.getElem?_eq_some_iff]
    exact ⟨(e0 k0).2, he0 k0⟩
  obtain ⟨el, l, a1, a2, a3, a4⟩ := init_line hv hI hls h3 hk
  obtain ⟨el', l', b1, b2, b3, b4⟩ := init_line hv' hI' hls' h3' hk'
  have hmem := (hI.mem _).1 (List.mem_of_getElem? hk)
  rw [hels] at hmem
  have hmem' := (hI'.mem _).1 (List.mem_of_getElem? hk')
  have hmoved : MovedLine S l l' := by
    have := h.points _ l hmem.1 hmem.2 a4
    rw [b4] at this
    rcases this with this | this
    · exact Or.inl (Option.some.inj this)
    · exact Or.inr (Option.some.inj this)
  obtain ⟨n, hd⟩ := exists_decides hmem.2
  obtain ⟨n', hd'⟩ := exists_decides hmem'.2
  obtain ⟨_, _, _, _, _, ⟨tv, c1, c2⟩, _⟩ := id hd
  obtain ⟨_, _, _, _, _, ⟨tv', c1', c2'⟩, _⟩ := id hd'
  obtain ⟨s1, s2⟩ := h.excitation _ _ _ _ _ hd c1 hd' c1'
  obtain ⟨d1, d2⟩ := hI.arrays _ _ n tv el hk (by rw [hels]; exact a1) hd c1
  obtain ⟨d1', d2'⟩ := hI'.arrays _ _ n' tv' el' hk' (by rw [hels']; exact b1) hd' c1'
  refine ⟨l, l', tv.1, _, a3, b3, hmoved, d1, by rw [d1', s1], d2, ?_, ?_⟩
  · rw [d2']
    congr 1
    have hcen : elementCentre x'.mesh (coords x'.mesh.points el') = S.move (elementCentre x.mesh (coords x.mesh.points el)) := by
      unfold elementCentre
      rw [h2d, h2d', hho, hho', a2, b2]
      exact hmoved.centre
    rw [hcen]
    revert s2
    cases tv.2 <;> cases tv'.2 <;> simp only [SameValueAt] <;> intro s2 <;> first | exact s2.elim | exact s2 | exact s2 _ | rfl
  · intro hm
    obtain ⟨m1, m2⟩ := h.materials _ _ _ _ hd c1 hm a4
    obtain ⟨l2, m1, m3⟩ := m1
    rw [b4] at m1
    cases m1
    refine ⟨m3, ?_⟩
    rw [elemPoint_linePos]
    exact m2

/-- The matrix of a solver for lines. -/
theorem matrix_lines {env : SolveEnv} (hls : st.elems = .lines ls) (h : MatrixReady st env s) (h0 : ls ≠ []) :
    ∃ A, st.matrix env s = some A ∧ ∀ i j, i < ls.length → j < ls.length →
      A i j = entryRadial (ls.getD · ⟨0, 0, 0, 0⟩) (fun i => (st.types[i]?).join) (st.values.getD · 0) i j := by
  obtain ⟨hT, hr⟩ := h
  obtain ⟨T, hTT⟩ := Int.eq_ofNat_of_zero_le hT.le
  rw [hls] at hr
  simp only at hr
  obtain ⟨h2, hj⟩ := hr
  have h2 := h2 h0
  rw [hTT] at hj hT h2
  obtain ⟨A, hA, hp⟩ := C36_radial_partial ls.length T (by simpa using hT) (by exact_mod_cast h2) _
    (diagRadial (ls.getD · ⟨0, 0, 0, 0⟩) (fun i => (st.types[i]?).join) (st.values.getD · 0)) (env.sched s) hj
  refine ⟨A, ?_, fun i j hi hj => ?_⟩
  · unfold SolverState.matrix
    rw [hls, hTT]
    exact hA
  · rw [hp i j hi hj]
    rfl

/-- The charges of the two solvers agree. -/
theorem charges_radial (h : SameRadial S σ x x' s) (hv : Valid x.mesh) (hv' : Valid x'.mesh) (hI : InitSpec x s st idx) (hI' : InitSpec x' s st' idx')
    (h3 : x.symmetry = .radial) (h3' : x'.symmetry = .radial) (hls : st.elems = .lines ls) (hls' : st'.elems = .lines ls')
    (hc : s = .magnetostatic → st'.coils = S.coils st.coils ∧ ∀ row ∈ st.coils.positions, ∀ q ∈ row, S.KeepsAxis q.x) {env env' : SolveEnv}
    (hM : MatrixReady st env s) (hM' : MatrixReady st' env' s) {q : List ℝ} (hq : st.charges env s = some q) :
    ∃ (e : Fin ls.length ≃ Fin ls'.length) (q' : List ℝ), st'.charges env' s = some q' ∧ q.length = ls.length ∧ q'.length = ls'.length ∧
      ∀ k : Fin ls.length, MovedLine S (ls.getD k ⟨0, 0, 0, 0⟩) (ls'.getD (e k) ⟨0, 0, 0, 0⟩) ∧ q'.getD (e k) 0 = 1 / S.scale * q.getD k 0 := by
  have hk0 := S.scale_ne
  obtain ⟨e, he⟩ := renumbered_radial h hv hv' hI hI' h3 h3' hls hls'
  have hlen : ls.length = ls'.length := by simpa using Fintype.card_congr e
  have hsize : st.size = ls.length := by unfold SolverState.size; rw [hls]
  have hsize' : st'.size = ls'.length := by unfold SolverState.size; rw [hls']
  have hline : ∀ k : Fin ls.length, MovedLine S (ls.getD k ⟨0, 0, 0, 0⟩) (ls'.getD (e k) ⟨0, 0, 0, 0⟩) := by
    intro k
    obtain ⟨l, l', ty, v, a1, a2, a3, -⟩ := he k
    rw [List.getD_eq_getElem?_getD, List.getD_eq_getElem?_getD, a2, a1]
    exact a3
  have hty : ∀ k : Fin ls.length, (st'.types[(e k).1]?).join = (st.types[k.1]?).join := by
    intro k
    obtain ⟨l, l', ty, v, -, -, -, a3, a4, -⟩ := he k
    rw [a4, a3]
  have hva : ∀ k : Fin ls.length, st'.values.getD (e k) 0 = st.values.getD k 0 := by
    intro k
    obtain ⟨l, l', ty, v, -, -, -, -, -, a5, a6, -⟩ := he k
    rw [List.getD_eq_getElem?_getD, List.getD_eq_getElem?_getD, a6, a5]
  have hmat : ∀ k : Fin ls.length, (st.types[k.1]?).join = some .dielectric ∨ (st.types[k.1]?).join = some .magnetizable →
      S.side (ls.getD k ⟨0, 0, 0, 0⟩) (ls'.getD (e k) ⟨0, 0, 0, 0⟩) ∧ S.KeepsAxis (linePos (ls.getD k ⟨0, 0, 0, 0⟩) 0).1 := by
    intro k hk
    obtain ⟨l, l', ty, v, a1, a2, -, a3, -, -, -, a7⟩ := he k
    rw [List.getD_eq_getElem?_getD, List.getD_eq_getElem?_getD, a2, a1]
    rw [a3] at hk
    simp only [Option.join_some, Option.some.injEq] at hk
    exact a7 hk
  have hrhs : ∀ k : Fin ls.length, (st'.rhs s).getD (e k) 0 = rowScale S (st.types[k.1]?).join * (1 / S.scale * (st.rhs s).getD k 0) := by
    intro k
    obtain ⟨l, l', ty, v, a1, a2, -, a3, a4, a5, a6, a7⟩ := he k
    rw [a3]
    simp only [Option.join_some]
    cases s with
    | electrostatic =>
      rw [rhs_electro a3 a5, rhs_electro a4 a6]
      cases ty <;> simp [rhsElectric, rowScale] <;> field_simp
    | magnetostatic =>
      obtain ⟨hc1, hc2⟩ := hc rfl
      rw [rhs_magneto a3 a5, rhs_magneto a4 a6]
      cases ty <;> simp [rhsMagnetic, rowScale]
      · field_simp
      · obtain ⟨a8, a9⟩ := a7 (Or.inr rfl)
        unfold SolverState.fluxTerm
        rw [hls, hls']
        simp only
        rw [a1, a2, hc1]
        simp only
        rw [fluxTerm_move hc2 a8 a9, one_div]
  refine ⟨e, ?_⟩
  have fin : ∀ q', st'.charges env' s = some q' → q.length = ls.length → q'.length = ls'.length → (∀ k : Fin ls.length, q'.getD (e k) 0 = 1 / S.scale * q.getD k 0) →
      ∃ (q' : List ℝ), st'.charges env' s = some q' ∧ q.length = ls.length ∧ q'.length = ls'.length ∧
        ∀ k : Fin ls.length, MovedLine S (ls.getD k ⟨0, 0, 0, 0⟩) (ls'.getD (e k) ⟨0, 0, 0, 0⟩) ∧ q'.getD (e k) 0 = 1 / S.scale * q.getD k 0 :=
    fun q' a b c d => ⟨q', a, b, c, fun k => ⟨hline k, d k⟩⟩
  unfold SolverState.charges at hq
  split at hq <;> rename_i h0
  · rw [hsize] at h0
    cases hq
    refine fin [] ?_ h0.symm (by simp; omega) (fun k => absurd k.2 (by omega))
    unfold SolverState.charges
    rw [if_pos (by rw [hsize']; omega)]
  · obtain ⟨A, hA, hp⟩ := matrix_lines hls hM (by intro h; rw [hsize, h] at h0; exact h0 rfl)
    obtain ⟨A', hA', hp'⟩ := matrix_lines hls' hM' (by intro h; rw [h] at hlen; rw [hsize, hlen] at h0; exact h0 rfl)
    rw [hA] at hq
    simp only [Option.bind_eq_bind, Option.bind_some] at hq
    have hentry : ∀ i j : Fin ls.length, A' (e i) (e j) = rowScale S (st.types[i.1]?).join * A i j := by
      intro i j
      rw [hp i j i.2 j.2, hp' _ _ (e i).2 (e j).2]
      refine entry_move (l := (ls.getD · ⟨0, 0, 0, 0⟩)) (l' := (ls'.getD · ⟨0, 0, 0, 0⟩)) (types := fun i => (st.types[i]?).join) (types' := fun i => (st'.types[i]?).join)
        (values := (st.values.getD · 0)) (values' := (st'.values.getD · 0)) ?_ (hline i) (hline j) (hty i) (hva i) (hmat i)
      rw [← Fin.ext_iff, ← Fin.ext_iff, e.apply_eq_iff_eq]
    obtain ⟨q', b1, b2, b3⟩ := linSolve_scaled ((finCongr hsize).trans (e.trans (finCongr hsize'.symm))) (A' := Matrix.of fun i j : Fin st'.size => A' i j) (F' := st'.rhs s)
      (d := fun i => rowScale S (st.types[i.1]?).join) (c := 1 / S.scale) (fun i => rowScale_ne S _)
      (fun i j => hentry (finCongr hsize i) (finCongr hsize j)) (fun i => hrhs (finCongr hsize i)) hq
    refine fin q' ?_ ((linSolve_rows hq).1.trans hsize) (b2.trans hsize') fun k => b3 (finCongr hsize.symm k)
    unfold SolverState.charges
    rw [if_neg (by rw [hsize']; omega), hA']
    exact b1

end

/-- The potential and the field of moved charges. -/
theorem lineCharges_move (S : Similarity) {ls ls' : List Line4} {q q' : List ℝ} (e : Fin ls.length ≃ Fin ls'.length) (hl : q.length = ls.length) (hl' : q'.length = ls'.length)
    (h : ∀ k : Fin ls.length, MovedLine S (ls.getD k ⟨0, 0, 0, 0⟩) (ls'.getD (e k) ⟨0, 0, 0, 0⟩) ∧ q'.getD (e k) 0 = 1 / S.scale * q.getD k 0) (p : V3) :
    potentialRadial (S.move p) (lineCharges ls' q') = potentialRadial p (lineCharges ls q) ∧
    (S.KeepsAxis (norm2d p.x p.y) → fieldRadial (S.move p) (lineCharges ls' q') = S.vec (fieldRadial p (lineCharges ls q))) := by
  have hk := S.scale_ne
  have hmap : ∀ (ls : List Line4) (q : List ℝ), q.length = ls.length →
      lineCharges ls q = lineCharges ((List.range ls.length).map (ls.getD · ⟨0, 0, 0, 0⟩)) ((List.range ls.length).map (q.getD · 0)) := by
    intro ls q hl
    congr 1
    · apply List.ext_getElem (by simp)
      intro i h1 h2
      simp [List.getD_eq_getElem?_getD, h1]
    · apply List.ext_getElem (by simp [hl])
      intro i h1 h2
      simp [List.getD_eq_getElem?_getD, h1]
  have hsum : ∀ (n : Nat) (f : Nat → ℝ), ((List.range n).map f).sum = ∑ k : Fin n, f k := by
    intro n f
    induction n with
    | zero => simp
    | succ n ih => rw [List.range_succ, List.map_append, List.sum_append, ih, Fin.sum_univ_castSucc]; simp
  have hsup : ∀ (f f' : ℝ × ℝ → ℝ) (c : ℝ), (∀ q, f' (S.scale * q.1, S.scale * (S.dir * q.2) + S.shift) = c * f q) →
      superpose f' (lineCharges ls' q') = c * superpose f (lineCharges ls q) := by
    intro f f' c hf
    rw [hmap ls' q' hl', hmap ls q hl, superpose_lineCharges, superpose_lineCharges, hsum, hsum, ← e.sum_comp, Finset.mul_sum]
    refine Finset.sum_congr rfl fun k _ => ?_
    obtain ⟨h1, h2⟩ := h k
    rw [h2]
    show _ * lineSum _ _ = _ * (_ * lineSum _ _)
    rw [h1.sum hf]
    field_simp
  refine ⟨?_, fun hp => ?_⟩
  · unfold potentialRadial
    rw [EffCharges.loop_eq, EffCharges.loop_eq, S.norm2d_move]
    rw [hsup (fun q => potentialRadialRing (norm2d p.x p.y) p.z q.1 q.2) _ 1, one_mul]
    intro q
    rw [one_mul]
    exact S.ring_potential _ _ _ _ _
  · unfold fieldRadial
    rw [← S.fromRadial_move hp, EffCharges.loopSub_eq, EffCharges.loopSub_eq, EffCharges.loopSub_eq, EffCharges.loopSub_eq, S.norm2d_move]
    rw [hsup (fun q => dr1PotentialRadialRing (norm2d p.x p.y) p.z q.1 q.2) (fun q => dr1PotentialRadialRing (S.scale * norm2d p.x p.y) (S.move p).z q.1 q.2) (1 / S.scale),
      hsup (fun q => dz1PotentialRadialRing (norm2d p.x p.y) p.z q.1 q.2) (fun q => dz1PotentialRadialRing (S.scale * norm2d p.x p.y) (S.move p).z q.1 q.2) (S.dir / S.scale)]
    · congr 1 <;> ring
    · intro q
      rw [div_mul_eq_mul_div, mul_div_assoc]
      exact S.ring_dz1 _ _ _ _ _
    · intro q
      rw [one_div_mul_eq_div]
      exact S.ring_dr1 _ _ hp _ _ _

end Traceon
