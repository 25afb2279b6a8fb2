import Verif.Props.Gauss
import Verif.Props.GroupCharge
import Verif.Props.GroupCharge3

/-!
# C107: Gauss's law for solved problems
-/
namespace Traceon
open Spec Excitation BoxFlux

/-- A point of the quadrature rule is a convex combination of the corners. -/
theorem posRow_bounds (t : Tri3) (c : V3 → ℝ) (hc : ∀ (u v w : V3) (s r : ℝ), c ⟨u.x + s * (v.x - u.x) + r * (w.x - u.x), u.y + s * (v.y - u.y) + r * (w.y - u.y), u.z + s * (v.z - u.z) + r * (w.z - u.z)⟩ =
    c u + s * (c v - c u) + r * (c w - c u)) {q : V3} (hq : q ∈ posRow t) :
    (∀ m, m < c t.v0 → m < c t.v1 → m < c t.v2 → m < c q) ∧ ∀ m, c t.v0 < m → c t.v1 < m → c t.v2 < m → c q < m := by
  obtain ⟨k, hk, rfl⟩ := List.mem_map.1 hq
  rw [hc]
  have h : 0 ≤ k.2.1 ∧ 0 ≤ k.2.2 ∧ k.2.1 + k.2.2 < 1 := by
    simp only [quadRule, List.mem_cons, List.not_mem_nil, or_false] at hk
    rcases hk with rfl | rfl | rfl | rfl | rfl | rfl | rfl | rfl | rfl | rfl | rfl | rfl <;> norm_num
  obtain ⟨h1, h2, h3⟩ := h
  constructor
  · intro m m0 m1 m2
    have a0 := mul_pos (sub_pos.2 h3) (sub_pos.2 m0)
    have a1 := mul_nonneg h1 (sub_pos.2 m1).le
    have a2 := mul_nonneg h2 (sub_pos.2 m2).le
    nlinarith
  · intro m m0 m1 m2
    have a0 := mul_pos (sub_pos.2 h3) (sub_pos.2 m0)
    have a1 := mul_nonneg h1 (sub_pos.2 m1).le
    have a2 := mul_nonneg h2 (sub_pos.2 m2).le
    nlinarith

/-- **C107.** Gauss's law for a solved three dimensional problem: put a box around some of the excited groups, so that every other excited triangle lies beyond one of its faces. Then the flux of the computed
field out of the box is the sum of the charges on these groups. -/
theorem C107_gauss {G : Geo V3} {m : Mesh V3} (hv : Valid m) {inXZ : V3 → Bool} {x0 x : Excitation ℝ V3} (h0 : Excitation.new m .threeD inXZ = some x0)
    (cs : List (Excitation.Call ℝ V3)) (hx : x = x0.calls G cs) (h3d : ∃ p ∈ m.points, p.y ≠ 0) {env : SolveEnv} (he : FaithfulEnv env x) {f : PyObj}
    (hf : x.solveField G env = some f) (hel : x.isElectrostatic) {a b : V3} (hab : a.x ≤ b.x ∧ a.y ≤ b.y ∧ a.z ≤ b.z)
    (ns : List String) (hns : ∀ n ∈ ns, HasKind x .electrostatic n) (hnd : (ns.flatMap fun n => (x.mesh.physTris.get n).getD []).Nodup)
    (hin : ∀ i ∈ ns.flatMap fun n => (x.mesh.physTris.get n).getD [], Corners x.mesh i (InsideBox a b))
    (hout : ∀ i, Excited x .electrostatic i → i ∉ (ns.flatMap fun n => (x.mesh.physTris.get n).getD []) → BeyondFace x.mesh a b i) :
    boxFlux (fun p => (f.electrostaticField p).getD 0) a b = (ns.map fun n => (groupCharge x f n).getD 0).sum := by
  obtain ⟨F, rfl, hS, -, -, -⟩ := C80_threeD hv h0 cs hx h3d he hf
  obtain ⟨e1, e2, e3, e4, e5⟩ := calls_facts (G := G) hv h0 cs
  rw [← hx] at e1 e2 e3 e4 e5
  have h2 : x.mesh.is2d realThirds = false := by
    unfold Mesh.is2d
    rw [e3, List.all_eq_false]
    obtain ⟨p, hp, hy⟩ := h3d
    exact ⟨p, hp, by simpa [realThirds] using hy⟩
  have hup : x.upgraded G = some x := by
    unfold upgraded Mesh.solverMesh
    rw [h2]
    rfl
  have hp := proper_of_solveField hup e2 e4 hel hf
  obtain ⟨idx, ts, q, hF, hts, hq, hs, hm, hk⟩ := hS hel
  obtain ⟨verts, names, idx', hA⟩ := active_spec e2 e4 hp
  have hel' : x.elements = x.mesh.triangles := by simp [Excitation.elements, e1]
  have hph : x.physicals = x.mesh.physTris := by simp [Excitation.physicals, e1]
  have : idx' = idx := sorted_unique hA.sorted hs fun i => by rw [hA.mem, hm, hel']
  subst this
  have hwf : F.elec.Wf := by
    rw [hF]
    refine ⟨by simp [triCharges]; omega, ?_, by simp [triCharges]; omega, ?_⟩ <;> simp [triCharges, jacRow, posRow, quadRule]
  have hlen : F.elec.len = idx'.length := by rw [hF]; simp [EffCharges.len, triCharges, hq]
  -- the elements of the groups
  have hgroups : ∃ js : List Nat, js.map (fun j => idx'[j]?) = (ns.flatMap fun n => (x.mesh.physTris.get n).getD []).map some ∧
      ∀ Q, chargeOnElements (areaOfElement3d F.elec) F.elec.charges js = some Q → (ns.map fun n => (groupCharge x (.threeD F) n).getD 0).sum = Q := by
    clear hnd hin hout
    induction ns with
    | nil => exact ⟨[], rfl, fun Q hQ => by simpa [chargeOnElements] using hQ⟩
    | cons n ns ih =>
      obtain ⟨js, h1, h3⟩ := ih fun n hn => hns n (by simp [hn])
      obtain ⟨tv, h4, h5⟩ := hns n (by simp)
      obtain ⟨g, hg⟩ := hp n tv h4 h5
      obtain ⟨js', h6, h7⟩ := hA.nameIdx n g hg ⟨tv, h4, h5⟩
      rw [hph] at hg
      refine ⟨js' ++ js, ?_, fun Q hQ => ?_⟩
      · rw [List.map_append, h1, h7, List.flatMap_cons, hg, List.map_append]
        rfl
      · have hj : ∀ js'' : List Nat, (∀ k ∈ js'', ∃ i, idx'[k]? = some i) → chargeOnElements (areaOfElement3d F.elec) F.elec.charges js'' =
            some ((js''.map fun k => (F.elec.jacobians.getD k []).sum * F.elec.charges.getD k 0).sum) := by
          intro js'' h
          unfold chargeOnElements
          rw [foldlM_some js'' (g := fun k => (F.elec.jacobians.getD k []).sum * F.elec.charges.getD k 0) ?_ 0, zero_add]
          intro k hk'
          obtain ⟨i, hi⟩ := h k hk'
          have hkl : k < F.elec.len := by rw [hlen]; exact (List.getElem?_eq_some_iff.1 hi).1
          have hjl : k < F.elec.jacobians.length := by have := hwf.1; unfold EffCharges.len at hkl; omega
          unfold chargeOnElement areaOfElement3d
          rw [getD_of_lt _ _ hjl, getD_of_lt _ _ hkl, List.getElem?_eq_getElem hjl, List.getElem?_eq_getElem hkl]
          rfl
        have j1 := hj js fun k hk' => mem_idx h1 hk'
        have j2 := hj js' fun k hk' => mem_idx h7 hk'
        have j3 := hj (js' ++ js) fun k hk' => (List.mem_append.1 hk').elim (mem_idx h7) (mem_idx h1)
        rw [j3] at hQ
        rw [List.map_cons, List.sum_cons, h3 _ j1, ← Option.some.inj hQ, List.map_append, List.sum_append]
        congr 1
        unfold groupCharge
        rw [hA.eq]
        simp only [Option.bind_eq_bind, Option.bind_some, h6]
        change (chargeOnElements (areaOfElement3d F.elec) F.elec.charges js').getD 0 = _
        rw [j2]
        rfl
  obtain ⟨js, hjs, hsum⟩ := hgroups
  generalize ns.flatMap (fun n => (x.mesh.physTris.get n).getD []) = g at *
  have hjn : js.Nodup := by
    have : (js.map fun j => idx'[j]?).Nodup := by
      rw [hjs]
      exact hnd.map fun _ _ h => Option.some.inj h
    exact this.of_map _
  have hmemg : ∀ k i : Nat, idx'[k]? = some i → (k ∈ js ↔ i ∈ g) := by
    intro k i hi
    constructor
    · intro h
      have : idx'[k]? ∈ js.map (fun j => idx'[j]?) := List.mem_map.2 ⟨k, h, rfl⟩
      rw [hjs, hi] at this
      obtain ⟨i', hi', h'⟩ := List.mem_map.1 this
      cases h'
      exact hi'
    · intro h
      have : some i ∈ js.map (fun j => idx'[j]?) := by rw [hjs]; exact List.mem_map.2 ⟨i, h, rfl⟩
      obtain ⟨k', hk', h'⟩ := List.mem_map.1 this
      have h1 := (List.getElem?_eq_some_iff.1 hi)
      have h3 := (List.getElem?_eq_some_iff.1 h')
      have : idx'.Nodup := hs.imp fun h => Nat.ne_of_lt h
      rwa [(this.getElem_inj_iff).1 (h1.2.trans h3.2.symm)]
  -- the points of an element
  have hrow : ∀ (k : Nat) (ps : List V3), F.elec.positions[k]? = some ps → ∃ (i : Nat) (t : Tri3) (vs : Elem), idx'[k]? = some i ∧ ps = posRow t ∧ x.mesh.triangles[i]? = some vs ∧
      ∃ j0 j1 j2 : Nat, vs = [j0, j1, j2] ∧ x.mesh.points[j0]? = some t.v0 ∧ x.mesh.points[j1]? = some t.v1 ∧ x.mesh.points[j2]? = some t.v2 := by
    intro k ps hps
    have hkl : k < idx'.length := by
      have := (List.getElem?_eq_some_iff.1 hps).1
      have h4 := hwf.2.2.1
      unfold EffCharges.len at hlen
      omega
    obtain ⟨t, h1, h3⟩ := (hk k _ (List.getElem?_eq_getElem hkl)).1
    rw [hF] at hps
    simp only [triCharges, List.getElem?_map, h3, Option.map_some, Option.some.injEq] at hps
    obtain ⟨vs, h5, h6⟩ := Option.bind_eq_some_iff.1 h1
    refine ⟨_, t, vs, List.getElem?_eq_getElem hkl, hps.symm, h5, ?_⟩
    match vs, h6 with
    | [j0, j1, j2], h6 =>
      simp only [triVerts, Option.bind_eq_bind, Option.bind_eq_some_iff, Option.pure_def, Option.some.injEq] at h6
      obtain ⟨p0, hp0, p1, hp1, p2, hp2, rfl⟩ := h6
      exact ⟨j0, j1, j2, rfl, hp0, hp1, hp2⟩
  have hbx := fun (t : Tri3) {q : V3} (hq : q ∈ posRow t) => posRow_bounds t V3.x (fun _ _ _ _ _ => rfl) hq
  have hby := fun (t : Tri3) {q : V3} (hq : q ∈ posRow t) => posRow_bounds t V3.y (fun _ _ _ _ _ => rfl) hq
  have hbz := fun (t : Tri3) {q : V3} (hq : q ∈ posRow t) => posRow_bounds t V3.z (fun _ _ _ _ _ => rfl) hq
  have hE := C107_elements F.elec hwf hab.1 hab.2.1 hab.2.2 js hjn (fun j hj => by
      obtain ⟨i, hi⟩ := mem_idx hjs hj
      rw [hlen]
      exact (List.getElem?_eq_some_iff.1 hi).1) ?_ ?_
  · rw [hsum _ hE]
    rfl
  · intro k hkj ps hps p hpp
    obtain ⟨i, t, vs, h1, rfl, h3, j0, j1, j2, rfl, c0, c1, c2⟩ := hrow k ps hps
    have hc := hin i ((hmemg k i h1).1 hkj) _ h3
    have d0 := hc j0 (by simp) _ c0
    have d1 := hc j1 (by simp) _ c1
    have d2 := hc j2 (by simp) _ c2
    exact ⟨⟨(hbx t hpp).1 _ d0.1.1 d1.1.1 d2.1.1, (hbx t hpp).2 _ d0.1.2 d1.1.2 d2.1.2⟩, ⟨(hby t hpp).1 _ d0.2.1.1 d1.2.1.1 d2.2.1.1, (hby t hpp).2 _ d0.2.1.2 d1.2.1.2 d2.2.1.2⟩,
      ⟨(hbz t hpp).1 _ d0.2.2.1 d1.2.2.1 d2.2.2.1, (hbz t hpp).2 _ d0.2.2.2 d1.2.2.2 d2.2.2.2⟩⟩
  · intro k hkj ps hps p hpp
    obtain ⟨i, t, vs, h1, rfl, h3, j0, j1, j2, rfl, c0, c1, c2⟩ := hrow k ps hps
    have hex : Excited x .electrostatic i := ((hm i).1 (List.mem_of_getElem? h1)).2
    have hc : ∀ {P : V3 → Prop}, Corners x.mesh i P → P t.v0 ∧ P t.v1 ∧ P t.v2 := fun hP =>
      ⟨hP _ h3 j0 (by simp) _ c0, hP _ h3 j1 (by simp) _ c1, hP _ h3 j2 (by simp) _ c2⟩
    rcases hout i hex (fun h => hkj ((hmemg k i h1).2 h)) with h | h | h | h | h | h <;> obtain ⟨d0, d1, d2⟩ := hc h
    · exact Or.inl (Or.inl ((hbx t hpp).2 _ d0 d1 d2))
    · exact Or.inl (Or.inr ((hbx t hpp).1 _ d0 d1 d2))
    · exact Or.inr (Or.inl (Or.inl ((hby t hpp).2 _ d0 d1 d2)))
    · exact Or.inr (Or.inl (Or.inr ((hby t hpp).1 _ d0 d1 d2)))
    · exact Or.inr (Or.inr (Or.inl ((hbz t hpp).2 _ d0 d1 d2)))
    · exact Or.inr (Or.inr (Or.inr ((hbz t hpp).1 _ d0 d1 d2)))

/-- The hypotheses can be met: a plate of 10 V in a box. -/
theorem C107_example (G : Geo V3) : ∃ x env f q, FaithfulEnv env x ∧ x.solveField G env = some f ∧ x.types.get "plate" = some (.voltageFixed, .num 10) ∧
    groupCharge x f "plate" = some q ∧ boxFlux (fun p => (f.electrostaticField p).getD 0) ⟨-1, -1, -1⟩ ⟨3, 2, 1⟩ = q ∧
    boxFlux (fun p => (f.electrostaticField p).getD 0) ⟨-1, -1, 1⟩ ⟨3, 2, 2⟩ = 0 := by
  obtain ⟨x0, x, env, f, hv, h0, hx, h3, he, hf⟩ := C80_example G (fun _ => true)
  have hx0 : x0 = { mesh := plateMesh, electrodes := ["plate"], symmetry := .threeD } := by
    have : Excitation.new plateMesh .threeD (fun _ => true) = some ({ mesh := plateMesh, electrodes := ["plate"], symmetry := .threeD } : Excitation ℝ V3) := by
      unfold Excitation.new
      rw [if_neg (by simp)]
      rfl
    rw [this] at h0
    exact (Option.some.inj h0).symm
  have hxe : x = plateExc := by rw [hx, hx0]; rfl
  have hel : x.isElectrostatic := by rw [hxe]; simp [isElectrostatic, plateExc]
  have hkind : HasKind x .electrostatic "plate" := by rw [hxe]; exact ⟨_, rfl, rfl⟩
  obtain ⟨ex, σ, hnd, hmem, -, hq, hfar⟩ := C87_threeD hv h0 _ hx h3 he hf hel
  have hg : x.mesh.physTris.get "plate" = some [0] := by rw [hxe]; rfl
  have h1 := hq "plate" [0] hg hkind
  have hxm : x.mesh = plateMesh := by rw [hxe]; rfl
  have hcorner : ∀ (P : V3 → Prop) (i : Nat), P ⟨0, 0, 0⟩ → P ⟨2, 0, 0⟩ → P ⟨1, 1, 0⟩ → Corners x.mesh i P := by
    intro P i p0 p1 p2 t ht j hj p hp
    rw [hxm] at ht hp
    have ht' : t = [0, 1, 2] := by
      have := List.mem_of_getElem? ht
      simpa [plateMesh] using this
    rw [ht'] at hj
    simp only [List.mem_cons, List.not_mem_nil, or_false] at hj
    rcases hj with rfl | rfl | rfl <;> simp [plateMesh] at hp <;> subst hp <;> assumption
  refine ⟨x, env, f, _, he, hf, by rw [hxe]; rfl, h1, ?_, ?_⟩
  · have := C107_gauss hv h0 _ hx h3 he hf hel (a := ⟨-1, -1, -1⟩) (b := ⟨3, 2, 1⟩) (by norm_num) ["plate"] (by simpa using hkind) (by simp [hg])
      (fun i _ => hcorner _ i (by norm_num [InsideBox]) (by norm_num [InsideBox]) (by norm_num [InsideBox])) (fun i hi hn => by
        exfalso
        obtain ⟨n, g, tv, h4, h5, -⟩ := hi
        have hph : x.physicals = [("plate", [0])] := by rw [hxe]; rfl
        rw [hph] at h4
        have := Dict.mem_of_get h4
        simp only [List.mem_cons, List.not_mem_nil, or_false, Prod.mk.injEq] at this
        rw [this.2] at h5
        exact hn (by simpa [hg] using h5))
    simpa [h1] using this
  · exact C107_gauss hv h0 _ hx h3 he hf hel (a := ⟨-1, -1, 1⟩) (b := ⟨3, 2, 2⟩) (by norm_num) [] (by simp) (by simp) (by simp)
      (fun i _ _ => Or.inr (Or.inr (Or.inr (Or.inr (Or.inl (hcorner _ i (by norm_num) (by norm_num) (by norm_num)))))))

end Traceon
