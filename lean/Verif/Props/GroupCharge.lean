import Verif.Spec.GroupCharge
import Verif.Props.SolveField3
import Verif.Props.CurvedArea
import Verif.Props.Linear4

/-!
# C87: the charge on a physical group
-/
namespace Traceon
open Spec Excitation

/-- The densities of the excited elements, as a function of the number of the element in the mesh. -/
noncomputable def densityOf (idx : List Nat) (q : List ℝ) (i : Nat) : ℝ := q.getD (idx.idxOf i) 0

theorem densityOf_eq {idx : List Nat} (hs : idx.Pairwise (· < ·)) (q : List ℝ) {k i : Nat} (h : idx[k]? = some i) : densityOf idx q i = q.getD k 0 := by
  have hnd : idx.Nodup := hs.imp fun h => Nat.ne_of_lt h
  obtain ⟨hk, rfl⟩ := List.getElem?_eq_some_iff.1 h
  unfold densityOf
  rw [hnd.idxOf_getElem]

theorem sum_eq_of_idx {idx : List Nat} {js g : List Nat} (h : js.map (fun j => idx[j]?) = g.map some) (v w : Nat → ℝ)
    (hvw : ∀ k i : Nat, idx[k]? = some i → v k = w i) : (js.map v).sum = (g.map w).sum := by
  induction js generalizing g with
  | nil => cases g with
    | nil => rfl
    | cons a g => simp at h
  | cons j js ih => cases g with
    | nil => simp at h
    | cons a g =>
      simp only [List.map_cons, List.cons.injEq] at h
      simp only [List.map_cons, List.sum_cons, hvw j a h.1, ih h.2]

theorem sum_zip_idx {β : Type} {idx : List Nat} (q : List ℝ) (l : List β) (F : β → ℝ) (w : Nat → ℝ) (hs : idx.Pairwise (· < ·)) (hq : q.length = idx.length)
    (hl : l.length = idx.length) (h : ∀ k i : Nat, ∀ b, idx[k]? = some i → l[k]? = some b → F b = w i) :
    ((q.zip l).map fun x => x.1 * F x.2).sum = (idx.map fun i => densityOf idx q i * w i).sum := by
  congr 1
  apply List.ext_getElem?
  intro k
  simp only [List.getElem?_map]
  by_cases hk : k < idx.length
  · have h1 : idx[k]? = some idx[k] := List.getElem?_eq_getElem hk
    have h2 : l[k]? = some (l[k]'(by omega)) := List.getElem?_eq_getElem _
    have h3 : q[k]? = some (q[k]'(by omega)) := List.getElem?_eq_getElem _
    rw [h1, (List.getElem?_zip_eq_some (z := (q[k]'(by omega), l[k]'(by omega)))).2 ⟨h3, h2⟩]
    simp only [Option.map_some, Option.some.injEq]
    rw [densityOf_eq hs q h1, h k _ _ h1 h2]
    simp [List.getD, h3]
  · rw [List.getElem?_eq_none (by simp; omega), List.getElem?_eq_none (by omega)]
    rfl

theorem superpose_rows {P β : Type} (f : P → ℝ) (n : Nat) (q : List ℝ) (ls : List β) (J : β → List ℝ) (X : β → List P) :
    superpose f ⟨n, q, ls.map J, ls.map X⟩ = ((q.zip ls).map fun x => x.1 * (((J x.2).zip (X x.2)).map fun k => k.1 * f k.2).sum).sum := by
  unfold superpose
  simp only
  rw [List.zip_map', List.zip_map_right, List.map_map]
  congr 1
  refine List.map_congr_left fun x _ => ?_
  simp only [Function.comp, Prod.map, id]
  rw [← List.sum_map_mul_left]
  simp only [mul_assoc]

theorem mem_idx {idx : List Nat} {js g : List Nat} (h : js.map (fun j => idx[j]?) = g.map some) {k : Nat} (hk : k ∈ js) : ∃ i, idx[k]? = some i := by
  have : idx[k]? ∈ js.map (fun j => idx[j]?) := List.mem_map.2 ⟨k, hk, rfl⟩
  rw [h] at this
  obtain ⟨i, _, hi⟩ := List.mem_map.1 this
  exact ⟨i, hi.symm⟩

/-- Two increasing lists with the same members are equal. -/
theorem sorted_unique {a b : List Nat} (ha : a.Pairwise (· < ·)) (hb : b.Pairwise (· < ·)) (h : ∀ i, i ∈ a ↔ i ∈ b) : a = b := by
  have hp : a.Perm b := (List.perm_ext_iff_of_nodup (ha.imp fun h => Nat.ne_of_lt h) (hb.imp fun h => Nat.ne_of_lt h)).2 h
  exact hp.eq_of_pairwise (fun x y _ _ h1 h2 => absurd h1 (by omega)) ha hb

theorem proper_of_solveStatics {x : Excitation ℝ V3} {env : SolveEnv} {s : Statics} {f : PyObj} (hv : Valid x.mesh) (hn : x.types.keys.Nodup)
    (h : x.solveStatics env s = some f) : Proper x s := by
  unfold solveStatics at h
  cases hst : x.solverInit s with
  | none => rw [hst] at h; cases h
  | some st => obtain ⟨idx, hi⟩ := solverInit_spec hv hn hst; exact hi.proper

theorem proper_of_solveField {G : Geo V3} {x x' : Excitation ℝ V3} {env : SolveEnv} {f : PyObj} (u : x.upgraded G = some x') (hv : Valid x'.mesh) (hn : x'.types.keys.Nodup)
    (hel : x.isElectrostatic) (h : x.solveField G env = some f) : Proper x' .electrostatic := by
  have hel' : x'.isElectrostatic = true := by
    unfold upgraded at u
    obtain ⟨M, -, rfl⟩ := Option.map_eq_some_iff.1 u
    exact hel
  unfold solveField at h
  rw [u] at h
  simp only [Option.bind_eq_bind, Option.bind_some, hel', if_true] at h
  split at h
  · cases he : x'.solveStatics env .electrostatic with
    | none => rw [he] at h; cases h
    | some a => exact proper_of_solveStatics hv hn he
  · exact proper_of_solveStatics hv hn h

theorem area_jacRow (t : Tri3) : (jacRow t).sum = 1.000000000000002 * triIntegral t.v0 t.v1 t.v2 (fun _ => 1) := by
  obtain ⟨a, h1, h2⟩ := C73_area_3d [t] [] 0 (by simp)
  simp only [areaOfElement3d, triCharges, List.map_cons, List.map_nil, List.getElem?_cons_zero, Option.map_some, Option.some.injEq] at h1
  rw [h1, h2]
  rfl

theorem names_same {x y : Excitation ℝ V3} {s : Statics} {v v' : List (List V3)} {names names' : Dict (List Nat)} {idx idx' : List Nat}
    (hA : ActiveSpec x s v names idx) (hB : ActiveSpec y s v' names' idx') (hp : Proper x s) (hph : y.physicals = x.physicals) (hk : ∀ n, HasKind y s n ↔ HasKind x s n)
    (hl : y.elements.length = x.elements.length) (n : String) : names'.get n = names.get n := by
  have hex : ∀ i, Excited y s i ↔ Excited x s i := fun i => by rw [excited_iff, excited_iff, hph]; simp only [hk]
  have : idx' = idx := sorted_unique hB.sorted hA.sorted fun i => by rw [hA.mem, hB.mem, hl, hex]
  subst this
  by_cases hn : HasKind x s n
  · obtain ⟨tv, h1, h2⟩ := id hn
    obtain ⟨g, hg⟩ := hp n tv h1 h2
    obtain ⟨js, k1, k2⟩ := hA.nameIdx n g hg hn
    obtain ⟨js', k1', k2'⟩ := hB.nameIdx n g (by rw [hph]; exact hg) ((hk n).2 hn)
    rw [k1, k1']
    congr 1
    rw [← k2] at k2'
    have hnd : idx'.Nodup := hA.sorted.imp fun h => Nat.ne_of_lt h
    have inj : ∀ (a b g : List Nat), a.map (fun j => idx'[j]?) = g.map some → b.map (fun j => idx'[j]?) = a.map (fun j => idx'[j]?) → b = a := by
      intro a
      induction a with
      | nil => intro b g _ h; simpa using h
      | cons x a ih =>
        intro b g hg h
        cases b with
        | nil => simp at h
        | cons y b =>
          cases g with
          | nil => simp at hg
          | cons z g =>
            simp only [List.map_cons, List.cons.injEq] at h hg
            rw [ih b g hg.2 h.2]
            obtain ⟨hx, hx'⟩ := List.getElem?_eq_some_iff.1 hg.1
            have hy := h.1.trans hg.1
            obtain ⟨hy, hy'⟩ := List.getElem?_eq_some_iff.1 hy
            rw [(hnd.getElem_inj_iff).1 (hy'.trans hx'.symm)]
    exact inj _ _ g k2 k2'
  · rw [hA.other n hn, hB.other n fun h => hn ((hk n).1 h)]

/-- **C87**, three dimensions. There is one density per triangle of the mesh from which everything follows: the potential of the field is that of the charged triangles; the charge on a physical
group, computed as the documentation says, is the sum of density times area over the triangles of the group (apart from the rounding of the weights); groups which together contain every triangle with
an electrostatic excitation once have together the charge of which the field far away is the field. -/
theorem C87_threeD {G : Geo V3} {m : Mesh V3} (hv : Valid m) {inXZ : V3 → Bool} {x0 x : Excitation ℝ V3} (h0 : Excitation.new m .threeD inXZ = some x0)
    (cs : List (Excitation.Call ℝ V3)) (hx : x = x0.calls G cs) (h3d : ∃ p ∈ m.points, p.y ≠ 0) {env : SolveEnv} (he : FaithfulEnv env x) {f : PyObj}
    (hf : x.solveField G env = some f) (hel : x.isElectrostatic) :
    ∃ (excited : List Nat) (σ : Nat → ℝ), excited.Nodup ∧ (∀ i, i ∈ excited ↔ i < x.mesh.triangles.length ∧ Excited x .electrostatic i) ∧
      (∀ p, f.electrostaticPotential p = some ((excited.map fun i => σ i * meshTriPotential x.mesh p i).sum)) ∧
      (∀ n g, x.mesh.physTris.get n = some g → HasKind x .electrostatic n →
        groupCharge x f n = some (1.000000000000002 * (g.map fun i => σ i * meshTriArea x.mesh i).sum)) ∧
      ∀ ns : List String, (∀ n ∈ ns, HasKind x .electrostatic n) → (ns.flatMap fun n => (x.mesh.physTris.get n).getD []).Perm excited →
        Filter.Tendsto (fun p => 4 * Real.pi * V3.norm p * (f.electrostaticPotential p).getD 0) far (nhds ((ns.map fun n => (groupCharge x f n).getD 0).sum)) := by
  obtain ⟨F, rfl, hS, -, -, -⟩ := C80_threeD hv h0 cs hx h3d he hf
  obtain ⟨e1, e2, e3, e4, e5⟩ := calls_facts (G := G) hv h0 cs
  rw [← hx] at e1 e2 e3 e4 e5
  have h2 : x.mesh.is2d realThirds = false := by
    unfold Mesh.is2d
    rw [e3, List.all_eq_false]
    obtain ⟨p, hp, hy⟩ := h3d
    exact ⟨p, hp, by simpa [realThirds] using hy⟩
  have hup : x.upgraded G = some x := by
    unfold upgraded Mesh.solverMesh
    rw [h2]
    rfl
  have hp := proper_of_solveField hup e2 e4 hel hf
  obtain ⟨idx, ts, q, hF, hts, hq, hs, hm, hk⟩ := hS hel
  obtain ⟨verts, names, idx', hA⟩ := active_spec e2 e4 hp
  have hel' : x.elements = x.mesh.triangles := by simp [Excitation.elements, e1]
  have hph : x.physicals = x.mesh.physTris := by simp [Excitation.physicals, e1]
  have : idx' = idx := sorted_unique hA.sorted hs fun i => by rw [hA.mem, hm, hel']
  subst this
  have hmesh : ∀ (k i : Nat), idx'[k]? = some i → ∃ t, (x.mesh.triangles[i]?).bind (triVerts x.mesh.points) = some t ∧ ts[k]? = some t := fun k i h => (hk k i h).1
  have harea : ∀ k i : Nat, idx'[k]? = some i → (areaOfElement3d F.elec k) = some (1.000000000000002 * meshTriArea x.mesh i) := by
    intro k i h
    obtain ⟨t, h1, h3⟩ := hmesh k i h
    rw [hF]
    simp only [areaOfElement3d, triCharges, List.getElem?_map, h3, Option.map_some, Option.some.injEq, meshTriArea, h1]
    exact area_jacRow t
  have hch : ∀ k i : Nat, idx'[k]? = some i → chargeOnElement (areaOfElement3d F.elec) F.elec.charges k =
      some (1.000000000000002 * (densityOf idx' q i * meshTriArea x.mesh i)) := by
    intro k i h
    unfold chargeOnElement
    rw [harea k i h, densityOf_eq hs q h]
    have hk' : k < q.length := by rw [hq]; exact (List.getElem?_eq_some_iff.1 h).1
    have h3 : F.elec.charges[k]? = some q[k] := by rw [hF]; exact List.getElem?_eq_getElem hk'
    rw [h3]
    simp only [Option.bind_eq_bind, Option.bind_some, Option.pure_def, Option.some.injEq]
    simp [List.getD, List.getElem?_eq_getElem hk']
    ring
  have hsum : ∀ js g : List Nat, js.map (fun j => idx'[j]?) = g.map some →
      Traceon.chargeOnElements (areaOfElement3d F.elec) F.elec.charges js = some (1.000000000000002 * (g.map fun i => densityOf idx' q i * meshTriArea x.mesh i).sum) := by
    intro js g h
    unfold Traceon.chargeOnElements
    have hex : ∀ k ∈ js, chargeOnElement (areaOfElement3d F.elec) F.elec.charges k =
        some (1.000000000000002 * (densityOf idx' q (idx'.getD k 0) * meshTriArea x.mesh (idx'.getD k 0))) := by
      intro k hk
      obtain ⟨i, hi⟩ := mem_idx h hk
      rw [hch k i hi]
      simp [List.getD, hi]
    have := foldlM_some js hex 0
    rw [this, zero_add, ← List.sum_map_mul_left]
    congr 1
    exact sum_eq_of_idx h _ _ fun k i hi => by simp [List.getD, hi]
  have hwf : F.elec.Wf := by
    rw [hF]
    refine ⟨by simp [triCharges]; omega, ?_, by simp [triCharges]; omega, ?_⟩ <;> simp [triCharges, jacRow, posRow, quadRule]
  have hgroup : ∀ n g, x.mesh.physTris.get n = some g → HasKind x .electrostatic n →
      groupCharge x (.threeD F) n = some (1.000000000000002 * (g.map fun i => densityOf idx' q i * meshTriArea x.mesh i).sum) := by
    intro n g hg hkind
    obtain ⟨js, h1, h3⟩ := hA.nameIdx n g (by rw [hph]; exact hg) hkind
    unfold groupCharge
    rw [hA.eq]
    simp only [Option.bind_eq_bind, Option.bind_some, h1]
    exact hsum js g h3
  refine ⟨idx', densityOf idx' q, hs.imp fun h => Nat.ne_of_lt h, hm, fun p => ?_, hgroup, fun ns hns hperm => ?_⟩
  · change some (potential3d p F.elec) = _
    rw [hF]
    unfold potential3d
    rw [EffCharges.loop_eq]
    unfold triCharges
    rw [superpose_rows]
    congr 1
    refine sum_zip_idx q ts (fun t => (((jacRow t).zip (posRow t)).map fun k => k.1 * potential3dPoint p k.2).sum) (meshTriPotential x.mesh p) hs hq hts fun k i t h1 h3 => ?_
    obtain ⟨t', h4, h5⟩ := hmesh k i h1
    rw [h3] at h5
    cases h5
    simp only [meshTriPotential, h4]
    rfl
  · obtain ⟨Q, hQ, hlim⟩ := C73_total_3d F.elec hwf
    have : Q = 1.000000000000002 * (idx'.map fun i => densityOf idx' q i * meshTriArea x.mesh i).sum := by
      have h := hsum (List.range F.elec.len) idx' (by
        apply List.ext_getElem?
        intro k
        have hlen : F.elec.len = idx'.length := by rw [hF]; simp [EffCharges.len, triCharges, hq]
        rw [hlen]
        by_cases hk : k < idx'.length
        · simp [hk]
        · simp [hk])
      rw [h] at hQ
      exact (Option.some.inj hQ).symm
    have hgroups : (ns.map fun n => (groupCharge x (.threeD F) n).getD 0).sum =
        1.000000000000002 * (((ns.flatMap fun n => (x.mesh.physTris.get n).getD []).map fun i => densityOf idx' q i * meshTriArea x.mesh i).sum) := by
      clear hperm
      induction ns with
      | nil => simp
      | cons n ns ih =>
        obtain ⟨tv, h1, h3⟩ := hns n (by simp)
        obtain ⟨g, hg⟩ := hp n tv h1 h3
        rw [hph] at hg
        simp only [List.map_cons, List.sum_cons, List.flatMap_cons, List.map_append, List.sum_append, ih fun n hn => hns n (by simp [hn])]
        rw [hgroup n g hg ⟨tv, h1, h3⟩, hg]
        simp only [Option.getD_some]
        ring
    rw [hgroups, (hperm.map _).sum_eq, ← this]
    exact hlim

end Traceon
