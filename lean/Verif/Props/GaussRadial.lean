import Verif.Lemmas.RingFlux
import Verif.Props.GaussSolved
import Verif.Props.GroupCharge2
import Verif.Props.VacuumRadial3

/-!
# C112: Gauss's law in radial symmetry
-/
namespace Traceon
open Spec BoxFlux MeasureTheory Real Excitation

namespace Spec

/-- Every ring swept by a point of line element `i` of the mesh satisfies `P`. -/
def SweptBy (m : Mesh V3) (i : Nat) (P : ℝ → ℝ → Prop) : Prop :=
  ∀ (a b c d : Nat) (l : Line4), m.lines[i]? = some [a, b, c, d] → m.points[a]? = some l.l0 → m.points[b]? = some l.l1 → m.points[c]? = some l.l2 → m.points[d]? = some l.l3 →
    ∀ α : ℝ, -1 ≤ α → α ≤ 1 → P (elemPoint l α).x (elemPoint l α).z

end Spec

/-- **C112** (one ring). The flux of the field of a charged ring out of a box is the charge on the ring if it is inside and zero if it is outside. -/
theorem C112_ring {a b : V3} (hx : a.x ≤ b.x) (hy : a.y ≤ b.y) (hz : a.z ≤ b.z) (r z : ℝ) :
    (RingInside a b r z → boxFlux (coulombRing r z) a b = 2 * π * r) ∧ (RingOutside a b r z → boxFlux (coulombRing r z) a b = 0) :=
  ⟨fun h => (ring_inside h).2, fun h => (ring_outside hx hy hz h).2⟩

namespace BoxFlux

/-- The field of rings, one after the other -/
noncomputable def ringsOf (l : List (ℝ × ℝ × ℝ)) (p : V3) : V3 := l.foldr (fun x s => x.1 * coulombRing x.2.1 x.2.2 p + s) 0

theorem ringsOf_flux {a b : V3} (hx : a.x ≤ b.x) (hy : a.y ≤ b.y) (hz : a.z ≤ b.z) (l : List (ℝ × ℝ × ℝ)) (h : ∀ x ∈ l, RingInside a b x.2.1 x.2.2 ∨ RingOutside a b x.2.1 x.2.2) :
    Flat6 (ringsOf l) a b ∧ boxFlux (ringsOf l) a b = (l.map fun x => x.1 * boxFlux (coulombRing x.2.1 x.2.2) a b).sum := by
  induction l with
  | nil => exact Flat6.zero a b
  | cons x l ih =>
    have hf : Flat6 (coulombRing x.2.1 x.2.2) a b := (h x List.mem_cons_self).elim (fun h => (ring_inside h).1) fun h => (ring_outside hx hy hz h).1
    obtain ⟨h1, h2⟩ := hf.smul x.1
    obtain ⟨i1, i2⟩ := ih fun y hy => h y (List.mem_cons_of_mem _ hy)
    obtain ⟨h3, h4⟩ := h1.add hx hy hz i1
    refine ⟨h3, ?_⟩
    rw [List.map_cons, List.sum_cons, ← h2, ← i2, ← h4]
    rfl

theorem ringsOf_sum (l : List (ℝ × ℝ × ℝ)) (p : V3) : ringsOf l p =
    ⟨(l.map fun x => x.1 * (coulombRing x.2.1 x.2.2 p).x).sum, (l.map fun x => x.1 * (coulombRing x.2.1 x.2.2 p).y).sum, (l.map fun x => x.1 * (coulombRing x.2.1 x.2.2 p).z).sum⟩ := by
  induction l with
  | nil => rfl
  | cons x l ih =>
    change x.1 * coulombRing x.2.1 x.2.2 p + ringsOf l p = _
    rw [ih]
    ext <;> simp

theorem coulombRings_eq (e : EffCharges (ℝ × ℝ)) : coulombRings e = ringsOf ((Fp.points e).map fun x => (x.1 * x.2.1, x.2.2)) := by
  funext p
  rw [ringsOf_sum]
  unfold coulombRings
  simp only [List.map_map, Function.comp_def, ← EffCharges.loop_eq, ← Fp.points_sum]

end BoxFlux

/-- **C112** (elements). If every element sweeps out a surface inside or outside of the box, the flux is what `charge_on_elements` gives for those inside. -/
theorem C112_elements (e : EffCharges (ℝ × ℝ)) (he : e.Wf) {a b : V3} (hx : a.x ≤ b.x) (hy : a.y ≤ b.y) (hz : a.z ≤ b.z) (js : List Nat) (hn : js.Nodup) (hjs : ∀ j ∈ js, j < e.len)
    (hin : ∀ i ∈ js, ∀ ps, e.positions[i]? = some ps → ∀ q ∈ ps, RingInside a b q.1 q.2) (hout : ∀ i, i ∉ js → ∀ ps, e.positions[i]? = some ps → ∀ q ∈ ps, RingOutside a b q.1 q.2) :
    chargeOnElements (areaOfElementRadial e) e.charges js = some (boxFlux (coulombRings e) a b) := by
  classical
  obtain ⟨hj, hjr, hp, hpr⟩ := he
  have hl : e.charges.zip (e.jacobians.zip e.positions) = (List.range e.len).map fun i => (e.charges.getD i 0, e.jacobians.getD i [], e.positions.getD i []) := by
    apply List.ext_getElem
    · simp [EffCharges.len]; omega
    · intro i h1 h2
      simp only [List.getElem_zip, List.getElem_map, List.getElem_range]
      have h3 : i < e.charges.length := by simp at h1; omega
      rw [getD_of_lt _ _ h3, getD_of_lt _ _ (by omega), getD_of_lt _ _ (by omega)]
  have hpts : Fp.points e = (List.range e.len).flatMap fun i => ((e.jacobians.getD i []).zip (e.positions.getD i [])).map fun y => (e.charges.getD i 0, y.1, y.2) := by
    unfold Fp.points
    rw [hl, List.flatMap_map]
  have hP : ∀ i < e.len, e.positions[i]? = some (e.positions.getD i []) := by
    intro i hi
    have hil : i < e.charges.length := hi
    rw [getD_of_lt _ _ (by omega), List.getElem?_eq_getElem (by omega)]
  -- the flux, element by element
  have hflux : boxFlux (coulombRings e) a b =
      ((List.range e.len).map fun i => if i ∈ js then 2 * π * (List.zipWith (fun j p => j * p.1) (e.jacobians.getD i []) (e.positions.getD i [])).sum * e.charges.getD i 0 else 0).sum := by
    rw [coulombRings_eq, (ringsOf_flux hx hy hz _ ?_).2, List.map_map]
    · have : ((fun x : ℝ × ℝ × ℝ => x.1 * boxFlux (coulombRing x.2.1 x.2.2) a b) ∘ fun x : ℝ × ℝ × ℝ × ℝ => (x.1 * x.2.1, x.2.2)) =
          fun x : ℝ × ℝ × ℝ × ℝ => x.1 * x.2.1 * boxFlux (coulombRing x.2.2.1 x.2.2.2) a b := rfl
      rw [this, hpts]
      have hcore : ∀ l : List Nat, (∀ i ∈ l, i < e.len) → ((l.flatMap fun i => ((e.jacobians.getD i []).zip (e.positions.getD i [])).map fun y => (e.charges.getD i 0, y.1, y.2)).map
          fun x : ℝ × ℝ × ℝ × ℝ => x.1 * x.2.1 * boxFlux (coulombRing x.2.2.1 x.2.2.2) a b).sum =
          (l.map fun i => if i ∈ js then 2 * π * (List.zipWith (fun j p => j * p.1) (e.jacobians.getD i []) (e.positions.getD i [])).sum * e.charges.getD i 0 else 0).sum := by
        intro l
        induction l with
        | nil => intro _; rfl
        | cons i l ih =>
          intro hi
          rw [List.flatMap_cons, List.map_append, List.sum_append, ih fun j hj => hi j (List.mem_cons_of_mem _ hj), List.map_cons, List.sum_cons, List.map_map]
          congr 1
          have hPi := hP i (hi i List.mem_cons_self)
          by_cases hm : i ∈ js
          · rw [if_pos hm, ← List.map_uncurry_zip_eq_zipWith, ← List.sum_map_mul_left, ← List.sum_map_mul_right]
            refine congrArg List.sum (List.map_congr_left fun y hy => ?_)
            simp only [Function.comp_apply, Function.uncurry]
            rw [(ring_inside (hin i hm _ hPi _ (List.of_mem_zip hy).2)).2]
            ring
          · rw [if_neg hm]
            refine List.sum_eq_zero fun v hv => ?_
            obtain ⟨y, hy', rfl⟩ := List.mem_map.1 hv
            simp only [Function.comp_apply]
            rw [(ring_outside hx hy hz (hout i hm _ hPi _ (List.of_mem_zip hy').2)).2, mul_zero]
      exact hcore _ fun i hi => List.mem_range.1 hi
    · intro x hxm
      obtain ⟨y, hy', rfl⟩ := List.mem_map.1 hxm
      rw [hpts] at hy'
      obtain ⟨i, hi, h1⟩ := List.mem_flatMap.1 hy'
      obtain ⟨w, hw, rfl⟩ := List.mem_map.1 h1
      have hPi := hP i (List.mem_range.1 hi)
      by_cases hm : i ∈ js
      · exact .inl (hin i hm _ hPi _ (List.of_mem_zip hw).2)
      · exact .inr (hout i hm _ hPi _ (List.of_mem_zip hw).2)
  have hch : ∀ i ∈ js, chargeOnElement (areaOfElementRadial e) e.charges i =
      some (2 * π * (List.zipWith (fun j p => j * p.1) (e.jacobians.getD i []) (e.positions.getD i [])).sum * e.charges.getD i 0) := by
    intro i hi
    have hil : i < e.charges.length := hjs i hi
    unfold chargeOnElement areaOfElementRadial
    rw [getD_of_lt _ _ (by omega), getD_of_lt _ _ hil, List.getElem?_eq_getElem (by omega), List.getElem?_eq_getElem hil, hP i (hjs i hi)]
    rfl
  rw [hflux]
  unfold chargeOnElements
  rw [foldlM_some js hch 0, zero_add]
  have hperm : js.Perm ((List.range e.len).filter (· ∈ js)) := by
    rw [List.perm_ext_iff_of_nodup hn (List.nodup_range.filter _)]
    intro i
    simp only [List.mem_filter, List.mem_range, decide_eq_true_eq]
    exact ⟨fun h => ⟨hjs i h, h⟩, fun h => h.2⟩
  rw [(hperm.map _).sum_eq]
  congr 1
  generalize List.range e.len = l
  clear hflux hperm
  induction l with
  | nil => rfl
  | cons i l ih =>
    by_cases hm : i ∈ js
    · rw [List.filter_cons_of_pos (by simpa using hm), List.map_cons, List.sum_cons, List.map_cons, List.sum_cons, if_pos hm, ih]
    · rw [List.filter_cons_of_neg (by simpa using hm), List.map_cons, List.sum_cons, if_neg hm, zero_add, ih]

/-- The field of the rings is minus the gradient of their potential. -/
theorem coulombRings_gradient (e : EffCharges (ℝ × ℝ)) (p : V3) (hoff : ClearOfRings e p) : IsGradient (ringsPotential e) (-coulombRings e p) p := by
  have h := Spec.IsGradient.loop e (fun p q => ringPotential q.1 q.2 p) (fun q => -coulombRing q.1 q.2 p) p (by
    intro row hr q hq
    obtain ⟨h1, h2⟩ := hoff row hr q hq
    have := isGradient_ringPotential p q.1 q.2 h1 h2
    have e1 : -coulombRing q.1 q.2 p = ⟨∫ φ in (0 : ℝ)..2 * π, q.1 * dx1Potential3dPoint p (ringPoint q.1 q.2 φ), ∫ φ in (0 : ℝ)..2 * π, q.1 * dy1Potential3dPoint p (ringPoint q.1 q.2 φ),
        ∫ φ in (0 : ℝ)..2 * π, q.1 * dz1Potential3dPoint p (ringPoint q.1 q.2 φ)⟩ := by
      rw [coulombRing_unit]
      ext <;> simp [unit]
    rw [e1]
    exact this)
  have e2 : (⟨e.loop (fun q => (-coulombRing q.1 q.2 p).x), e.loop (fun q => (-coulombRing q.1 q.2 p).y), e.loop (fun q => (-coulombRing q.1 q.2 p).z)⟩ : V3) = -coulombRings e p := by
    unfold coulombRings
    simp only [← EffCharges.loop_eq]
    have hn : ∀ f : ℝ × ℝ → ℝ, e.loop (fun q => -f q) = -e.loop f := fun f => by
      have := loop_mul_left e (-1) f
      simpa using this
    ext <;> simp [hn]
  rw [e2] at h
  have e3 : ringsPotential e = fun p => e.loop (fun q => ringPotential q.1 q.2 p) := by
    funext s
    rw [EffCharges.loop_eq]
    rfl
  rw [e3]
  exact h

/-- **C112** (the field). The field that the program returns for charged rings is that of Coulomb's law up to the accuracy of the elliptic integrals, off the rings and more than `1e-10` from the axis
or on it. -/
theorem C112_field (e : EffCharges (ℝ × ℝ)) (p : V3) (hoff : ClearOfRings e p) :
    (1e-10 ≤ axisDist p → V3.norm (fieldRadial p e - coulombRings e p) ≤ ringsError e p) ∧
    (p.x = 0 → p.y = 0 → V3.norm (fieldRadial p e - coulombRings e p) ≤ 2e-13 * absSuperpose (fun q => q.1 / ringNear q.1 q.2 p ^ 2) e) := by
  have hg := coulombRings_gradient e p hoff
  have e0 : ∀ v : V3, - -v = v := fun v => by ext <;> simp
  refine ⟨fun hax => ?_, fun hx hy => ?_⟩
  · obtain ⟨G, h1, h2⟩ := C75_field e p hoff hax
    rw [gradient_unique h1 hg, e0] at h2
    exact h2
  · obtain ⟨G, h1, h2⟩ := C75_field_axis e p (fun row hr q hq => (hoff row hr q hq).1) hx hy
    rw [gradient_unique h1 hg, e0] at h2
    exact h2

/-- **C112** (solved problems). Put a box around the surfaces swept by some of the excited groups of a radially symmetric problem, so that the surfaces of all other excited elements lie outside. The flux
out of this box of the field of the charged rings that `solve_direct` finds is the sum of the charges on these groups, and this is the field that the program returns, up to the accuracy of the elliptic
integrals, at every point off the surfaces. -/
theorem C112_solved {G : Geo V3} (hG : G.Lawful) {m : Mesh V3} (hv : Valid m) {inXZ : V3 → Bool} (hxz : ∀ p, inXZ p = true ↔ p.y = 0) {x0 x x' : Excitation ℝ V3}
    (h0 : Excitation.new m .radial inXZ = some x0) (cs : List (Excitation.Call ℝ V3)) (hx : x = x0.calls G cs) (hx' : x.upgraded G = some x') {env : SolveEnv} (he : FaithfulEnv env x')
    (hplane : ∀ e ∈ x'.mesh.lines, ∀ l, toLine4 (coords x'.mesh.points e) = some l → 0 ≤ (elemPoint l 0).x) {f : PyObj}
    (hf : x.solveField G env = some f) (hel : x.isElectrostatic) :
    ∃ F, f = .radial F ∧
      (∀ p, OffSourcesRadial x' .electrostatic p → ∃ A, f.electrostaticField p = some A ∧
        (1e-10 ≤ axisDist p → V3.norm (A - coulombRings F.elec p) ≤ ringsError F.elec p) ∧
        (p.x = 0 → p.y = 0 → V3.norm (A - coulombRings F.elec p) ≤ 2e-13 * absSuperpose (fun q => q.1 / ringNear q.1 q.2 p ^ 2) F.elec)) ∧
      ∀ (a b : V3), a.x ≤ b.x → a.y ≤ b.y → a.z ≤ b.z → ∀ ns : List String, (∀ n ∈ ns, HasKind x .electrostatic n) →
        (ns.flatMap fun n => (x.mesh.physLines.get n).getD []).Nodup →
        (∀ i ∈ ns.flatMap fun n => (x.mesh.physLines.get n).getD [], SweptBy x'.mesh i (RingInside a b)) →
        (∀ i, Excited x .electrostatic i → i ∉ (ns.flatMap fun n => (x.mesh.physLines.get n).getD []) → SweptBy x'.mesh i (RingOutside a b)) →
        boxFlux (coulombRings F.elec) a b = (ns.map fun n => (groupCharge x f n).getD 0).sum := by
  obtain ⟨ht, F, rfl, hS, -, -, -⟩ := C80_radial hG hv hxz h0 cs hx hx' he hplane hf
  obtain ⟨e1, e2, e3, e4, -⟩ := calls_facts (G := G) hv h0 cs
  rw [← hx] at e1 e2 e3 e4
  obtain ⟨-, hs', hv', hpl, hll⟩ := upgraded_radial hG e2 e1 hx'
  have e4' : x'.types.keys.Nodup := by rw [ht]; exact e4
  have hp' := proper_of_solveField hx' hv' e4' hel hf
  have hph : x.physicals = x.mesh.physLines := by simp [Excitation.physicals, e1]
  have hph' : x'.physicals = x.physicals := by simp [Excitation.physicals, e1, hs', hpl]
  have hll' : x'.elements.length = x.elements.length := by simp [Excitation.elements, e1, hs', hll]
  have hkind : ∀ n, HasKind x' .electrostatic n ↔ HasKind x .electrostatic n := fun n => by unfold HasKind; rw [ht]
  have hp : Proper x .electrostatic := by
    intro n tv h1 h2
    rw [← ht] at h1
    obtain ⟨g, hg⟩ := hp' n tv h1 h2
    exact ⟨g, by rw [← hph']; exact hg⟩
  have hex : ∀ i, Excited x' .electrostatic i ↔ Excited x .electrostatic i := fun i => by rw [excited_iff, excited_iff, hph']; simp only [hkind]
  refine ⟨F, rfl, fun p hpo => ⟨_, rfl, C112_field F.elec p (off_of_solves (hS hel) hpo)⟩, ?_⟩
  intro a b hax hay haz ns hns hnd hin hout
  obtain ⟨idx, ls, q, hF, hls, hq, hs, hm, hk⟩ := hS hel
  obtain ⟨verts, names, idx', hA⟩ := active_spec e2 e4 hp
  have : idx' = idx := sorted_unique hA.sorted hs fun i => by rw [hA.mem, hm, hex, ← hll', show x'.elements = x'.mesh.lines by simp [Excitation.elements, hs', e1]]
  subst this
  have hwf : F.elec.Wf := by
    rw [hF]
    refine ⟨by simp [lineCharges]; omega, ?_, by simp [lineCharges]; omega, ?_⟩ <;> simp [lineCharges, lineJacRow, linePosRow, gaussRule]
  have hlen : F.elec.len = idx'.length := by rw [hF]; simp [EffCharges.len, lineCharges, hq]
  -- the elements of the groups
  have hgroups : ∃ js : List Nat, js.map (fun j => idx'[j]?) = (ns.flatMap fun n => (x.mesh.physLines.get n).getD []).map some ∧
      ∀ Q, chargeOnElements (areaOfElementRadial F.elec) F.elec.charges js = some Q → (ns.map fun n => (groupCharge x (.radial F) n).getD 0).sum = Q := by
    clear hnd hin hout
    induction ns with
    | nil => exact ⟨[], rfl, fun Q hQ => by simpa [chargeOnElements] using hQ⟩
    | cons n ns ih =>
      obtain ⟨js, h1, h3⟩ := ih fun n hn => hns n (by simp [hn])
      obtain ⟨tv, h4, h5⟩ := hns n (by simp)
      obtain ⟨g, hg⟩ := hp n tv h4 h5
      obtain ⟨js', h6, h7⟩ := hA.nameIdx n g hg ⟨tv, h4, h5⟩
      rw [hph] at hg
      refine ⟨js' ++ js, ?_, fun Q hQ => ?_⟩
      · rw [List.map_append, h1, h7, List.flatMap_cons, hg, List.map_append]
        rfl
      · have hj : ∀ js'' : List Nat, (∀ k ∈ js'', ∃ i, idx'[k]? = some i) → chargeOnElements (areaOfElementRadial F.elec) F.elec.charges js'' =
            some ((js''.map fun k => 2 * π * (List.zipWith (fun j p => j * p.1) (F.elec.jacobians.getD k []) (F.elec.positions.getD k [])).sum * F.elec.charges.getD k 0).sum) := by
          intro js'' h
          unfold chargeOnElements
          rw [foldlM_some js'' (g := fun k => 2 * π * (List.zipWith (fun j p => j * p.1) (F.elec.jacobians.getD k []) (F.elec.positions.getD k [])).sum * F.elec.charges.getD k 0) ?_ 0, zero_add]
          intro k hk'
          obtain ⟨i, hi⟩ := h k hk'
          have hkl : k < F.elec.len := by rw [hlen]; exact (List.getElem?_eq_some_iff.1 hi).1
          have hjl : k < F.elec.jacobians.length := by have := hwf.1; unfold EffCharges.len at hkl; omega
          have hpl : k < F.elec.positions.length := by have := hwf.2.2.1; unfold EffCharges.len at hkl; omega
          unfold chargeOnElement areaOfElementRadial
          rw [getD_of_lt _ _ hjl, getD_of_lt _ _ hpl, getD_of_lt _ _ hkl, List.getElem?_eq_getElem hjl, List.getElem?_eq_getElem hkl, List.getElem?_eq_getElem hpl]
          rfl
        have j1 := hj js fun k hk' => mem_idx h1 hk'
        have j2 := hj js' fun k hk' => mem_idx h7 hk'
        have j3 := hj (js' ++ js) fun k hk' => (List.mem_append.1 hk').elim (mem_idx h7) (mem_idx h1)
        rw [j3] at hQ
        rw [List.map_cons, List.sum_cons, h3 _ j1, ← Option.some.inj hQ, List.map_append, List.sum_append]
        congr 1
        unfold groupCharge
        rw [hA.eq]
        simp only [Option.bind_eq_bind, Option.bind_some, h6]
        change (chargeOnElements (areaOfElementRadial F.elec) F.elec.charges js').getD 0 = _
        rw [j2]
        rfl
  obtain ⟨js, hjs, hsum⟩ := hgroups
  generalize ns.flatMap (fun n => (x.mesh.physLines.get n).getD []) = g at *
  have hjn : js.Nodup := by
    have : (js.map fun j => idx'[j]?).Nodup := by
      rw [hjs]
      exact hnd.map fun _ _ h => Option.some.inj h
    exact this.of_map _
  have hmemg : ∀ k i : Nat, idx'[k]? = some i → (k ∈ js ↔ i ∈ g) := by
    intro k i hi
    constructor
    · intro h
      have : idx'[k]? ∈ js.map (fun j => idx'[j]?) := List.mem_map.2 ⟨k, h, rfl⟩
      rw [hjs, hi] at this
      obtain ⟨i', hi', h'⟩ := List.mem_map.1 this
      cases h'
      exact hi'
    · intro h
      have : some i ∈ js.map (fun j => idx'[j]?) := by rw [hjs]; exact List.mem_map.2 ⟨i, h, rfl⟩
      obtain ⟨k', hk', h'⟩ := List.mem_map.1 this
      have h1 := (List.getElem?_eq_some_iff.1 hi)
      have h3 := (List.getElem?_eq_some_iff.1 h')
      have : idx'.Nodup := hs.imp fun h => Nat.ne_of_lt h
      rwa [(this.getElem_inj_iff).1 (h1.2.trans h3.2.symm)]
  -- the points of an element
  have hrow : ∀ (k : Nat) (ps : List (ℝ × ℝ)), F.elec.positions[k]? = some ps → ∃ i : Nat, idx'[k]? = some i ∧ ∀ P : ℝ → ℝ → Prop, SweptBy x'.mesh i P → ∀ q ∈ ps, P q.1 q.2 := by
    intro k ps hps
    have hkl : k < idx'.length := by
      have := (List.getElem?_eq_some_iff.1 hps).1
      have h4 := hwf.2.2.1
      unfold EffCharges.len at hlen
      omega
    have hi := List.getElem?_eq_getElem hkl
    obtain ⟨⟨a', b', c', d', l, m1, m2, m3, m4, m5, m6⟩, -⟩ := hk k _ hi
    rw [hF] at hps
    simp only [lineCharges, List.getElem?_map, m6, Option.map_some, Option.some.injEq] at hps
    subst hps
    refine ⟨_, hi, fun P hP t ht' => ?_⟩
    simp only [linePosRow, List.mem_map] at ht'
    obtain ⟨g', hg', rfl⟩ := ht'
    rw [elemPoint_linePos]
    exact hP a' b' c' d' l m1 m2 m3 m4 m5 g'.2 (gauss_range g' hg').1 (gauss_range g' hg').2
  have hE := C112_elements F.elec hwf hax hay haz js hjn (fun j hj => by
      obtain ⟨i, hi⟩ := mem_idx hjs hj
      rw [hlen]
      exact (List.getElem?_eq_some_iff.1 hi).1) ?_ ?_
  · exact (hsum _ hE).symm
  · intro k hkj ps hps p hpp
    obtain ⟨i, h1, h2⟩ := hrow k ps hps
    exact h2 _ (hin i ((hmemg k i h1).1 hkj)) p hpp
  · intro k hkj ps hps p hpp
    obtain ⟨i, h1, h2⟩ := hrow k ps hps
    exact h2 _ (hout i ((hex i).1 ((hm i).1 (List.mem_of_getElem? h1)).2) fun h => hkj ((hmemg k i h1).2 h)) p hpp

/-- The surfaces of the two discs of `discMesh`. -/
theorem disc_swept (i : Nat) (P : ℝ → ℝ → Prop) (h : ∀ r : ℝ, 1 ≤ r → r ≤ 4 → P r i) : SweptBy discMesh i P := by
  intro a b c d l hl ha hb hc hd α m1 m2
  have key : l = ⟨⟨1, 0, i⟩, ⟨4, 0, i⟩, ⟨2, 0, i⟩, ⟨3, 0, i⟩⟩ := by
    match i, hl with
    | 0, hl =>
      cases (Option.some.inj hl : [0, 1, 2, 3] = [a, b, c, d])
      cases l; simp only [discMesh] at ha hb hc hd
      cases ha; cases hb; cases hc; cases hd; simp
    | 1, hl =>
      cases (Option.some.inj hl : [4, 5, 6, 7] = [a, b, c, d])
      cases l; simp only [discMesh] at ha hb hc hd
      cases ha; cases hb; cases hc; cases hd; simp
    | i + 2, hl => simp [discMesh] at hl
  subst key
  have e1 : (elemPoint ⟨⟨1, 0, i⟩, ⟨4, 0, i⟩, ⟨2, 0, i⟩, ⟨3, 0, i⟩⟩ α).x = (5 + 3 * α) / 2 := by simp [elemPoint]; ring
  have e2 : (elemPoint ⟨⟨1, 0, i⟩, ⟨4, 0, i⟩, ⟨2, 0, i⟩, ⟨3, 0, i⟩⟩ α).z = i := by simp [elemPoint]; ring
  rw [e1, e2]
  exact h _ (by linarith) (by linarith)

theorem ring_in_box {r z h k : ℝ} (hr : 0 ≤ r) (hr' : r ≤ 4) (h1 : h < z) (h2 : z < k) : RingInside ⟨-5, -5, h⟩ ⟨5, 5, k⟩ r z := by
  intro φ
  have c1 := Real.neg_one_le_cos φ
  have c2 := Real.cos_le_one φ
  have s1 := Real.neg_one_le_sin φ
  have s2 := Real.sin_le_one φ
  simp only [InsideBox, ringPoint]
  refine ⟨⟨?_, ?_⟩, ⟨?_, ?_⟩, h1, h2⟩ <;> nlinarith

/-- The hypotheses can be met: a disc of 10 V below another disc; boxes around the one, the other, both and none of them. -/
theorem C112_example (G : Geo V3) (hG : G.Lawful) (inXZ : V3 → Bool) (hxz : ∀ p, inXZ p = true ↔ p.y = 0) : ∃ x env f F q₁ q₂, FaithfulEnv env x ∧ x.solveField G env = some f ∧ f = .radial F ∧
    x.types.get "disc" = some (.voltageFixed, .num 10) ∧ x.types.get "glass" = some (.dielectric, .num 1) ∧ groupCharge x f "disc" = some q₁ ∧ groupCharge x f "glass" = some q₂ ∧
    boxFlux (coulombRings F.elec) ⟨-5, -5, -1 / 2⟩ ⟨5, 5, 1 / 2⟩ = q₁ ∧ boxFlux (coulombRings F.elec) ⟨-5, -5, 1 / 2⟩ ⟨5, 5, 2⟩ = q₂ ∧
    boxFlux (coulombRings F.elec) ⟨-5, -5, -1⟩ ⟨5, 5, 2⟩ = q₁ + q₂ ∧ boxFlux (coulombRings F.elec) ⟨-5, -5, 2⟩ ⟨5, 5, 3⟩ = 0 := by
  obtain ⟨x0, x, env, f, hv, h0, hx, hup, he, hen, hpl, hf⟩ := C80_example_radial G inXZ hxz
  have hx0 : x0 = { mesh := discMesh, electrodes := ["disc", "glass"], symmetry := .radial } := by
    have : Excitation.new discMesh .radial inXZ = some ({ mesh := discMesh, electrodes := ["disc", "glass"], symmetry := .radial } : Excitation ℝ V3) := by
      unfold Excitation.new
      rw [if_neg (by simp [discMesh, hxz])]
      rfl
    rw [this] at h0
    exact (Option.some.inj h0).symm
  have hxe : x = discExc := by rw [hx, hx0]; rfl
  have hel : x.isElectrostatic := by rw [hxe]; simp [isElectrostatic, discExc]
  have hk1 : HasKind x .electrostatic "disc" := by rw [hxe]; exact ⟨_, rfl, rfl⟩
  have hk2 : HasKind x .electrostatic "glass" := by rw [hxe]; exact ⟨_, rfl, rfl⟩
  have hg1 : x.mesh.physLines.get "disc" = some [0] := by rw [hxe]; rfl
  have hg2 : x.mesh.physLines.get "glass" = some [1] := by rw [hxe]; rfl
  obtain ⟨-, -, ex, σ, -, -, -, hq, -⟩ := C87_radial hG hv hxz h0 _ hx hup he hpl hf hel
  have q1 := hq "disc" [0] hg1 hk1
  have q2 := hq "glass" [1] hg2 hk2
  obtain ⟨F, hF, -, hbox⟩ := C112_solved hG hv hxz h0 _ hx hup he hpl hf hel
  have hxm : x.mesh = discMesh := by rw [hxe]; rfl
  have hexc : ∀ i, Excited x .electrostatic i → i = 0 ∨ i = 1 := by
    rintro i ⟨n, g, tv, h4, h5, -⟩
    have hph : x.physicals = [("disc", [0]), ("glass", [1])] := by rw [hxe]; rfl
    rw [hph] at h4
    have := Dict.mem_of_get h4
    simp only [List.mem_cons, List.not_mem_nil, or_false, Prod.mk.injEq] at this
    rcases this with ⟨-, rfl⟩ | ⟨-, rfl⟩
    · exact .inl (by simpa using h5)
    · exact .inr (by simpa using h5)
  rw [hxm] at hbox
  have above : ∀ (i : Nat) (h k : ℝ), k < i → SweptBy discMesh i (RingOutside ⟨-5, -5, h⟩ ⟨5, 5, k⟩) := fun i h k hi =>
    disc_swept i _ fun r _ _ φ => .inr (.inr (.inr hi))
  have below : ∀ (i : Nat) (h k : ℝ), (i : ℝ) < h → SweptBy discMesh i (RingOutside ⟨-5, -5, h⟩ ⟨5, 5, k⟩) := fun i h k hi =>
    disc_swept i _ fun r _ _ φ => .inr (.inr (.inl hi))
  have within : ∀ (i : Nat) (h k : ℝ), h < i → (i : ℝ) < k → SweptBy discMesh i (RingInside ⟨-5, -5, h⟩ ⟨5, 5, k⟩) := fun i h k h1 h2 =>
    disc_swept i _ fun r hr hr' => ring_in_box (by linarith) hr' h1 h2
  have hp1 : discMesh.physLines.get "disc" = some [0] := rfl
  have hp2 : discMesh.physLines.get "glass" = some [1] := rfl
  refine ⟨x, env, f, F, _, _, he, hf, hF, by rw [hxe]; rfl, by rw [hxe]; rfl, q1, q2, ?_, ?_, ?_, ?_⟩
  · have := hbox ⟨-5, -5, -1 / 2⟩ ⟨5, 5, 1 / 2⟩ (by norm_num) (by norm_num) (by norm_num) ["disc"] (by simpa using hk1) (by simp [hp1]) (by simpa [hp1] using within 0 _ _ (by norm_num) (by norm_num))
      (fun i hi hn => by
        rcases hexc i hi with rfl | rfl
        · simp [hp1] at hn
        · exact above 1 _ _ (by norm_num))
    simpa [q1] using this
  · have := hbox ⟨-5, -5, 1 / 2⟩ ⟨5, 5, 2⟩ (by norm_num) (by norm_num) (by norm_num) ["glass"] (by simpa using hk2) (by simp [hp2]) (by simpa [hp2] using within 1 _ _ (by norm_num) (by norm_num))
      (fun i hi hn => by
        rcases hexc i hi with rfl | rfl
        · exact below 0 _ _ (by norm_num)
        · simp [hp2] at hn)
    simpa [q2] using this
  · have := hbox ⟨-5, -5, -1⟩ ⟨5, 5, 2⟩ (by norm_num) (by norm_num) (by norm_num) ["disc", "glass"] (by simpa using ⟨hk1, hk2⟩) (by simp [hp1, hp2])
      (by simpa [hp1, hp2] using ⟨within 0 _ _ (by norm_num) (by norm_num), within 1 _ _ (by norm_num) (by norm_num)⟩)
      (fun i hi hn => by
        rcases hexc i hi with rfl | rfl <;> simp [hp1, hp2] at hn)
    simpa [q1, q2] using this
  · exact hbox ⟨-5, -5, 2⟩ ⟨5, 5, 3⟩ (by norm_num) (by norm_num) (by norm_num) [] (by simp) (by simp) (by simp)
      (fun i hi _ => by
        rcases hexc i hi with rfl | rfl
        · exact below 0 _ _ (by norm_num)
        · exact below 1 _ _ (by norm_num))

end Traceon
