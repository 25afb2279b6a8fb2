import Verif.Props.GroupCharge
import Verif.Props.Similar7
import Verif.Props.FewLines

/-!
# C87: radial symmetry, and how the charges depend on the voltages
-/
namespace Traceon
open Spec Excitation

/-! ## Radial symmetry -/

theorem upgraded_radial {G : Geo V3} (hG : G.Lawful) {x x' : Excitation ℝ V3} (hv : Valid x.mesh) (hr : x.symmetry = .radial) (u : x.upgraded G = some x') :
    x'.types = x.types ∧ x'.symmetry = x.symmetry ∧ Valid x'.mesh ∧ x'.mesh.physLines = x.mesh.physLines ∧ x'.mesh.lines.length = x.mesh.lines.length := by
  unfold upgraded at u
  obtain ⟨M, hM, rfl⟩ := Option.map_eq_some_iff.1 u
  refine ⟨rfl, rfl, solverMesh_valid hG hv hM, ?_⟩
  unfold Mesh.solverMesh at hM
  split at hM
  · rename_i hc
    have hcols : x.mesh.lineCols = 2 := by
      rcases hv.cols with h | h
      · exact h
      · simp [Mesh.isHigherOrder, h] at hc
    obtain ⟨M', k1, k2, k3, k4, k5, _⟩ := C12_upgrade hG realThirds x.mesh hv hcols
    rw [k1] at hM
    cases hM
    refine ⟨k4, ?_⟩
    have := k5.1
    simpa [lineShapes] using this.symm
  · cases hM; exact ⟨rfl, rfl⟩

/-- **C87**, radial symmetry; `x'` is the excitation on the mesh used for solving (upgraded to higher order if necessary, the groups and the number of lines are the same). -/
theorem C87_radial {G : Geo V3} (hG : G.Lawful) {m : Mesh V3} (hv : Valid m) {inXZ : V3 → Bool} (hxz : ∀ p, inXZ p = true ↔ p.y = 0) {x0 x x' : Excitation ℝ V3}
    (h0 : Excitation.new m .radial inXZ = some x0) (cs : List (Excitation.Call ℝ V3)) (hx : x = x0.calls G cs) (hx' : x.upgraded G = some x') {env : SolveEnv} (he : FaithfulEnv env x')
    (hplane : ∀ e ∈ x'.mesh.lines, ∀ l, toLine4 (coords x'.mesh.points e) = some l → 0 ≤ (elemPoint l 0).x) {f : PyObj}
    (hf : x.solveField G env = some f) (hel : x.isElectrostatic) :
    x'.mesh.physLines = x.mesh.physLines ∧ x'.mesh.lines.length = x.mesh.lines.length ∧
    ∃ (excited : List Nat) (σ : Nat → ℝ), excited.Nodup ∧ (∀ i, i ∈ excited ↔ i < x.mesh.lines.length ∧ Excited x .electrostatic i) ∧
      (∀ p, f.electrostaticPotential p = some ((excited.map fun i => σ i * meshLinePotential x'.mesh p i).sum)) ∧
      (∀ n g, x.mesh.physLines.get n = some g → HasKind x .electrostatic n →
        groupCharge x f n = some ((g.map fun i => σ i * meshLineArea x'.mesh i).sum)) ∧
      ∀ ns : List String, (∀ n ∈ ns, HasKind x .electrostatic n) → (ns.flatMap fun n => (x.mesh.physLines.get n).getD []).Perm excited →
        ∃ L, Filter.Tendsto (fun p => 4 * Real.pi * V3.norm p * (f.electrostaticPotential p).getD 0) far (nhds L) ∧
          |L - (ns.map fun n => (groupCharge x f n).getD 0).sum| ≤ 1e-9 * |(ns.map fun n => (groupCharge x f n).getD 0).sum| := by
  obtain ⟨ht, F, rfl, hS, -, -, -⟩ := C80_radial hG hv hxz h0 cs hx hx' he hplane hf
  obtain ⟨e1, e2, e3, e4, -⟩ := calls_facts (G := G) hv h0 cs
  rw [← hx] at e1 e2 e3 e4
  obtain ⟨-, hs', hv', hpl, hll⟩ := upgraded_radial hG e2 e1 hx'
  have e4' : x'.types.keys.Nodup := by rw [ht]; exact e4
  have hp' := proper_of_solveField hx' hv' e4' hel hf
  have hph : x.physicals = x.mesh.physLines := by simp [Excitation.physicals, e1]
  have hph' : x'.physicals = x.physicals := by simp [Excitation.physicals, e1, hs', hpl]
  have hll' : x'.elements.length = x.elements.length := by simp [Excitation.elements, e1, hs', hll]
  have hkind : ∀ n, HasKind x' .electrostatic n ↔ HasKind x .electrostatic n := fun n => by unfold HasKind; rw [ht]
  have hp : Proper x .electrostatic := by
    intro n tv h1 h2
    rw [← ht] at h1
    obtain ⟨g, hg⟩ := hp' n tv h1 h2
    exact ⟨g, by rw [← hph']; exact hg⟩
  have hex : ∀ i, Excited x' .electrostatic i ↔ Excited x .electrostatic i := fun i => by rw [excited_iff, excited_iff, hph']; simp only [hkind]
  obtain ⟨idx, ls, q, hF, hls, hq, hs, hm, hk⟩ := hS hel
  obtain ⟨verts, names, idx', hA⟩ := active_spec e2 e4 hp
  have : idx' = idx := sorted_unique hA.sorted hs fun i => by rw [hA.mem, hm, hex, ← hll', show x'.elements = x'.mesh.lines by simp [Excitation.elements, hs', e1]]
  subst this
  have hmesh : ∀ (k i : Nat), idx'[k]? = some i → ∃ l, meshLine x'.mesh i = some l ∧ ls[k]? = some l := by
    intro k i h
    obtain ⟨⟨a, b, c, d, l, h1, h2, h3, h4, h5, h6⟩, -⟩ := hk k i h
    exact ⟨l, by simp [meshLine, h1, h2, h3, h4, h5], h6⟩
  have harea : ∀ k i : Nat, idx'[k]? = some i → areaOfElementRadial F.elec k = some (meshLineArea x'.mesh i) := by
    intro k i h
    obtain ⟨l, h1, h3⟩ := hmesh k i h
    rw [hF, areaOfElementRadial_eq h3]
    simp only [meshLineArea, h1]
  have hch : ∀ k i : Nat, idx'[k]? = some i → chargeOnElement (areaOfElementRadial F.elec) F.elec.charges k =
      some (densityOf idx' q i * meshLineArea x'.mesh i) := by
    intro k i h
    unfold chargeOnElement
    rw [harea k i h, densityOf_eq hs q h]
    have hk' : k < q.length := by rw [hq]; exact (List.getElem?_eq_some_iff.1 h).1
    have h3 : F.elec.charges[k]? = some q[k] := by rw [hF]; exact List.getElem?_eq_getElem hk'
    rw [h3]
    simp only [Option.bind_eq_bind, Option.bind_some, Option.pure_def, Option.some.injEq]
    simp [List.getD, List.getElem?_eq_getElem hk']
    ring
  have hsum : ∀ js g : List Nat, js.map (fun j => idx'[j]?) = g.map some →
      Traceon.chargeOnElements (areaOfElementRadial F.elec) F.elec.charges js = some ((g.map fun i => densityOf idx' q i * meshLineArea x'.mesh i).sum) := by
    intro js g h
    unfold Traceon.chargeOnElements
    have hex : ∀ k ∈ js, chargeOnElement (areaOfElementRadial F.elec) F.elec.charges k =
        some (densityOf idx' q (idx'.getD k 0) * meshLineArea x'.mesh (idx'.getD k 0)) := by
      intro k hk
      obtain ⟨i, hi⟩ := mem_idx h hk
      rw [hch k i hi]
      simp [List.getD, hi]
    have := foldlM_some js hex 0
    rw [this, zero_add]
    congr 1
    exact sum_eq_of_idx h _ _ fun k i hi => by simp [List.getD, hi]
  have hwf : F.elec.Wf := by
    rw [hF]
    refine ⟨by simp [lineCharges]; omega, ?_, by simp [lineCharges]; omega, ?_⟩ <;> simp [lineCharges, lineJacRow, linePosRow, gaussRule]
  have hgroup : ∀ n g, x.mesh.physLines.get n = some g → HasKind x .electrostatic n →
      groupCharge x (.radial F) n = some ((g.map fun i => densityOf idx' q i * meshLineArea x'.mesh i).sum) := by
    intro n g hg hkind
    obtain ⟨js, h1, h3⟩ := hA.nameIdx n g (by rw [hph]; exact hg) hkind
    unfold groupCharge
    rw [hA.eq]
    simp only [Option.bind_eq_bind, Option.bind_some, h1]
    exact hsum js g h3
  refine ⟨hpl, hll, idx', densityOf idx' q, hs.imp fun h => Nat.ne_of_lt h, fun i => by rw [hm, hex, hll], fun p => ?_, hgroup, fun ns hns hperm => ?_⟩
  · change some (potentialRadial p F.elec) = _
    rw [hF]
    unfold potentialRadial
    rw [EffCharges.loop_eq]
    unfold lineCharges
    rw [superpose_rows]
    congr 1
    refine sum_zip_idx q ls (fun t => (((lineJacRow t).zip (linePosRow t)).map fun k => k.1 * potentialRadialRing (norm2d p.x p.y) p.z k.2.1 k.2.2).sum)
      (meshLinePotential x'.mesh p) hs hq hls fun k i t h1 h3 => ?_
    obtain ⟨t', h4, h5⟩ := hmesh k i h1
    rw [h3] at h5
    cases h5
    simp only [meshLinePotential, h4]
    rfl
  · obtain ⟨Q, L, hQ, hlim, hacc⟩ := C73_total_radial F.elec hwf
    have : Q = (idx'.map fun i => densityOf idx' q i * meshLineArea x'.mesh i).sum := by
      have h := hsum (List.range F.elec.len) idx' (by
        apply List.ext_getElem?
        intro k
        have hlen : F.elec.len = idx'.length := by rw [hF]; simp [EffCharges.len, lineCharges, hq]
        rw [hlen]
        by_cases hk : k < idx'.length
        · simp [hk]
        · simp [hk])
      rw [h] at hQ
      exact (Option.some.inj hQ).symm
    have hgroups : (ns.map fun n => (groupCharge x (.radial F) n).getD 0).sum =
        (((ns.flatMap fun n => (x.mesh.physLines.get n).getD []).map fun i => densityOf idx' q i * meshLineArea x'.mesh i).sum) := by
      clear hperm
      induction ns with
      | nil => simp
      | cons n ns ih =>
        obtain ⟨tv, h1, h3⟩ := hns n (by simp)
        obtain ⟨g, hg⟩ := hp n tv h1 h3
        rw [hph] at hg
        simp only [List.map_cons, List.sum_cons, List.flatMap_cons, List.map_append, List.sum_append, ih fun n hn => hns n (by simp [hn])]
        rw [hgroup n g hg ⟨tv, h1, h3⟩, hg]
        simp only [Option.getD_some]
    rw [hgroups, (hperm.map _).sum_eq, ← this]
    exact ⟨L, hlim, hacc⟩

/-! ## Voltages and charges -/

theorem active_kinds {x y : Excitation ℝ V3} (hk : SameKinds y x) (hkeys : y.types.keys = x.types.keys) (hn : x.types.keys.Nodup) (s : Statics) :
    y.activeElements s = x.activeElements s := by
  have hmap : ∀ (d d' : Dict (ExcType × ExcVal ℝ V3)), d'.keys = d.keys → d.keys.Nodup → (∀ n, (d.get n).map Prod.fst = (d'.get n).map Prod.fst) →
      d'.map (fun nv => (nv.1, nv.2.1)) = d.map fun nv => (nv.1, nv.2.1) := by
    intro d
    induction d with
    | nil => intro d' h _ _; have : d' = [] := List.map_eq_nil_iff.1 h; rw [this]
    | cons a d ih =>
      intro d' h hnd hg
      cases d' with
      | nil => simp [Dict.keys] at h
      | cons b d' =>
        have h1 : b.1 = a.1 ∧ Dict.keys d' = Dict.keys d := by simpa [Dict.keys] using h
        have hnd' : a.1 ∉ Dict.keys d ∧ (Dict.keys d).Nodup := by simpa [Dict.keys] using hnd
        have h2 := hg a.1
        rw [Dict.get_cons, Dict.get_cons, if_pos rfl, if_pos h1.1] at h2
        simp only [Option.map_some, Option.some.injEq] at h2
        rw [List.map_cons, List.map_cons, h1.1, ← h2, ih d' h1.2 hnd'.2 fun n => ?_]
        by_cases hna : n = a.1
        · subst hna
          rw [Dict.get_none_iff.2 hnd'.1, Dict.get_none_iff.2 (by rw [h1.2]; exact hnd'.1)]
        · have := hg n
          rw [Dict.get_cons, Dict.get_cons, if_neg (Ne.symm hna), if_neg (by rw [h1.1]; exact Ne.symm hna)] at this
          exact this
  have hm := hmap x.types y.types hkeys hn fun n => hk.kinds n
  have hph := sameKinds_physicals hk
  have hel := sameKinds_elements hk
  have hmask : y.inactiveMask s = x.inactiveMask s := by
    have key : ∀ (z : Excitation ℝ V3), z.inactiveMask s = (z.types.map fun nv => (nv.1, nv.2.1)).foldlM (fun mask nv =>
        if typeCheck s nv.2 then do
          let idx ← z.physicals.get nv.1
          return scatter mask idx (idx.map (fun _ => false))
        else some mask) (List.replicate z.elements.length true) := by
      intro z
      rw [List.foldlM_map]
      rfl
    rw [key, key, hm, ← hph, ← hel]
  have hnames : ∀ mask, y.activeNames s mask = x.activeNames s mask := by
    intro mask
    unfold activeNames
    rw [← hph]
    congr 1
    apply List.filter_congr
    intro ni _
    have := hk.kinds ni.1
    cases h1 : x.types.get ni.1 <;> cases h2 : y.types.get ni.1 <;> rw [h1, h2] at this <;> simp at this ⊢
    rw [this]
  unfold activeElements
  rw [hmask, ← hel, show y.mesh = x.mesh from hk.mesh.symm]
  simp only [hnames]

theorem charge_lin {a b : ℝ} {c₁ c₂ c : List ℝ} (area : Nat → Option ℝ) (h₁ : c₁.length = c.length) (h₂ : c₂.length = c.length)
    (h : ∀ k : Nat, k < c.length → c.getD k 0 = a * c₁.getD k 0 + b * c₂.getD k 0) (ks : List Nat) :
    chargeOnElements area c ks = Combined a b (chargeOnElements area c₁ ks) (chargeOnElements area c₂ ks) := by
  have hnone : ∀ (d : List ℝ) (k : Nat), (area k = none ∨ ¬k < d.length) → chargeOnElement area d k = none := by
    intro d k hk
    unfold chargeOnElement
    rcases hk with hk | hk
    · rw [hk]; rfl
    · rw [List.getElem?_eq_none (by omega)]
      cases area k <;> rfl
  unfold chargeOnElements
  by_cases hall : ∃ k ∈ ks, area k = none ∨ ¬k < c.length
  · obtain ⟨k, hk, hc⟩ := hall
    rw [foldlM_none ks hk (hnone c k hc), foldlM_none ks hk (hnone c₁ k (by rw [h₁]; exact hc))]
    rfl
  · push Not at hall
    have hsome : ∀ d : List ℝ, d.length = c.length → ∀ k ∈ ks, chargeOnElement area d k = some ((area k).getD 0 * d.getD k 0) := by
      intro d hd k hk
      obtain ⟨h3, h4⟩ := hall k hk
      unfold chargeOnElement
      cases ha : area k with
      | none => exact absurd ha h3
      | some v =>
        have h5 : d[k]? = some (d[k]'(by omega)) := List.getElem?_eq_getElem _
        simp [List.getD, h5]
    rw [foldlM_some ks (hsome c rfl), foldlM_some ks (hsome c₁ h₁), foldlM_some ks (hsome c₂ h₂)]
    simp only [Combined, Option.bind_some, Option.map_some, Option.some.injEq, zero_add]
    rw [← List.sum_map_mul_left, ← List.sum_map_mul_left, ← List.sum_map_add]
    congr 1
    refine List.map_congr_left fun k hk => ?_
    rw [h k (hall k hk).2]
    ring

theorem FieldLin.charges {a b : ℝ} {f₁ f₂ f : PyObj} (h : FieldLin a b f₁ f₂ f) (ks : List Nat) :
    f.chargeOnElements ks = Combined a b (f₁.chargeOnElements ks) (f₂.chargeOnElements ks) := by
  cases f₁ <;> cases f₂ <;> cases f <;> try exact absurd h id
  · obtain ⟨e, -, -⟩ := h
    unfold PyObj.chargeOnElements
    rename_i F₁ F₂ F
    have k1 : areaOfElementRadial F₁.elec = areaOfElementRadial F.elec := by funext i; unfold areaOfElementRadial; rw [e.jac₁, e.pos₁]
    have k2 : areaOfElementRadial F₂.elec = areaOfElementRadial F.elec := by funext i; unfold areaOfElementRadial; rw [e.jac₂, e.pos₂]
    simp only [k1, k2]
    exact charge_lin _ e.len₁ e.len₂ e.lin ks
  · obtain ⟨e, -⟩ := h
    unfold PyObj.chargeOnElements
    rename_i F₁ F₂ F
    have k1 : areaOfElement3d F₁.elec = areaOfElement3d F.elec := by funext i; unfold areaOfElement3d; rw [e.jac₁]
    have k2 : areaOfElement3d F₂.elec = areaOfElement3d F.elec := by funext i; unfold areaOfElement3d; rw [e.jac₂]
    simp only [k1, k2]
    exact charge_lin _ e.len₁ e.len₂ e.lin ks

variable {G : Geo V3} {a b : ℝ} {x₁ x₂ x x₁' x₂' x' : Excitation ℝ V3} {env₁ env₂ env : SolveEnv} {f₁ f₂ : PyObj}

/-- **C87**, the charge on every group depends linearly on the excitation (as capacitances require), in radial symmetry and in three dimensions. -/
theorem C87_linear (hG : G.Lawful) (h : Combination a b x₁ x₂ x) (hv : Valid x.mesh) (hn : x.types.keys.Nodup)
    (u₁ : x₁.upgraded G = some x₁') (u₂ : x₂.upgraded G = some x₂') (u : x.upgraded G = some x')
    (he₁ : FaithfulEnv env₁ x₁') (he₂ : FaithfulEnv env₂ x₂') (he : FaithfulEnv env x') (hE₁ : EnoughLines env₁ x₁') (hE₂ : EnoughLines env₂ x₂') (hE : EnoughLines env x')
    (hf₁ : x₁.solveField G env₁ = some f₁) (hf₂ : x₂.solveField G env₂ = some f₂) :
    ∃ f, x.solveField G env = some f ∧ ∀ n, groupCharge x f n = Combined a b (groupCharge x₁ f₁ n) (groupCharge x₂ f₂ n) := by
  obtain ⟨f, h1, h2⟩ := solveField_lin hG h hv hn u₁ u₂ u he₁ he₂ he hE₁ hE₂ hE hf₁ hf₂
  refine ⟨f, h1, fun n => ?_⟩
  have k1 : x₁.activeElements .electrostatic = x.activeElements .electrostatic := active_kinds h.sameKinds₁ h.names₁ hn _
  have k2 : x₂.activeElements .electrostatic = x.activeElements .electrostatic := active_kinds h.sameKinds₂ h.names₂ hn _
  unfold groupCharge
  rw [k1, k2]
  cases x.activeElements .electrostatic with
  | none => rfl
  | some vn =>
    simp only [Option.bind_eq_bind, Option.bind_some]
    cases vn.2.get n with
    | none => rfl
    | some ks => exact h2.charges ks

end Traceon
