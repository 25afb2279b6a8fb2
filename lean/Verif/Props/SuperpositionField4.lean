import Verif.Props.SuperpositionField3

/-!
# C35 for the fields: the theorems
-/
namespace Traceon
open Spec Excitation

section
variable {x y : Excitation ℝ V3}

theorem SettingOf_alike (hn : x.types.keys.Nodup) (hx : OnlyVoltages x) (h : SettingOf x y) : Alike x y := by
  have hg : ∀ n, (∃ v w, x.types.get n = some (.voltageFixed, .num v) ∧ y.types.get n = some (.voltageFixed, .num w)) ∨
      (∃ v, x.types.get n = some (.dielectric, .num v) ∧ y.types.get n = some (.dielectric, .num v)) ∨ (x.types.get n = none ∧ y.types.get n = none) := by
    intro n
    cases hxn : x.types.get n with
    | none =>
      refine Or.inr (Or.inr ⟨rfl, ?_⟩)
      rw [Dict.get_none_iff] at hxn ⊢
      rw [h.names]; exact hxn
    | some tv =>
      obtain ⟨hty, v, hv⟩ := hx n tv hxn
      obtain ⟨t, w⟩ := tv
      simp only at hty hv
      subst hv
      rcases hty with rfl | rfl
      · obtain ⟨w, hw⟩ := h.volts n _ hxn
        exact Or.inl ⟨v, w, rfl, hw⟩
      · exact Or.inr (Or.inl ⟨v, rfl, h.same n _ hxn⟩)
  refine ⟨h.mesh, h.symmetry, h.names, hn, hx, fun n tv htv => ?_, fun n => ?_, h.same⟩
  · rcases hg n with ⟨v, w, h1, h2⟩ | ⟨v, h1, h2⟩ | ⟨h1, h2⟩ <;> rw [htv] at h2 <;> cases h2
    · exact ⟨Or.inl rfl, w, rfl⟩
    · exact ⟨Or.inr rfl, v, rfl⟩
  · rcases hg n with ⟨v, w, h1, h2⟩ | ⟨v, h1, h2⟩ | ⟨h1, h2⟩ <;> rw [h1, h2] <;> rfl

/-- The voltage of one name set to zero. -/
noncomputable def setZero (y : Excitation ℝ V3) (n : String) : Excitation ℝ V3 :=
  { y with types := y.types.map fun nv => (nv.1, if nv.1 = n then (nv.2.1, .num 0) else nv.2) }

theorem setZero_get (y : Excitation ℝ V3) (n m : String) : (setZero y n).types.get m = (y.types.get m).map fun tv => if m = n then (tv.1, .num 0) else tv := by
  unfold setZero
  exact Dict.get_mapKey y.types (fun nv => if nv.1 = n then (nv.2.1, .num 0) else nv.2) m

theorem alike_setZero (hn : y.types.keys.Nodup) (hy : OnlyVoltages y) {n : String} {v : ℝ} (h : y.types.get n = some (.voltageFixed, .num v)) : Alike y (setZero y n) := by
  refine ⟨rfl, rfl, ?_, hn, hy, fun m tv htv => ?_, fun m => ?_, fun m w hm => ?_⟩
  · unfold setZero Dict.keys
    rw [List.map_map]
    rfl
  · rw [setZero_get] at htv
    obtain ⟨tv', h1, rfl⟩ := Option.map_eq_some_iff.1 htv
    obtain ⟨h2, h3⟩ := hy m tv' h1
    split
    · exact ⟨h2, 0, rfl⟩
    · exact ⟨h2, h3⟩
  · rw [setZero_get, Option.map_map]
    congr 1
    funext tv
    simp only [Function.comp]
    split <;> rfl
  · rw [setZero_get, hm, Option.map_some, if_neg]
    rintro rfl
    rw [h] at hm
    cases hm

theorem solveStatics_values {env : SolveEnv} {f : PyObj} (hf : x.solveStatics env .electrostatic = some f) (p : V3) :
    ∃ u w, f.electrostaticPotential p = some u ∧ f.electrostaticField p = some w := by
  rcases solveStatics_shape hf with ⟨ts, q, rfl⟩ | ⟨E, c, rfl, -⟩ <;> exact ⟨_, _, rfl, rfl⟩

/-- Sums of unit fields. -/
theorem sum_units (hv : Valid x.mesh) (hn : x.types.keys.Nodup) (hx : OnlyVoltages x) {env : SolveEnv} (he : FaithfulEnv env x) (hE : EnoughLines env x) {f : PyObj}
    (hf : x.solveStatics env .electrostatic = some f) (g : String → PyObj) {L : List String} (hnd : L.Nodup)
    (hg : ∀ n ∈ L, (∃ v, x.types.get n = some (.voltageFixed, .num v)) ∧ Excitation.solveStatics { x with types := x.unitTypes n } env .electrostatic = some (g n)) :
    ∀ y, Alike x y → (∀ n, n ∉ L → voltageOf y n = 0 ∨ ∃ v, y.types.get n = some (.dielectric, v)) → ∀ env', FaithfulEnv env' y → EnoughLines env' y →
      ∃ f', y.solveStatics env' .electrostatic = some f' ∧ ∀ p,
        f'.electrostaticPotential p = some ((L.map fun n => voltageOf y n * ((g n).electrostaticPotential p).getD 0).sum) ∧
        f'.electrostaticField p = some ((L.map fun n => voltageOf y n * ((g n).electrostaticField p).getD 0).sum) := by
  induction L with
  | nil =>
    intro y hA hz env' he' hE'
    have hc : Combination 0 0 x x y := hA.combination hA fun n u v w e1 e2 e3 => by
      rcases hz n (by simp) with h | ⟨v, h⟩
      · unfold voltageOf at h
        rw [e3] at h
        simp only at h
        rw [h]; ring
      · rw [e3] at h; cases h
    obtain ⟨f', h1, h2⟩ := solveStatics_lin hc (by rw [hA.mesh]; exact hv) hA.nodup₂ he he he' hE hE hE' hf hf
    refine ⟨f', h1, fun p => ?_⟩
    obtain ⟨u, w, hu, hw⟩ := solveStatics_values hf p
    obtain ⟨k1, k2, -⟩ := h2.fields p
    rw [k1, k2, hu, hw]
    simp only [Combined, CombinedV, Option.bind_some, Option.map_some, List.map_nil, List.sum_nil, Option.some.injEq]
    exact ⟨by ring, by ext <;> simp⟩
  | cons n L ih =>
    intro y hA hz env' he' hE'
    obtain ⟨hnL, hnd'⟩ := List.nodup_cons.1 hnd
    obtain ⟨⟨v, hxn⟩, hgn⟩ := hg n (by simp)
    obtain ⟨w, hyn⟩ : ∃ w, y.types.get n = some (.voltageFixed, .num w) := by
      cases hyn : y.types.get n with
      | none =>
        have := hA.kinds n
        rw [hxn, hyn] at this
        cases this
      | some tv =>
        rcases hA.cases hxn hyn with ⟨v, w, e1, e2⟩ | ⟨v, e1, e2⟩
        · exact ⟨w, by rw [e2]⟩
        · cases e1
    have hZ := alike_setZero hA.nodup₂ hA.only₂ hyn
    have hxZ := hA.trans hZ
    have hU := alike_unit hn hx hxn
    have hvol : ∀ m, m ≠ n → voltageOf (setZero y n) m = voltageOf y m := by
      intro m hm
      unfold voltageOf
      rw [setZero_get]
      simp [hm]
    have hvoln : voltageOf y n = w := by unfold voltageOf; rw [hyn]
    obtain ⟨f0, h1, h2⟩ := ih hnd' (fun m hm => hg m (by simp [hm])) (setZero y n) hxZ (fun m hm => by
      by_cases e : m = n
      · subst e
        refine Or.inl ?_
        unfold voltageOf
        rw [setZero_get, hyn]
        simp
      · rw [hvol m e]
        rcases hz m (by simp [e, hm]) with h | ⟨v, h⟩
        · exact Or.inl h
        · exact Or.inr ⟨v, by rw [setZero_get, h]; simp [e]⟩) env (hxZ.faithful hv he) (hxZ.enough hE)
    have hc : Combination 1 w (setZero y n) { x with types := x.unitTypes n } y := hZ.symm.combination (hU.symm.trans hA) fun m u u' w' e1 e2 e3 => by
      rw [setZero_get, e3, Option.map_some] at e1
      have hxm : ∃ v, x.types.get m = some (.voltageFixed, .num v) := by
        cases hxm : x.types.get m with
        | none =>
          have := hA.kinds m
          rw [e3, hxm] at this
          cases this
        | some tv =>
          rcases hA.cases hxm e3 with ⟨v, w, e, -⟩ | ⟨v, -, e⟩
          · exact ⟨v, by rw [e]⟩
          · cases e
      obtain ⟨v', hxm⟩ := hxm
      have e4 := unit_get hn hxm e2
      by_cases e : m = n
      · subst e
        rw [hyn] at e3
        cases e3
        rw [if_pos rfl] at e1 e4
        cases e1
        rw [e4]; ring
      · rw [if_neg e] at e1 e4
        cases e1
        rw [e4]; ring
    obtain ⟨f', k1, k2⟩ := solveStatics_lin hc (by rw [hA.mesh]; exact hv) hA.nodup₂ (hxZ.faithful hv he) (hU.faithful hv he) he' (hxZ.enough hE) (hU.enough hE) hE' h1 hgn
    refine ⟨f', k1, fun p => ?_⟩
    obtain ⟨j1, j2, -⟩ := k2.fields p
    obtain ⟨i1, i2⟩ := h2 p
    obtain ⟨u, u', hu, hu'⟩ := solveStatics_values hgn p
    rw [j1, j2, i1, i2, hu, hu']
    have hs : ∀ m ∈ L, voltageOf (setZero y n) m = voltageOf y m := fun m hm => hvol m (fun e => hnL (e ▸ hm))
    rw [List.map_congr_left (g := fun n => voltageOf y n * ((g n).electrostaticPotential p).getD 0) (fun m hm => by rw [hs m hm]),
      List.map_congr_left (g := fun n => voltageOf y n * ((g n).electrostaticField p).getD 0) (fun m hm => by rw [hs m hm])]
    simp only [Combined, CombinedV, Option.bind_some, Option.map_some, List.map_cons, List.sum_cons, Option.some.injEq, hvoln, hu, hu', Option.getD_some]
    exact ⟨by ring, by ext <;> simp <;> ring⟩

theorem parts_electro (hn : x.types.keys.Nodup) {L : List String} (h : ∀ n ∈ L, ∃ v, x.types.get n = some (.voltageFixed, .num v)) :
    (L.map (fun n => (n, ({ x with types := x.unitTypes n } : Excitation ℝ V3)))).filter (fun p => p.2.isElectrostatic) = L.map (fun n => (n, { x with types := x.unitTypes n })) := by
  rw [List.filter_eq_self]
  intro p hp
  obtain ⟨n, h1, rfl⟩ := List.mem_map.1 hp
  obtain ⟨v, h2⟩ := h n h1
  exact only_electro (x := { x with types := x.unitTypes n }) (by show (Dict.keys (x.unitTypes n)).Nodup; rw [unitTypes_keys]; exact hn) (unitOf_unit h2).one

theorem parts_magneto (hn : x.types.keys.Nodup) (hx : OnlyVoltages x) {L : List String} :
    (L.map (fun n => (n, ({ x with types := x.unitTypes n } : Excitation ℝ V3)))).filter (fun p => p.2.isMagnetostatic) = [] := by
  have : Inhabited V3 := ⟨0⟩
  rw [List.filter_eq_nil_iff]
  intro p hp
  obtain ⟨n, h1, rfl⟩ := List.mem_map.1 hp
  rw [only_notMag (x := { x with types := x.unitTypes n })
    (by show (Dict.keys (x.unitTypes n)).Nodup; rw [unitTypes_keys]; exact hn) (unit_only hx n)]
  simp

variable {G : Geo V3} {env : SolveEnv} {x' : Excitation ℝ V3} {f : PyObj}

/-- **C35**, for the fields. Let the excitation `x` of a valid mesh consist of fixed voltages and dielectrics, at least one voltage not being zero, and let `solve_direct x` return a field. Then
`solve_direct_superposition x` returns a dictionary with the names of the voltages other than zero, and
1. the field of a name is what `solve_direct` returns for 1 V on this name and 0 V on the others;
2. for every setting `y` of the voltages (zero voltages staying zero), `solve_direct y` returns a field, whose potentials and fields at all points are the sums of those of the returned fields weighted by
the voltages of `y`. (A value `none` would be an exception; there are none, so `getD` does not matter.)
All of this for all numbers of threads and schedules. -/
theorem C35_fields_partial (hG : G.Lawful) (hv : Valid x.mesh) (hn : x.types.keys.Nodup) (hx : OnlyVoltages x)
    (hnz : ∃ n v, v ≠ 0 ∧ x.types.get n = some (.voltageFixed, .num v)) (u : x.upgraded G = some x') (he : FaithfulEnv env x') (hE : EnoughLines env x')
    (hf : x.solveField G env = some f) :
    ∃ d, x.superpositionField G env = some d ∧ d.keys.Nodup ∧ (∀ n, n ∈ d.keys ↔ ∃ v, v ≠ 0 ∧ x.types.get n = some (.voltageFixed, .num v)) ∧
      (∀ n g y y' env', d.get n = some g → UnitOf x n y → y.upgraded G = some y' → FaithfulEnv env' y' → EnoughLines env' y' → y.solveField G env' = some g) ∧
      (∀ n g p, d.get n = some g → (g.electrostaticPotential p).isSome ∧ (g.electrostaticField p).isSome) ∧
      ∀ y y' env', SettingOf x y → y.upgraded G = some y' → FaithfulEnv env' y' → EnoughLines env' y' → ∃ f', y.solveField G env' = some f' ∧ ∀ p,
        f'.electrostaticPotential p = some ((d.map fun (ng : String × PyObj) => voltageOf y ng.1 * (ng.2.electrostaticPotential p).getD 0).sum) ∧
        f'.electrostaticField p = some ((d.map fun (ng : String × PyObj) => voltageOf y ng.1 * (ng.2.electrostaticField p).getD 0).sum) := by
  have hI : Inhabited V3 := ⟨0⟩
  have u0 := u
  unfold upgraded at u
  obtain ⟨M, hM, rfl⟩ := Option.map_eq_some_iff.1 u
  have hv' : Valid M := solverMesh_valid hG hv hM
  obtain ⟨n0, v0, hv0, hn0⟩ := hnz
  have hx' : OnlyVoltages ({ x with mesh := M } : Excitation ℝ V3) := hx
  rw [solveField_only u0 hn hx' (only_electro hn hn0)] at hf
  have hmem := fun n => mem_nonZeroFixed (x := ({ x with mesh := M } : Excitation ℝ V3)) hn hx' (n := n)
  have hne : Excitation.nonZeroFixed ({ x with mesh := M } : Excitation ℝ V3) ≠ [] := by
    intro e
    have := (hmem n0).2 ⟨v0, hv0, hn0⟩
    rw [e] at this; cases this
  have hnd : (Excitation.nonZeroFixed ({ x with mesh := M } : Excitation ℝ V3)).Nodup := nonZeroFixed_nodup hn
  obtain ⟨g, hg1, hg2⟩ := unitFields_eq (x := ({ x with mesh := M } : Excitation ℝ V3)) hv' hn hx' he hE hf hne (fun n hm => by
    obtain ⟨v, -, h⟩ := (hmem n).1 hm; exact ⟨v, h⟩)
  have hsplit := only_split (x := ({ x with mesh := M } : Excitation ℝ V3)) hn hx'
  generalize hL : Excitation.nonZeroFixed ({ x with mesh := M } : Excitation ℝ V3) = L at *
  have hkeys : Dict.keys (L.map fun n => (n, g n)) = L := by simp [Dict.keys, Function.comp_def]
  have hget : ∀ {n k}, Dict.get (L.map fun n => (n, g n)) n = some k → n ∈ L ∧ k = g n := by
    intro n k h
    have := Dict.mem_of_get h
    obtain ⟨m, hm, e⟩ := List.mem_map.1 this
    cases e
    exact ⟨hm, rfl⟩
  have hvolt : ∀ n ∈ L, ∃ v, x.types.get n = some (.voltageFixed, .num v) := fun n hm => by
    obtain ⟨v, -, h⟩ := (hmem n).1 hm; exact ⟨v, h⟩
  have hunit : ∀ n ∈ L, Excitation.solveStatics { ({ x with mesh := M } : Excitation ℝ V3) with types := x.unitTypes n } env .electrostatic = some (g n) := by
    intro n hm
    obtain ⟨v, h⟩ := hvolt n hm
    have hA := alike_unit (x := ({ x with mesh := M } : Excitation ℝ V3)) hn hx' h
    exact hg2 n hm env (hA.faithful hv' he) (hA.enough hE)
  refine ⟨L.map fun n => (n, g n), ?_, by rw [hkeys]; exact hnd, fun n => by rw [hkeys]; exact hmem n, ?_, ?_, ?_⟩
  · unfold superpositionField
    rw [u0]
    simp only [Option.bind_eq_bind, Option.bind_some]
    rw [hsplit, Option.bind_some]
    have hel := parts_electro (x := ({ x with mesh := M } : Excitation ℝ V3)) hn hvolt
    have hmag := parts_magneto (x := ({ x with mesh := M } : Excitation ℝ V3)) hn hx' (L := L)
    rw [hel, hmag, hg1, Option.bind_some]
    have hm0 : Excitation.unitFields ({ x with mesh := M } : Excitation ℝ V3) env .magnetostatic [] = some [] := by
      unfold solveStatics at hf
      obtain ⟨st, hst, -⟩ := Option.bind_eq_some_iff.1 hf
      obtain ⟨st', h1, h2⟩ := only_magInit (x := ({ x with mesh := M } : Excitation ℝ V3)) hv' hn hx' hst
      unfold unitFields
      rw [h1]
      simp [SolverState.solveMany, h2]
    rw [hm0]
    rfl
  · intro n k y y' env' hk hU hu he' hE'
    obtain ⟨hm, rfl⟩ := hget hk
    obtain ⟨v, h⟩ := hvolt n hm
    have hy := unitOf_eq hn hx hU
    have hyt : y.types = x.unitTypes n := by rw [hy]
    have hy' : y' = { ({ x with mesh := M } : Excitation ℝ V3) with types := x.unitTypes n } := by
      unfold upgraded at hu
      rw [hy] at hu
      simp only at hu
      rw [hM] at hu
      cases hu
      rfl
    subst hy'
    rw [solveField_only hu (by show (Dict.keys (x.unitTypes n)).Nodup; rw [unitTypes_keys]; exact hn) (unit_only hx n)
      (only_electro (x := { ({ x with mesh := M } : Excitation ℝ V3) with types := x.unitTypes n }) (by show (Dict.keys (x.unitTypes n)).Nodup; rw [unitTypes_keys]; exact hn) (unitOf_unit h).one)]
    exact hg2 n hm env' he' hE'
  · intro n k p hk
    obtain ⟨hm, rfl⟩ := hget hk
    obtain ⟨a, b, h1, h2⟩ := solveStatics_values (hunit n hm) p
    rw [h1, h2]; exact ⟨rfl, rfl⟩
  · intro y y' env' hS hu he' hE'
    have hA0 := SettingOf_alike hn hx hS
    have hy' : y' = { y with mesh := M } := by
      unfold upgraded at hu
      rw [hS.mesh, hM] at hu
      cases hu
      rfl
    subst hy'
    have hA : Alike ({ x with mesh := M } : Excitation ℝ V3) { y with mesh := M } := hA0.withMesh M
    obtain ⟨f', h1, h2⟩ := sum_units (x := ({ x with mesh := M } : Excitation ℝ V3)) hv' hn hx' he hE hf g hnd (fun n hm => ⟨hvolt n hm, hunit n hm⟩) { y with mesh := M } hA
      (fun n hnL => by
        have hnL' := fun h => hnL ((hmem n).2 h)
        show voltageOf y n = 0 ∨ ∃ v, y.types.get n = some (.dielectric, v)
        cases hxn : x.types.get n with
        | none =>
          have : y.types.get n = none := by
            rw [Dict.get_none_iff] at hxn ⊢
            rw [hS.names]; exact hxn
          exact Or.inl (by unfold voltageOf; rw [this])
        | some tv =>
          obtain ⟨hty, v, hvv⟩ := hx n tv hxn
          obtain ⟨t, w⟩ := tv
          simp only at hty hvv
          subst hvv
          rcases hty with rfl | rfl
          · by_cases e : v = 0
            · subst e
              exact Or.inl (by unfold voltageOf; rw [hS.zero n hxn])
            · exact absurd ⟨v, e, hxn⟩ hnL'
          · exact Or.inr ⟨_, hS.same n _ hxn⟩) env' he' hE'
    refine ⟨f', ?_, fun p => ?_⟩
    · obtain ⟨w, hw⟩ := hS.volts n0 _ hn0
      rw [solveField_only hu hA.nodup₂ hA.only₂ (only_electro (x := { y with mesh := M }) hA.nodup₂ hw)]
      exact h1
    · obtain ⟨k1, k2⟩ := h2 p
      rw [k1, k2, List.map_map, List.map_map]
      exact ⟨rfl, rfl⟩

end
end Traceon

namespace Traceon
open Spec Excitation

/-- **C35**: the hypotheses of `C35_fields_partial` are met by a plate at 10 V, which has the unit excitation of a plate at 1 V and the setting of a plate at `v` V. -/
theorem C35_fields_example (G : Geo V3) : ∃ env f, Valid plateMesh ∧ (plateAt 10).types.keys.Nodup ∧ OnlyVoltages (plateAt 10) ∧
    (plateAt 10).types.get "plate" = some (.voltageFixed, .num 10) ∧ (plateAt 10).upgraded G = some (plateAt 10) ∧ FaithfulEnv env (plateAt 10) ∧ EnoughLines env (plateAt 10) ∧
    (plateAt 10).solveField G env = some f ∧ UnitOf (plateAt 10) "plate" (plateAt 1) ∧ ∀ v, SettingOf (plateAt 10) (plateAt v) := by
  obtain ⟨env, env', f, -, hv, -, hu, he, -, hE, hf⟩ := C84_example G 1 0
  have hget : ∀ (v : ℝ) (n : String) (t : ExcType × ExcVal ℝ V3), (plateAt v).types.get n = some t → n = "plate" ∧ t = (.voltageFixed, .num v) := by
    intro v n t h
    have := Dict.mem_of_get h
    simp only [plateAt, List.mem_cons, Prod.mk.injEq, List.not_mem_nil, or_false] at this
    exact this
  refine ⟨env, f, hv, by simp [Dict.keys, plateAt], fun n tv h => ?_, rfl, hu 10, he, hE env 10, hf, ⟨rfl, rfl, rfl, fun m v hm h => absurd (hget _ _ _ h).1 hm, fun m v h => ?_⟩,
    fun v => ⟨rfl, rfl, rfl, fun m w h => ?_, fun m h => ?_, fun m w h => ?_⟩⟩
  · obtain ⟨-, rfl⟩ := hget _ _ _ h
    exact ⟨Or.inl rfl, 10, rfl⟩
  · have := (hget _ _ _ h).2; cases this
  · obtain ⟨rfl, -⟩ := hget _ _ _ h
    exact ⟨v, rfl⟩
  · have := (hget _ _ _ h).2
    simp at this
  · have := (hget _ _ _ h).2; cases this

/-- **C35 is false for a coil next to a magnetizable material.** The unit field of the coil has the magnetic charges of a unit current, but carries the full current of the coil: weighted by the current, 3,
the coil current is 9 instead of 3. -/
theorem C35_coil_refuted : ∃ x : Excitation ℚ IPoint, Valid x.mesh ∧ x.types.get "coil" = some (.current, .num 3) ∧ x.types.keys = ["spacer", "coil"] ∧
    x.solveDirect exPhys = some { mag := some ([6], [("coil", 3)]) } ∧ x.solveSuperposition exPhys = some [("coil", { mag := some ([2], [("coil", 3)]) })] := by
  refine ⟨exExc [("spacer", .magnetizable, .num 2), ("coil", .current, .num 3)], exLens_valid, rfl, rfl, ?_, ?_⟩
  · have h3 : (exExc [("spacer", .magnetizable, .num 2), ("coil", .current, .num 3)]).rhs exPhys .magnetostatic = some [6] := by decide +kernel
    have h4 : (exExc [("spacer", .magnetizable, .num 2), ("coil", .current, .num 3)]).solveRhs exPhys .magnetostatic [[6]] = solveMatrix (1 : Matrix (Fin 1) (Fin 1) ℚ) [[6]] := rfl
    rw [solveMatrix_one (by simp) _ (by simp) (by simp)] at h4
    unfold Excitation.solveDirect
    rw [if_neg (by decide), if_pos (by rfl), h3]
    simp only [Option.bind_eq_bind, Option.bind_some, h4]
    rfl
  · have h1 : (exExc [("spacer", .magnetizable, .num 2), ("coil", .current, .num 3)]).splitForSuperposition =
        some [("coil", exExc [("spacer", .magnetizable, .num 2), ("coil", .current, .num 1)])] := by
      unfold Excitation.splitForSuperposition
      rw [if_neg]
      · rfl
      · rintro ⟨_, h⟩; exact absurd h (by decide)
    have h2 : (exExc [("spacer", .magnetizable, .num 2), ("coil", .current, .num 3)]).solveRhs exPhys .electrostatic [] = solveMatrix (1 : Matrix (Fin 0) (Fin 0) ℚ) [] := rfl
    have h5 : solveMatrix (1 : Matrix (Fin 0) (Fin 0) ℚ) [] = some [] := by simp [solveMatrix]
    have h3 : (exExc [("spacer", .magnetizable, .num 2), ("coil", .current, .num 1)]).rhs exPhys .magnetostatic = some [2] := by decide +kernel
    have h4 : (exExc [("spacer", .magnetizable, .num 2), ("coil", .current, .num 3)]).solveRhs exPhys .magnetostatic [[2]] = solveMatrix (1 : Matrix (Fin 1) (Fin 1) ℚ) [[2]] := rfl
    rw [solveMatrix_one (by simp) _ (by simp) (by simp)] at h4
    unfold Excitation.solveSuperposition
    rw [h1]
    have e1 : (exExc [("spacer", .magnetizable, .num 2), ("coil", .current, .num 1)]).isElectrostatic = false := rfl
    have e2 : (exExc [("spacer", .magnetizable, .num 2), ("coil", .current, .num 1)]).isMagnetostatic = true := rfl
    simp only [Option.bind_eq_bind, Option.bind_some, List.filter_cons, List.filter_nil, e1, e2, if_true, Bool.false_eq_true, if_false, List.mapM_nil, List.mapM_cons, Option.pure_def, h2, h5, h3, h4]
    rfl

end Traceon
