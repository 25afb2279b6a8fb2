import Verif.Props.SuperpositionField6

/-!
# C35 for coils and magnetizable materials: the theorem
-/
namespace Traceon
open Spec Excitation

section
variable {x : Excitation ℝ V3} {G : Geo V3} {env : SolveEnv} {x' : Excitation ℝ V3} {f : PyObj}

theorem CurrentSettingOf_alike {y : Excitation ℝ V3} (hn : x.types.keys.Nodup) (hx : OnlyCurrents x) (h : CurrentSettingOf x y) : AlikeC x y := by
  have hget : ∀ m tv, x.types.get m = some tv → (tv.1 = .current ∧ ∃ w, y.types.get m = some (.current, .num w)) ∨ (tv.1 = .magnetizable ∧ y.types.get m = some tv ∧ ∃ v, tv.2 = .num v) := by
    intro m tv htv
    obtain ⟨h1, h2⟩ := hx m tv htv
    obtain ⟨t, v⟩ := tv
    simp only at h1
    rcases h1 with rfl | rfl
    · exact Or.inl ⟨rfl, h.currents m v htv⟩
    · exact Or.inr ⟨rfl, h.same m v htv, h2⟩
  have hnone : ∀ m, x.types.get m = none → y.types.get m = none := by
    intro m hm
    rw [Dict.get_none_iff] at hm ⊢
    rw [h.names]; exact hm
  refine ⟨h.mesh, h.symmetry, h.names, hn, hx, fun m tv htv => ?_, fun m => ?_, h.same⟩
  · cases hm : x.types.get m with
    | none => rw [hnone m hm] at htv; cases htv
    | some tv' =>
      rcases hget m tv' hm with ⟨h1, w, h2⟩ | ⟨h1, h2, h3⟩
      · rw [h2] at htv; cases htv
        exact ⟨Or.inl rfl, w, rfl⟩
      · rw [h2] at htv; cases htv
        exact ⟨Or.inr h1, h3⟩
  · cases hm : x.types.get m with
    | none => rw [hnone m hm]
    | some tv' =>
      rcases hget m tv' hm with ⟨h1, w, h2⟩ | ⟨h1, h2, h3⟩
      · rw [h2]; simp [h1]
      · rw [h2]

/-- **C35**, for coils and magnetizable materials. Let the excitation `x` of a valid mesh consist of currents and magnetizable materials, at least one current not being zero, and let `solve_direct x`
return a field. Then `solve_direct_superposition x` returns a dictionary with the names of the currents other than zero. For every setting `y` of the currents (zero currents staying zero)
`solve_direct y` returns a field whose magnetostatic potential and whose field of the magnetized materials are at all points the sums of those of the returned fields weighted by the currents of `y`.
What is missing to the full property: every one of the returned fields has the coils of `x` with all their currents, so that the sum of the returned fields weighted by the currents of `x` differs from the
field of `x` by the field of the coils times the sum of the currents minus one. -/
theorem C35_currents_partial (hG : G.Lawful) (hv : Valid x.mesh) (hn : x.types.keys.Nodup) (hx : OnlyCurrents x)
    (hnz : ∃ n v, v ≠ 0 ∧ x.types.get n = some (.current, .num v)) (u : x.upgraded G = some x') (he : FaithfulEnv env x') (hE : EnoughLines env x')
    (hf : x.solveField G env = some f) :
    ∃ d, x.superpositionField G env = some d ∧ d.keys.Nodup ∧ (∀ n, n ∈ d.keys ↔ ∃ v, v ≠ 0 ∧ x.types.get n = some (.current, .num v)) ∧
      (∀ n g p, d.get n = some g → (g.magnetostaticPotential p).isSome ∧ (g.magnetostaticField p).isSome ∧ g.currentFieldAtPoint p = f.currentFieldAtPoint p) ∧
      (∀ y y' env', CurrentSettingOf x y → y.upgraded G = some y' → FaithfulEnv env' y' → EnoughLines env' y' → ∃ f', y.solveField G env' = some f' ∧ ∀ p,
        f'.magnetostaticPotential p = some ((d.map fun (ng : String × PyObj) => currentOf y ng.1 * (ng.2.magnetostaticPotential p).getD 0).sum) ∧
        materialField f' p = some ((d.map fun (ng : String × PyObj) => currentOf y ng.1 * (materialField ng.2 p).getD 0).sum)) ∧
      ∀ p, (d.map fun (ng : String × PyObj) => currentOf x ng.1 * (ng.2.magnetostaticField p).getD 0).sum =
        (f.magnetostaticField p).getD 0 + ((d.map fun (ng : String × PyObj) => currentOf x ng.1).sum - 1) * (f.currentFieldAtPoint p).getD 0 := by
  have u0 := u
  unfold upgraded at u
  obtain ⟨M, hM, rfl⟩ := Option.map_eq_some_iff.1 u
  have hv' : Valid M := solverMesh_valid hG hv hM
  obtain ⟨n0, v0, hv0, hn0⟩ := hnz
  have hx' : OnlyCurrents ({ x with mesh := M } : Excitation ℝ V3) := hx
  have hf0 := hf
  rw [solveField_onlyC u0 hn hx' (onlyC_isMag hn hn0)] at hf
  have hmem := fun n => mem_nonZeroFixedC (x := ({ x with mesh := M } : Excitation ℝ V3)) hn hx' (n := n)
  have hne : Excitation.nonZeroFixed ({ x with mesh := M } : Excitation ℝ V3) ≠ [] := by
    intro e
    have := (hmem n0).2 ⟨v0, hv0, hn0⟩
    rw [e] at this; cases this
  have hnd : (Excitation.nonZeroFixed ({ x with mesh := M } : Excitation ℝ V3)).Nodup := nonZeroFixed_nodup hn
  obtain ⟨g, w, hg1, hg2⟩ := unitFields_eqC (x := ({ x with mesh := M } : Excitation ℝ V3)) hv' hn hx' he hE hf hne (fun n hm => by
    obtain ⟨v, -, h⟩ := (hmem n).1 hm; exact ⟨v, h⟩)
  have hsplit := onlyC_split (x := ({ x with mesh := M } : Excitation ℝ V3)) hn hx'
  generalize hL : Excitation.nonZeroFixed ({ x with mesh := M } : Excitation ℝ V3) = L at *
  have hkeys : Dict.keys (L.map fun n => (n, g n)) = L := by simp [Dict.keys, Function.comp_def]
  have hget : ∀ {n k}, Dict.get (L.map fun n => (n, g n)) n = some k → n ∈ L ∧ k = g n := by
    intro n k h
    have := Dict.mem_of_get h
    obtain ⟨m, hm, e⟩ := List.mem_map.1 this
    cases e
    exact ⟨hm, rfl⟩
  have hcur : ∀ n ∈ L, ∃ v, x.types.get n = some (.current, .num v) := fun n hm => by
    obtain ⟨v, -, h⟩ := (hmem n).1 hm; exact ⟨v, h⟩
  have hvals : ∀ n ∈ L, ∀ p, ∃ a b, (g n).magnetostaticPotential p = some a ∧ materialField (g n) p = some b := by
    intro n hm p
    obtain ⟨h1, h2, -⟩ := hg2 n hm
    obtain ⟨a, b, h3, h4⟩ := solveStatics_valuesC h1 p
    exact ⟨a, b, by rw [(h2 p).1, h3], by rw [(h2 p).2, h4]⟩
  have hset : ∀ y y' env', CurrentSettingOf x y → y.upgraded G = some y' → FaithfulEnv env' y' → EnoughLines env' y' → ∃ f', y.solveField G env' = some f' ∧ ∀ p,
        f'.magnetostaticPotential p = some (((L.map fun n => (n, g n)).map fun (ng : String × PyObj) => currentOf y ng.1 * (ng.2.magnetostaticPotential p).getD 0).sum) ∧
        materialField f' p = some (((L.map fun n => (n, g n)).map fun (ng : String × PyObj) => currentOf y ng.1 * (materialField ng.2 p).getD 0).sum) := by
    intro y y' env' hS hu he' hE'
    have hA0 := CurrentSettingOf_alike hn hx hS
    have hy' : y' = { y with mesh := M } := by
      unfold upgraded at hu
      rw [hS.mesh, hM] at hu
      cases hu
      rfl
    subst hy'
    have hA : AlikeC ({ x with mesh := M } : Excitation ℝ V3) { y with mesh := M } := hA0.withMesh M
    obtain ⟨f', h1, h2⟩ := sum_unitsC (x := ({ x with mesh := M } : Excitation ℝ V3)) hv' hn hx' he hE hf w hnd (fun n hm => ⟨hcur n hm, (hg2 n hm).1⟩) { y with mesh := M } hA
      (fun n hnL => by
        have hnL' := fun h => hnL ((hmem n).2 h)
        show currentOf y n = 0 ∨ ∃ v, y.types.get n = some (.magnetizable, v)
        cases hxn : x.types.get n with
        | none =>
          have : y.types.get n = none := by
            rw [Dict.get_none_iff] at hxn ⊢
            rw [hS.names]; exact hxn
          exact Or.inl (by unfold currentOf; rw [this])
        | some tv =>
          obtain ⟨hty, v, hvv⟩ := hx n tv hxn
          obtain ⟨t, w⟩ := tv
          simp only at hty hvv
          subst hvv
          rcases hty with rfl | rfl
          · by_cases e : v = 0
            · subst e
              exact Or.inl (by unfold currentOf; rw [hS.zero n hxn])
            · exact absurd ⟨v, e, hxn⟩ hnL'
          · exact Or.inr ⟨_, hS.same n _ hxn⟩) env' he' hE'
    refine ⟨f', ?_, fun p => ?_⟩
    · obtain ⟨w, hw⟩ := hS.currents n0 _ hn0
      rw [solveField_onlyC hu hA.nodup₂ hA.only₂ (onlyC_isMag (x := { y with mesh := M }) hA.nodup₂ hw)]
      exact h1
    · obtain ⟨k1, k2⟩ := h2 p
      rw [k1, k2, List.map_map, List.map_map]
      refine ⟨congrArg some (congrArg List.sum (List.map_congr_left fun n hm => ?_)), congrArg some (congrArg List.sum (List.map_congr_left fun n hm => ?_))⟩
      · rw [← ((hg2 n hm).2.1 p).1]; rfl
      · rw [← ((hg2 n hm).2.1 p).2]; rfl
  refine ⟨L.map fun n => (n, g n), ?_, by rw [hkeys]; exact hnd, fun n => by rw [hkeys]; exact hmem n, ?_, hset, ?_⟩
  · unfold superpositionField
    rw [u0]
    simp only [Option.bind_eq_bind, Option.bind_some]
    rw [hsplit, Option.bind_some]
    have hel := partsC_electro (x := ({ x with mesh := M } : Excitation ℝ V3)) hn hx' (L := L)
    have hmag := partsC_magneto (x := ({ x with mesh := M } : Excitation ℝ V3)) hn hx' hcur
    rw [hel, hmag, hg1]
    have he0 : Excitation.unitFields ({ x with mesh := M } : Excitation ℝ V3) env .electrostatic [] = some [] := by
      unfold solveStatics at hf
      obtain ⟨st, hst, -⟩ := Option.bind_eq_some_iff.1 hf
      obtain ⟨st', h1, h2⟩ := onlyC_elecInit (x := ({ x with mesh := M } : Excitation ℝ V3)) hv' hn hx' hst
      unfold unitFields
      rw [h1]
      simp [SolverState.solveMany, h2]
    rw [he0, Option.bind_some, Option.bind_some]
    show some _ = some _
    rw [Option.some.injEq]
    have key : ∀ (l : List String) (d : Dict PyObj), (d.keys ++ l).Nodup → (l.map fun n => (n, g n)).foldl (fun d kv => d.set kv.1 kv.2) d = d ++ l.map fun n => (n, g n) := by
      intro l
      induction l with
      | nil => intro d _; simp
      | cons a l ih =>
        intro d hd
        have ha : a ∉ d.keys := fun h => by
          rw [List.nodup_append] at hd
          exact hd.2.2 a h a (by simp) rfl
        have hset : d.set a (g a) = d ++ [(a, g a)] := by
          unfold Dict.set
          rw [if_neg]
          simpa [Dict.has, Dict.keys] using ha
        rw [List.map_cons, List.foldl_cons]
        rw [hset, ih]
        · simp
        · simpa [Dict.keys] using hd
    have := key L [] (by simpa [Dict.keys] using hnd)
    rw [List.nil_append] at this
    exact this
  · intro n k p hk
    obtain ⟨hm, rfl⟩ := hget hk
    obtain ⟨a, b, h1, h2⟩ := hvals n hm p
    refine ⟨by rw [h1]; rfl, ?_, (hg2 n hm).2.2 p⟩
    unfold materialField at h2
    obtain ⟨c, h3, -⟩ := Option.map_eq_some_iff.1 h2
    rw [h3]; rfl
  · intro p
    obtain ⟨f', h1, h2⟩ := hset x _ env ⟨rfl, rfl, rfl, fun m v h => by
      obtain ⟨-, w, hw⟩ := hx m _ h
      exact ⟨w, by rw [h]; simp only at hw; rw [hw]⟩, fun m h => h, fun m v h => h⟩ u0 he hE
    rw [hf0] at h1
    cases h1
    obtain ⟨-, h3⟩ := h2 p
    rw [List.map_map] at h3
    rw [List.map_map, List.map_map]
    obtain ⟨C, hC⟩ : ∃ C, C = (f.currentFieldAtPoint p).getD 0 := ⟨_, rfl⟩
    rw [← hC]
    have hfm : (f.magnetostaticField p).getD 0 = (materialField f p).getD 0 + C := by
      unfold materialField at h3 ⊢
      obtain ⟨c, h4, -⟩ := Option.map_eq_some_iff.1 h3
      rw [h4, ← hC]
      ext <;> simp
    have hgm : ∀ n ∈ L, ((g n).magnetostaticField p).getD 0 = (materialField (g n) p).getD 0 + C := by
      intro n hm
      obtain ⟨a, b, -, h5⟩ := hvals n hm p
      have h6 := (hg2 n hm).2.2 p
      unfold materialField at h5 ⊢
      obtain ⟨c, h4, -⟩ := Option.map_eq_some_iff.1 h5
      rw [h4, h6, ← hC]
      ext <;> simp
    rw [hfm, h3, Option.getD_some]
    have hsum : ∀ l : List String, (∀ n ∈ l, n ∈ L) → (l.map fun n => currentOf x n * ((g n).magnetostaticField p).getD 0).sum =
        (l.map fun n => currentOf x n * (materialField (g n) p).getD 0).sum + (l.map fun n => currentOf x n).sum * C := by
      intro l
      induction l with
      | nil => intro _; ext <;> simp
      | cons a l ih =>
        intro h
        rw [List.map_cons, List.sum_cons, ih fun n hn => h n (by simp [hn]), hgm a (h a (by simp)), List.map_cons, List.sum_cons, List.map_cons, List.sum_cons]
        ext <;> simp <;> ring
    refine Eq.trans (hsum L fun n h => h) ?_
    show _ = (L.map fun n => currentOf x n * (materialField (g n) p).getD 0).sum + C + ((L.map fun n => currentOf x n).sum - 1) * C
    ext <;> simp <;> ring

end
end Traceon
